import Verif.Model.Tree
import Verif.Spec.Tree
import Verif.Proofs.HistFile
/-! # The picture of a completer: C86 -/

namespace RL
open Spec

theorem blank_iff (s : List Rune) : PTree.blank s = true ↔ ¬ ∃ r ∈ s, isSpace r = false := by
  have key : ∀ s : List Rune, trimSpaceLeft s = [] ↔ ¬ ∃ r ∈ s, isSpace r = false := by
    intro s
    induction s with
    | nil => simp [trimSpaceLeft]
    | cons a s ih =>
      unfold trimSpaceLeft
      by_cases h : isSpace a = false
      · simp [h]
      · rw [if_neg h, ih]; simp [h]
  simp only [PTree.blank, decide_eq_true_eq, List.length_eq_zero_iff, key]
  obtain ⟨a, h1, h2, _⟩ := Hist.trimLeft_spec s
  constructor
  · rintro h ⟨r, hr, h0⟩
    rw [h1] at hr
    rcases List.mem_append.1 hr with hr | hr
    · rw [h2 r hr] at h0; cases h0
    · exact h ⟨r, by simpa using hr, h0⟩
  · rintro h ⟨r, hr, h0⟩
    exact h ⟨r, by rw [h1]; simp only [List.mem_reverse] at hr; exact List.mem_append_right _ hr, h0⟩

namespace Spec.Items

theorem rows_append (d : Nat) (a b : Items) : (a.append b).rows d = a.rows d ++ b.rows d := by
  induction a with
  | nil => rfl
  | item n u r _ ih => simp [append, rows, ih]

theorem rows_ge (d : Nat) (t : Items) : ∀ x ∈ t.rows d, d ≤ x.1 := by
  induction t generalizing d with
  | nil => simp [rows]
  | item n u r ih1 ih2 =>
    intro x hx
    simp only [rows, List.mem_cons, List.mem_append] at hx
    rcases hx with rfl | hx | hx
    · exact Nat.le_refl _
    · exact Nat.le_of_succ_le (ih1 _ x hx)
    · exact ih2 _ x hx

/-- Names and depths determine the items. -/
theorem rows_inj {d : Nat} {a b : Items} {r s : List (Nat × List Rune)} (h : a.rows d ++ r = b.rows d ++ s)
    (hr : ∀ x, r.head? = some x → x.1 < d) (hs : ∀ x, s.head? = some x → x.1 < d) : a = b ∧ r = s := by
  induction a generalizing d b r s with
  | nil =>
    cases b with
    | nil => exact ⟨rfl, h⟩
    | item n u t =>
      have := hr (d, n) (by rw [show r = _ from h]; rfl)
      simp at this
  | item n u t ih1 ih2 =>
    cases b with
    | nil =>
      have := hs (d, n) (by rw [← show _ = s from h]; rfl)
      simp at this
    | item n' u' t' =>
      simp only [rows, List.cons_append, List.cons.injEq, Prod.mk.injEq, true_and, List.append_assoc] at h
      obtain ⟨rfl, h⟩ := h
      have low : ∀ (t : Items) (r : List (Nat × List Rune)), (∀ x, r.head? = some x → x.1 < d) → ∀ x, (t.rows d ++ r).head? = some x → x.1 < d + 1 := by
        intro t r hr x hx
        cases t with
        | nil => exact Nat.lt_succ_of_lt (hr x hx)
        | item n u t => simp only [rows, List.cons_append, List.head?_cons, Option.some.injEq] at hx; subst hx; exact Nat.lt_succ_self d
      obtain ⟨q1, q2⟩ := ih1 h (low _ _ hr) (low _ _ hs)
      obtain ⟨q3, q4⟩ := ih2 q2 hr hs
      exact ⟨by rw [q1, q3], q4⟩

theorem plain_rows {t : Items} (h : t.Plain) (d : Nat) : ∀ x ∈ t.rows d, (10 : Rune) ∉ x.2 ∧ x.2.head? ≠ some 0x251C := by
  induction t generalizing d with
  | nil => simp [rows]
  | item n u r ih1 ih2 =>
    obtain ⟨h1, h2, h3, h4⟩ := h
    intro x hx
    simp only [rows, List.mem_cons, List.mem_append] at hx
    rcases hx with rfl | hx | hx
    · exact ⟨h1, h2⟩
    · exact ih1 h3 _ x hx
    · exact ih2 h4 _ x hx

end Spec.Items

/-- The line of an item, at any level. -/
theorem row_eq (pre n : List Rune) (d : Nat) :
    pre ++ (if d > 0 then [0x251C] ++ List.replicate (d * 4 - 2) 0x2500 ++ [32] else []) ++ (n ++ [10]) = row pre d n ++ [10] := by
  unfold row
  by_cases h : d = 0
  · simp [h]
  · rw [if_pos (by omega), if_neg h, Nat.mul_comm]; simp

mutual
theorem print_rows (pre : List Rune) : ∀ (t : PTree) (d : Nat), PTree.print pre t d = ((itemsOf t).rows d).flatMap fun (d, n) => row pre d n ++ [10]
  | .node n dyn cs, d => by
    have ih := printAll_rows pre cs
    by_cases h : ∃ r ∈ n, isSpace r = false
    · have hb : PTree.blank n = false := by
        rw [Bool.eq_false_iff]; exact fun h1 => (blank_iff n).1 h1 h
      rw [PTree.print, if_pos hb, row_eq, ih, itemsOf, if_pos h]
      simp [Items.rows]
    · have hb : PTree.blank n = true := (blank_iff n).2 h
      rw [PTree.print, if_neg (by simp [hb]), ih, itemsOf, if_neg h]
theorem printAll_rows (pre : List Rune) : ∀ (cs : List PTree) (d : Nat), PTree.printAll pre cs d = ((itemsOfAll cs).rows d).flatMap fun (d, n) => row pre d n ++ [10]
  | [], d => rfl
  | c :: cs, d => by
    rw [PTree.printAll, print_rows pre c d, printAll_rows pre cs d, itemsOfAll, Items.rows_append, List.flatMap_append]
end

/-- C86: `Tree` draws the picture of the items with names. -/
theorem C86_picture (pre : List Rune) (t : PTree) : t.tree pre = treePicture pre (itemsOf t) := print_rows pre t 0

theorem row_inj {pre n n' : List Rune} {d d' : Nat} (hn : n.head? ≠ some 0x251C) (hn' : n'.head? ≠ some 0x251C) (h : row pre d n = row pre d' n') :
    d = d' ∧ n = n' := by
  unfold row at h
  have h := List.append_cancel_left h
  have count : ∀ (k k' : Nat) (n n' : List Rune), List.replicate k (0x2500 : Rune) ++ 32 :: n = List.replicate k' 0x2500 ++ 32 :: n' → k = k' ∧ n = n' := by
    intro k
    induction k with
    | zero =>
      intro k' n n' h
      cases k' with
      | zero => simpa using h
      | succ k' => simp [List.replicate_succ] at h
    | succ k ih =>
      intro k' n n' h
      cases k' with
      | zero => simp [List.replicate_succ] at h
      | succ k' =>
        simp only [List.replicate_succ, List.cons_append, List.cons.injEq, true_and] at h
        obtain ⟨h1, h2⟩ := ih k' n n' h
        exact ⟨by omega, h2⟩
  by_cases h1 : d = 0 <;> by_cases h2 : d' = 0
  · rw [if_pos h1, if_pos h2] at h; exact ⟨by omega, h⟩
  · rw [if_pos h1, if_neg h2] at h; rw [h] at hn; exact absurd rfl hn
  · rw [if_neg h1, if_pos h2] at h; rw [← h] at hn'; exact absurd rfl hn'
  · rw [if_neg h1, if_neg h2] at h
    simp only [List.cons_append, List.cons.injEq, true_and] at h
    obtain ⟨h3, h4⟩ := count _ _ _ _ h
    exact ⟨by omega, h4⟩

theorem row_line {pre n : List Rune} (d : Nat) (hp : (10 : Rune) ∉ pre) (hn : (10 : Rune) ∉ n) : (10 : Rune) ∉ row pre d n := by
  unfold row
  split <;> simp_all

theorem lines_inj {a b : List (List Rune)} (ha : ∀ l ∈ a, (10 : Rune) ∉ l) (hb : ∀ l ∈ b, (10 : Rune) ∉ l)
    (h : a.flatMap (· ++ [10]) = b.flatMap (· ++ [10])) : a = b := by
  induction a generalizing b with
  | nil =>
    cases b with
    | nil => rfl
    | cons y b => simp at h
  | cons x a ih =>
    cases b with
    | nil => simp at h
    | cons y b =>
      simp only [List.flatMap_cons, List.append_assoc, List.cons_append, List.nil_append] at h
      have hx := ha x (by simp)
      have hy := hb y (by simp)
      have cut : ∀ (x y r s : List Rune), (10 : Rune) ∉ x → (10 : Rune) ∉ y → x ++ 10 :: r = y ++ 10 :: s → x = y ∧ r = s := by
        intro x
        induction x with
        | nil =>
          intro y r s _ hy h
          cases y with
          | nil => simpa using h
          | cons c y => simp only [List.nil_append, List.cons_append, List.cons.injEq] at h; simp [← h.1] at hy
        | cons c x ih =>
          intro y r s hx hy h
          cases y with
          | nil => simp only [List.nil_append, List.cons_append, List.cons.injEq] at h; simp [h.1] at hx
          | cons c' y =>
            simp only [List.cons_append, List.cons.injEq] at h
            simp only [List.mem_cons, not_or] at hx hy
            obtain ⟨h1, h2⟩ := ih y r s hx.2 hy.2 h.2
            exact ⟨by rw [h.1, h1], h2⟩
      obtain ⟨h1, h2⟩ := cut x y _ _ hx hy h
      rw [h1, ih (fun l hl => ha l (by simp [hl])) (fun l hl => hb l (by simp [hl])) h2]

/-- C86: the picture determines the items: two completers whose items have plain names and that look the same have the same items. -/
theorem C86_determines {pre : List Rune} (hp : (10 : Rune) ∉ pre) {t t' : PTree} (h1 : (itemsOf t).Plain) (h2 : (itemsOf t').Plain)
    (h : t.tree pre = t'.tree pre) : itemsOf t = itemsOf t' := by
  rw [C86_picture, C86_picture] at h
  have p1 := Items.plain_rows h1 0
  have p2 := Items.plain_rows h2 0
  have e : ((itemsOf t).rows 0).map (fun x => row pre x.1 x.2) = ((itemsOf t').rows 0).map fun x => row pre x.1 x.2 := by
    refine lines_inj ?_ ?_ ?_
    · intro l hl
      obtain ⟨x, hx, rfl⟩ := List.mem_map.1 hl
      exact row_line _ hp (p1 x hx).1
    · intro l hl
      obtain ⟨x, hx, rfl⟩ := List.mem_map.1 hl
      exact row_line _ hp (p2 x hx).1
    · rw [List.flatMap_map, List.flatMap_map]; exact h
  have e2 : ∀ (a b : List (Nat × List Rune)), (∀ x ∈ a, x.2.head? ≠ some 0x251C) → (∀ x ∈ b, x.2.head? ≠ some 0x251C) →
      a.map (fun x => row pre x.1 x.2) = b.map (fun x => row pre x.1 x.2) → a = b := by
    intro a
    induction a with
    | nil => intro b _ _ h; simpa using h.symm
    | cons x a ih =>
      intro b ha hb h
      cases b with
      | nil => simp at h
      | cons y b =>
        simp only [List.map_cons, List.cons.injEq] at h
        obtain ⟨q1, q2⟩ := row_inj (ha x (by simp)) (hb y (by simp)) h.1
        rw [ih b (fun z hz => ha z (by simp [hz])) (fun z hz => hb z (by simp [hz])) h.2, Prod.ext q1 q2]
  have e3 := e2 _ _ (fun x hx => (p1 x hx).2) (fun x hx => (p2 x hx).2) e
  exact (Items.rows_inj (d := 0) (r := []) (s := []) (by simpa using e3) (by simp) (by simp)).1

/-- A completer: "a" with "b" and "c" below, and "d". -/
private def t86 : PTree := .item [] [.item [97] [.item [98] [], .item [99] []], .item [100] []]

example : t86.tree [62] = treePicture [62] (itemsOf t86) ∧ (itemsOf t86) = .item [97, 32] (.item [98, 32] .nil (.item [99, 32] .nil .nil)) (.item [100, 32] .nil .nil) ∧
    t86.tree [62] = [62, 97, 32, 10, 62, 0x251C, 0x2500, 0x2500, 32, 98, 32, 10, 62, 0x251C, 0x2500, 0x2500, 32, 99, 32, 10, 62, 100, 32, 10] := by
  decide +kernel

example : (itemsOf t86).Plain := by
  rw [show itemsOf t86 = .item [97, 32] (.item [98, 32] .nil (.item [99, 32] .nil .nil)) (.item [100, 32] .nil .nil) by decide +kernel]
  simp [Items.Plain]

/-- C86 is false of the dynamic items: they are not drawn, and what is below them is drawn as if it were below their parent. -/
theorem C86_false_dynamic (f : List Rune → List (List Rune)) :
    (PTree.item [] [.item [97] [.itemDynamic f [.item [98] []]]]).tree [] = (PTree.item [] [.item [97] [.item [98] []]]).tree [] := by
  have h : ∀ t t' : PTree, itemsOf t = itemsOf t' → t.tree [] = t'.tree [] := fun t t' h => by rw [C86_picture, C86_picture, h]
  apply h
  simp [PTree.item, PTree.itemDynamic, itemsOf, itemsOfAll, Items.append, show isSpace 97 = false by decide, show isSpace 98 = false by decide, show isSpace 32 = true by decide]

/-- C86 is false of names that look like branches or contain a line break. -/
theorem C86_false_names :
    (PTree.item [] [.item [97] [.item [98] []]]).tree [] = (PTree.item [] [.item [97] [], .item ([0x251C, 0x2500, 0x2500, 32, 98]) []]).tree [] ∧
    (PTree.item [] [.item [97] [], .item [98] []]).tree [] = (PTree.item [] [.item [97, 32, 10, 98] []]).tree [] := by decide +kernel

end RL
