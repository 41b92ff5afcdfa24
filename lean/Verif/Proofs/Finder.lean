import Verif.Spec.Search
/-! A search has one outcome, and does not depend on how the elements are named (C82). -/

namespace RL
open Spec

theorem split_unique {α} {l1 l2 m1 m2 : List α} {c : α} (hn : (l1 ++ c :: l2).Nodup) (h : l1 ++ c :: l2 = m1 ++ c :: m2) : l1 = m1 ∧ l2 = m2 := by
  induction l1 generalizing m1 with
  | nil =>
    cases m1 with
    | nil => injection h with _ h; exact ⟨rfl, h⟩
    | cons b m1 =>
      injection h with h1 h2
      subst h1
      rw [h2] at hn
      exact absurd hn (by simp)
  | cons a l1 ih =>
    cases m1 with
    | nil =>
      injection h with h1 h2
      subst h1
      exact absurd hn (by simp)
    | cons b m1 =>
      injection h with h1 h2
      subst h1
      obtain ⟨h3, h4⟩ := ih (List.nodup_cons.1 hn).2 h2
      rw [h3, h4]; exact ⟨rfl, rfl⟩

theorem Looked.unique {order : List Nat} (hn : order.Nodup) {fwd : Bool} {c : Nat} {cs cs' : List Nat} (h : Looked order fwd c cs) (h' : Looked order fwd c cs') :
    cs = cs' := by
  obtain ⟨o1, n1, e1, rfl⟩ := h
  obtain ⟨o2, n2, e2, rfl⟩ := h'
  obtain ⟨rfl, rfl⟩ := split_unique (e1 ▸ hn) (e1.symm.trans e2)
  rfl

theorem FirstWith.unique {α} {P : α → Prop} {l : List α} {x y : α} (h : FirstWith P l x) (h' : FirstWith P l y) : x = y := by
  obtain ⟨b1, a1, e1, p1, n1⟩ := h
  obtain ⟨b2, a2, e2, p2, n2⟩ := h'
  subst e1
  induction b1 generalizing b2 with
  | nil =>
    cases b2 with
    | nil => injection e2
    | cons z b2 => injection e2 with e _; subst e; exact (n2 x (by simp) p1).elim
  | cons w b1 ih =>
    cases b2 with
    | nil => injection e2 with e _; subst e; exact (n1 w (by simp) p2).elim
    | cons z b2 =>
      injection e2 with _ e2
      exact ih (fun y hy => n1 y (by simp [hy])) b2 (fun y hy => n2 y (by simp [hy])) e2

/-- A search has one outcome. -/
theorem Sought.unique {fold : Bool} {item : Nat → List Rune} {order : List Nat} (hn : order.Nodup) {fresh : Bool} {v v1 v2 : SView}
    (h1 : Sought fold item order fresh v v1) (h2 : Sought fold item order fresh v v2) : v1 = v2 := by
  cases h1 with
  | empty a =>
    cases h2 with
    | empty => rfl
    | found b => exact (b a).elim
    | none b => exact (b a).elim
  | @found c cs e j a b l f g m =>
    cases h2 with
    | empty b => exact (a b).elim
    | @found c' cs' e' j' a' b' l' f' g' m' =>
      rw [b, Option.some.injEq] at b'
      subst b'
      have := Looked.unique hn l l'
      subst this
      have := FirstWith.unique f f'
      subst this
      have k1 := m _ g'
      have k2 := m' _ g
      have : j = j' := by
        cases hf : v.fwd <;> simp only [hf, if_true, Bool.false_eq_true, if_false] at k1 k2 <;> omega
      subst this
      rfl
    | @none c' cs' a' b' l' f' =>
      rw [b, Option.some.injEq] at b'
      subst b'
      have := Looked.unique hn l l'
      subst this
      obtain ⟨x, y, e1, _⟩ := f
      exact (f' e (by rw [e1]; simp) _ g).elim
  | @none c cs a b l f =>
    cases h2 with
    | empty b => exact (a b).elim
    | @found c' cs' e' j' a' b' l' f' g' m' =>
      rw [b, Option.some.injEq] at b'
      subst b'
      have := Looked.unique hn l l'
      subst this
      obtain ⟨x, y, e1, _⟩ := f'
      exact (f e' (by rw [e1]; simp) _ g').elim
    | none => rfl

theorem SearchStep.unique {fold : Bool} {item : Nat → List Rune} {order : List Nat} (hn : order.Nodup) {r : Rune} {v v1 v2 : SView}
    (h1 : SearchStep fold item order r v v1) (h2 : SearchStep fold item order r v v2) : v1 = v2 := by
  cases h1 with
  | text a b q =>
    cases h2 with
    | text _ _ q' => exact Sought.unique hn q q'
    | back a' => omega
    | backNone a' => omega
    | again a' => omega
  | back a b q =>
    cases h2 with
    | text a' => omega
    | back _ _ q' => exact Sought.unique hn q q'
    | backNone _ b' => exact (b b').elim
    | again a' => omega
  | backNone a b =>
    cases h2 with
    | text a' => omega
    | back _ b' => exact (b' b).elim
    | backNone => rfl
    | again a' => omega
  | again a q =>
    cases h2 with
    | text a' => omega
    | back a' => omega
    | backNone a' => omega
    | again _ q' => exact Sought.unique hn q q'

/-- The same view, with the elements named by `φ`. -/
def Spec.SView.named (φ : Nat → Nat) (v : SView) : SView := { v with pos := v.pos.map φ }

section
variable {fold : Bool} {item item' : Nat → List Rune} {φ : Nat → Nat} {l : List Nat}

theorem Hit.named {v : SView} {fresh : Bool} {c e j : Nat} (hi : ∀ i ∈ l, item (φ i) = item' i) (inj : ∀ a ∈ l, ∀ b ∈ l, φ a = φ b → a = b)
    (hc : c ∈ l) (he : e ∈ l) : Hit fold item (v.named φ) fresh (φ c) (φ e) j ↔ Hit fold item' v fresh c e j := by
  unfold Hit
  rw [hi e he]
  refine and_congr Iff.rfl ⟨fun h a => h (by rw [a]), fun h a => h (inj _ he _ hc a)⟩

theorem Looked.named (inj : ∀ a ∈ l, ∀ b ∈ l, φ a = φ b → a = b) {fwd : Bool} {c : Nat} (hc : c ∈ l) {cs : List Nat} (h : Looked (l.map φ) fwd (φ c) cs) :
    ∃ cs', cs = cs'.map φ ∧ Looked l fwd c cs' ∧ ∀ e ∈ cs', e ∈ l := by
  obtain ⟨o, n, e, rfl⟩ := h
  obtain ⟨l1, l2, rfl, rfl, e2⟩ := List.map_eq_append_iff.1 e
  obtain ⟨a, l3, rfl, e3, rfl⟩ := List.map_eq_cons_iff.1 e2
  have := inj a (by simp) c hc e3
  subst this
  refine ⟨a :: (if fwd then l3 else l1.reverse), ?_, ⟨l1, l3, rfl, rfl⟩, ?_⟩
  · cases fwd <;> simp
  · cases fwd <;> simp
    · exact fun e a => .inl a
    · exact fun e a => .inr (.inr a)

/-- A search with the elements named otherwise. -/
theorem Sought.named (hi : ∀ i ∈ l, item (φ i) = item' i) (inj : ∀ a ∈ l, ∀ b ∈ l, φ a = φ b → a = b) {fresh : Bool} {v v1 : SView} {c : Nat}
    (hp : v.pos = some c) (hc : c ∈ l) (h : Sought fold item (l.map φ) fresh (v.named φ) v1) :
    ∃ v', v1 = v'.named φ ∧ Sought fold item' l fresh v v' ∧ ∃ i, v'.pos = some i ∧ i ∈ l := by
  have hpos : (v.named φ).pos = some (φ c) := by show v.pos.map φ = _; rw [hp]; rfl
  cases h with
  | empty a => exact ⟨{ v with failing := false }, rfl, .empty a, c, hp, hc⟩
  | @found c0 cs e j a b lk f g m =>
    rw [hpos, Option.some.injEq] at b
    subst b
    obtain ⟨cs', rfl, lk', hin⟩ := Looked.named inj hc lk
    obtain ⟨bf, af, e1, p1, n1⟩ := f
    obtain ⟨bf', cs2, rfl, rfl, e2⟩ := List.map_eq_append_iff.1 e1
    obtain ⟨e', af', rfl, rfl, rfl⟩ := List.map_eq_cons_iff.1 e2
    have he : e' ∈ l := hin e' (by simp)
    refine ⟨{ v with failing := false, line := item' e', cursor := if v.fwd then j + v.text.length else j, mark := (j, j + v.text.length), pos := some e' }, ?_,
      .found a hp lk' ⟨bf', af', rfl, ⟨j, (Hit.named hi inj hc he).1 g⟩, fun y hy ⟨k, hk⟩ => ?_⟩ ((Hit.named hi inj hc he).1 g)
        (fun k hk => m k ((Hit.named hi inj hc he).2 hk)), e', rfl, he⟩
    · rw [hi e' he]; rfl
    · exact n1 (φ y) (List.mem_map_of_mem hy) ⟨k, (Hit.named hi inj hc (hin y (by simp [hy]))).2 hk⟩
  | @none c0 cs a b lk f =>
    rw [hpos, Option.some.injEq] at b
    subst b
    obtain ⟨cs', rfl, lk', hin⟩ := Looked.named inj hc lk
    refine ⟨{ v with failing := true }, rfl, .none a hp lk' fun e he j hj => ?_, c, hp, hc⟩
    exact f (φ e) (List.mem_map_of_mem he) j ((Hit.named hi inj hc (hin e he)).2 hj)

theorem SearchStep.named (hi : ∀ i ∈ l, item (φ i) = item' i) (inj : ∀ a ∈ l, ∀ b ∈ l, φ a = φ b → a = b) {r : Rune} {v v1 : SView} {c : Nat}
    (hp : v.pos = some c) (hc : c ∈ l) (h : SearchStep fold item (l.map φ) r (v.named φ) v1) :
    ∃ v', v1 = v'.named φ ∧ SearchStep fold item' l r v v' ∧ ∃ i, v'.pos = some i ∧ i ∈ l := by
  cases h with
  | text a b q =>
    obtain ⟨v', e1, e2, e3⟩ := Sought.named (v := { v with text := v.text ++ [r] }) hi inj hp hc q
    exact ⟨v', e1, .text a b e2, e3⟩
  | back a b q =>
    obtain ⟨v', e1, e2, e3⟩ := Sought.named (v := { v with text := v.text.dropLast }) hi inj hp hc q
    exact ⟨v', e1, .back a b e2, e3⟩
  | backNone a b => exact ⟨v, rfl, .backNone a b, c, hp, hc⟩
  | again a q =>
    obtain ⟨v', e1, e2, e3⟩ := Sought.named (v := { v with fwd := r == 19 }) hi inj hp hc q
    exact ⟨v', e1, .again a e2, e3⟩
end

end RL
