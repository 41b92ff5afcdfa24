import Verif.Spec.Study
import Verif.Props.VimSession
/-! What was last noted on each page (C82). -/

namespace RL
open Spec Hist

/-- What was last noted on each element of the history. -/
def Hist.drafts (h : Hist) : List (List Rune) := h.order.map fun i => (h.elems i).tmp

theorem drafts_update {h : Hist} (w : h.order.Nodup) {x i : Nat} (hc : h.current = some x) (hx : h.order[i]? = some x) (cfg : HCfg) (t : List Rune) :
    (h.update cfg t false).drafts = keepNewest cfg.limit (h.drafts.set i t) := by
  obtain ⟨k1, k2, _, _⟩ := update_false_order hc cfg t
  unfold Hist.drafts
  rw [k1, k2, keepNewest_map, ← map_set_of_nodup w hx]
  congr 1
  apply List.map_congr_left
  intro y _
  by_cases hy : y = x
  · simp [hy]
  · simp [hy]

theorem drafts_push {h : Hist} (w : ∀ i ∈ h.order, i < h.next) (s : List Rune) : (h.push s).drafts = h.drafts ++ [[]] := by
  unfold Hist.drafts push
  simp only [List.map_append, List.map_cons, List.map_nil, setItem, if_true]
  congr 1
  apply List.map_congr_left
  intro y hy
  have := w y hy
  rw [if_neg (by omega)]

theorem drafts_commitUpdate {h : Hist} (w : h.WF) (cfg : HCfg) (s : List Rune) :
    (h.update cfg s true).drafts = keepNewest cfg.limit (if h.current = none then h.drafts ++ [[]] else h.drafts) := by
  cases hc : h.current with
  | none =>
    rw [if_pos rfl, ← drafts_push w.known s]
    unfold Hist.update
    rw [hc]
    unfold Hist.drafts compact
    rw [compactList_eq, keepNewest_map]
  | some c =>
    rw [if_neg (by simp)]
    have key : ∀ (g : Hist), g.order = h.order → (∀ i, (g.elems i).tmp = (h.elems i).tmp) →
        (g.compact cfg).drafts = keepNewest cfg.limit h.drafts := by
      intro g h1 h2
      unfold Hist.drafts compact
      rw [compactList_eq, h1, keepNewest_map]
      congr 1
      exact List.map_congr_left fun i _ => h2 i
    unfold Hist.update
    rw [hc]
    dsimp only
    rw [if_pos rfl]
    split <;> refine key _ rfl fun i => ?_
    all_goals
      simp only [setItem]
      by_cases hi : i = c
      · simp [hi]
      · simp [hi]

/-- Noting the line. -/
theorem drafts_jot {cfg : HCfg} {h h' : Hist} (w : h.WF) {b b' : Book} (s : h.Shows b) (s' : h'.Shows b') {x : Option Nat}
    (hx0 : x = none → h.order = []) (hl : 0 < cfg.limit) (e : h' = ({ h with current := x } : Hist).update cfg b'.line.text false) :
    h'.drafts = b.jot cfg.limit b' h.drafts := by
  unfold Book.jot
  by_cases hp : b.pages = []
  · rw [if_pos hp]
    have ho : h.order = [] := List.eq_nil_of_length_eq_zero (by rw [← s.length, hp]; rfl)
    cases x with
    | none =>
      rw [e]
      have : (({ h with current := none } : Hist).update cfg b'.line.text false) = (({ h with current := none } : Hist).push b'.line.text).compact cfg := rfl
      rw [this]
      have hd := drafts_push (h := { h with current := none }) w.known b'.line.text
      unfold Hist.drafts at hd ⊢
      unfold compact
      simp only
      rw [compactList_eq, keepNewest_map, hd]
      show keepNewest _ (h.order.map _ ++ [[]]) = _
      rw [ho]
      exact keepNewest_self (by simp; omega)
    | some y =>
      obtain ⟨k1, _, _, k4⟩ := update_false_order (h := { h with current := some y }) rfl cfg b'.line.text
      rw [← e] at k1 k4
      have : b'.pages = [] := List.eq_nil_of_length_eq_zero (by rw [s'.length, k1]; show (keepNewest _ h.order).length = 0; rw [ho]; simp [keepNewest])
      rw [s'.empty this] at k4
      cases k4
  · rw [if_neg hp]
    have ho : h.order ≠ [] := fun a => hp (List.eq_nil_of_length_eq_zero (by rw [s.length, a]; rfl))
    cases x with
    | none => exact (ho (hx0 rfl)).elim
    | some y =>
      obtain ⟨k1, _, _, k4⟩ := update_false_order (h := { h with current := some y }) rfl cfg b'.line.text
      rw [← e] at k1 k4
      have hp' : b'.pages ≠ [] := by
        intro a
        rw [s'.empty a] at k4
        cases k4
      obtain ⟨z, z1, z2⟩ := s'.pos hp'
      rw [k4, Option.some.injEq] at z1
      subst z1
      rw [e]
      refine drafts_update (h := { h with current := some y }) w.nodup (x := y) (i := b'.pos + (b.pages.length - cfg.limit.toNat)) rfl ?_ cfg _
      show h.order[_]? = _
      rw [k1] at z2
      have z2 : (keepNewest cfg.limit h.order)[b'.pos]? = some y := z2
      rw [keepNewest, List.getElem?_drop] at z2
      rw [← z2, s.length]
      congr 1
      omega

/-- Saving a line and noting the empty line that follows. -/
theorem drafts_new {cfg : HCfg} {h h1 : Hist} (w : h.WF) (hen : h.enable = true) (h00 : h.order = [] → h.current = none) {s : List Rune}
    (e : h.new cfg s = .ok h1) :
    (h1.update cfg [] false).drafts =
      if h.order = [] then keepNewest cfg.limit [[], []]
      else if s = [] ∨ h.entries.getLast? = some s then keepNewest cfg.limit (h.drafts.dropLast ++ [[]])
      else keepNewest cfg.limit (h.drafts ++ [[]]) := by
  obtain ⟨w1, _, _, x, c1, b1, _⟩ := new_state w hen e
  -- the new last element has been noted as empty
  have last : ∀ ds, h1.drafts.dropLast = ds → (h1.update cfg [] false).drafts = keepNewest cfg.limit (ds ++ [[]]) := by
    intro ds hd
    obtain ⟨l, hlx⟩ := back_some b1
    have hx : h1.order[l.length]? = some x := by rw [hlx]; simp
    rw [drafts_update w1.nodup c1 hx]
    congr 1
    rw [← hd]
    unfold Hist.drafts
    rw [hlx]
    simp
  have cm : ∀ {h0 : Hist} {t : List Rune}, h0.WF → h0.order = h.order → h0.elems = h.elems → (h0.order ≠ [] → h0.current ≠ none) → (h.order = [] → h0.current = none) →
      h0.commit cfg t = .ok h1 → (h1.update cfg [] false).drafts = if h.order = [] then keepNewest cfg.limit [[], []] else keepNewest cfg.limit (h.drafts ++ [[]]) := by
    intro h0 t w0 ho hel hcn hcn' e
    have hd0 : h0.drafts = h.drafts := by unfold Hist.drafts; rw [ho, hel]
    obtain ⟨h2, t2, w2, a1, a2, a3⟩ : ∃ (h2 : Hist) (t2 : List Rune), h2.WF ∧ h2.drafts = h.drafts ∧ (h2.current = none ↔ h.order = []) ∧
        h1 = ({ h2.update cfg t2 true with ver := (h2.update cfg t2 true).ver + 1 } : Hist).push [] := by
      unfold Hist.commit at e
      dsimp only at e
      split at e
      · next hne =>
        split at e
        · cases e
        · next cc hcc =>
          rw [R.bind_ok] at e
          cases e
          have hon : h0.order ≠ [] := by
            intro a
            rw [hcn' (by rw [← ho]; exact a), Hist.back, a] at hne
            exact hne rfl
          have hbk : ∃ b, h0.back = some b := by
            cases hb : h0.back with
            | none => exact (hon (List.getLast?_eq_none_iff.1 hb)).elim
            | some b => exact ⟨b, rfl⟩
          obtain ⟨b, hb⟩ := hbk
          refine ⟨{ h0 with current := h0.back }, _, ?_, hd0, ?_, rfl⟩
          · refine ⟨w0.nodup, w0.known, fun y hy => ?_, fun a => ?_, w0.version⟩
            · have hy : h0.back = some y := hy
              exact w0.known y (List.mem_of_getLast? hy)
            · have a : h0.back = none := a
              rw [hb] at a; cases a
          · show h0.back = none ↔ _
            rw [hb, ← ho]
            simp [hon]
      · rw [R.bind_ok] at e
        cases e
        refine ⟨h0, _, w0, hd0, ⟨fun a => ?_, hcn'⟩, rfl⟩
        rw [← ho]
        exact Classical.not_not.1 fun b => hcn b a
    have hw3 : ({ h2.update cfg t2 true with ver := (h2.update cfg t2 true).ver + 1 } : Hist).WF := by
      have := update_WF w2 cfg t2 true
      exact ⟨this.nodup, this.known, this.cur, this.cur_none, fun i => Nat.le_succ_of_le (this.version i)⟩
    have hd3 : h1.drafts = (h2.update cfg t2 true).drafts ++ [[]] := by rw [a3]; exact drafts_push hw3.known []
    rw [last (h2.update cfg t2 true).drafts (by rw [hd3]; simp), drafts_commitUpdate w2, a1, keepNewest_append]
    by_cases ho' : h.order = []
    · rw [if_pos (a2.2 ho'), if_pos ho']
      unfold Hist.drafts
      rw [ho']
      rfl
    · rw [if_neg (fun a => ho' (a2.1 a)), if_neg ho']
  unfold Hist.new at e
  rw [if_neg (by simp [hen])] at e
  cases hb : h.back with
  | none =>
    have ho : h.order = [] := List.getLast?_eq_none_iff.1 hb
    rw [hb] at e
    dsimp only at e
    rw [if_pos ho]
    by_cases hs : s.length = 0
    · rw [if_pos hs] at e
      have := cm (h0 := { h with current := none }) ⟨w.nodup, w.known, fun _ a => (by cases a), fun _ => ho, w.version⟩ rfl rfl (fun a => (a ho).elim) (fun _ => rfl) e
      rw [this, if_pos ho]
    · rw [if_neg hs] at e
      have := cm w rfl rfl (fun a => (a ho).elim) h00 e
      rw [this, if_pos ho]
  | some b =>
    obtain ⟨l, hlx⟩ := back_some hb
    have ho : h.order ≠ [] := by rw [hlx]; simp
    have hcn : h.current ≠ none := fun a => ho (w.cur_none a)
    rw [hb] at e
    dsimp only at e
    rw [if_neg ho]
    have clean : h1 = h.cleanBack b → (h1.update cfg [] false).drafts = keepNewest cfg.limit (h.drafts.dropLast ++ [[]]) := by
      intro a
      apply last
      rw [a]
      unfold Hist.drafts cleanBack
      have hnb : b ∉ l := by
        have := w.nodup
        rw [hlx] at this
        intro q
        exact (List.nodup_append.1 this).2.2 _ q _ (by simp) rfl
      simp only [setItem, hlx, List.map_append, List.map_cons, List.map_nil, List.dropLast_concat]
      apply List.map_congr_left
      intro y hy
      have : y ≠ b := fun a => hnb (a ▸ hy)
      simp [this]
    by_cases hr : h.repeatsNewest b s = true
    · rw [if_pos hr, Except.ok.injEq] at e
      rw [if_pos (.inr ((repeatsNewest_iff w hb s).1 hr))]
      exact clean e.symm
    · rw [if_neg hr] at e
      by_cases hs : s.length = 0
      · rw [if_pos hs, Except.ok.injEq] at e
        rw [if_pos (.inl (List.length_eq_zero_iff.1 hs))]
        exact clean e.symm
      · rw [if_neg hs] at e
        have hs' : s ≠ [] := fun a => hs (by rw [a]; rfl)
        have hg : ¬ (s = [] ∨ h.entries.getLast? = some s) := by
          rintro (a | a)
          · exact hs' a
          · exact hr ((repeatsNewest_iff w hb s).2 a)
        rw [if_neg hg]
        have := cm w rfl rfl (fun _ => hcn) (fun a => (ho a).elim) e
        rw [this, if_neg ho]

end RL
