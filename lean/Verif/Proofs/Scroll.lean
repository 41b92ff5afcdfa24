import Verif.Spec.Scroll
import Verif.Props.Transcript
/-! The scrolling terminal is a window on the terminal without end, as long as the cursor does not leave it at the top (C81). -/

namespace RL
open Spec

/-- `s` shows rows `k, …, k + h - 1` of `t`, and the rows below are blank.  If the cursor of `t` is above, that of `s` is in the first
row. -/
structure Near (s : Scr) (t : Spec.Term) (k : Nat) : Prop where
  w : s.w = t.w
  row : s.row = t.row - k
  low : s.row < s.h
  col : s.col = t.col
  pend : s.pend = t.pend
  st : s.st = t.st
  cells : ∀ a, a < s.h → ∀ x, x < s.w → s.cell a x = t.cell (k + a) x
  below : ∀ a, k + s.h ≤ a → ∀ x, x < s.w → t.cell a x = 32

/-- … and the cursor is not above. -/
structure Win (s : Scr) (t : Spec.Term) (k : Nat) : Prop extends Near s t k where
  top : k ≤ t.row

namespace Win
variable {s : Scr} {t : Spec.Term} {k : Nat}

theorem at' (h : Win s t k) : t.row = k + s.row := by
  have := h.row
  have := h.top
  omega

theorem down (h : Win s t k) : ∃ k', Win { s.down with col := 0, pend := false } { t with row := t.row + 1, col := 0, pend := false } k' ∧ s.down.h = s.h ∧
    (k' = k ∨ k' + s.h = t.row + 1 + 1) ∧ k ≤ k' := by
  have hr := h.at'
  have hl := h.low
  unfold Scr.down
  split
  · next hd => exact ⟨k, ⟨⟨h.w, by show s.row + 1 = t.row + 1 - k; omega, hd, rfl, rfl, h.st, h.cells, h.below⟩, by show k ≤ t.row + 1; omega⟩, rfl, .inl rfl, Nat.le_refl _⟩
  · next hd =>
    refine ⟨k + 1, ⟨⟨h.w, by show s.row = t.row + 1 - (k + 1); omega, hl, rfl, rfl, h.st, fun a ha x hx => ?_, fun a ha x hx => ?_⟩,
      by show k + 1 ≤ t.row + 1; omega⟩, rfl, .inr (by omega), by omega⟩
    · show (if a + 1 < s.h then s.cell (a + 1) x else 32) = t.cell (k + 1 + a) x
      split
      · next h1 => rw [h.cells _ h1 x hx, show k + (a + 1) = k + 1 + a by omega]
      · have ha : a < s.h := ha
        exact (h.below _ (by omega) x hx).symm
    · exact h.below a (by have : k + 1 + s.h ≤ a := ha; omega) x hx

theorem wrap (h : Win s t k) : ∃ k', Win s.wrap t.wrap k' ∧ s.wrap.h = s.h ∧ (k' = k ∨ k' + s.h = t.wrap.row + 1) ∧ k ≤ k' := by
  unfold Scr.wrap Spec.Term.wrap
  rw [h.pend]
  cases t.pend with
  | false => exact ⟨k, h, rfl, .inl rfl, Nat.le_refl _⟩
  | true =>
    obtain ⟨k', h1, h2, h3⟩ := h.down
    exact ⟨k', h1, h2, h3⟩

theorem store (h : Win s t k) (c : Rune) : Win (s.store c) (t.store c) k ∧ (s.store c).h = s.h := by
  have hr := h.at'
  have hl := h.low
  have hc : ∀ a, a < s.h → ∀ x, x < t.w → (if a = s.row ∧ x = s.col then c else s.cell a x) = (if k + a = t.row ∧ x = t.col then c else t.cell (k + a) x) := by
    intro a ha x hx
    rw [h.cells a ha x (by rw [h.w]; exact hx), h.col, hr]
    by_cases e : a = s.row ∧ x = t.col
    · rw [if_pos e, if_pos ⟨by omega, e.2⟩]
    · rw [if_neg e, if_neg]
      rintro ⟨e1, e2⟩
      exact e ⟨by omega, e2⟩
  have hb : ∀ a, k + s.h ≤ a → ∀ x, x < t.w → (if a = t.row ∧ x = t.col then c else t.cell a x) = 32 := by
    intro a ha x hx
    rw [if_neg (by omega)]
    exact h.below a ha x (by rw [h.w]; exact hx)
  unfold Scr.store Spec.Term.store
  dsimp only
  rw [h.w, h.col]
  rw [h.col] at hc
  split
  · exact ⟨⟨⟨rfl, h.row, h.low, rfl, h.pend, h.st, hc, hb⟩, h.top⟩, rfl⟩
  · exact ⟨⟨⟨rfl, h.row, h.low, rfl, rfl, h.st, hc, hb⟩, h.top⟩, rfl⟩

theorem store_row (t : Spec.Term) (c : Rune) : (t.store c).row = t.row := by
  unfold Spec.Term.store
  dsimp only
  split <;> rfl

theorem put (h : Win s t k) (c : Rune) : ∃ k', Win (s.put c) (t.put c) k' ∧ (s.put c).h = s.h ∧ (k' = k ∨ k' + s.h = (t.put c).row + 1) ∧ k ≤ k' := by
  obtain ⟨k', h1, h2, h3, h4⟩ := h.wrap
  obtain ⟨g1, g2⟩ := h1.store c
  refine ⟨k', g1, g2.trans h2, ?_, h4⟩
  rw [show (t.put c).row = t.wrap.row from store_row _ _]
  exact h3

theorem csi (h : Win s t k) (ps : List Rune) (c : Rune) (hk : k ≤ (t.csi ps c).row) : Win (s.csi ps c) (t.csi ps c) k ∧ (s.csi ps c).h = s.h := by
  have hr := h.at'
  have hl := h.low
  unfold Spec.Term.csi at hk ⊢
  unfold Scr.csi
  split
  · next e =>
    rw [if_pos e] at hk
    have hk : k ≤ t.row - max 1 (num ps) := hk
    generalize max 1 (num ps) = n at hk
    refine ⟨⟨⟨h.w, ?_, ?_, h.col, rfl, h.st, h.cells, h.below⟩, hk⟩, rfl⟩
    · show s.row - n = t.row - n - k; omega
    · show s.row - n < s.h; omega
  · next e =>
    rw [if_neg e] at hk
    split
    · refine ⟨⟨⟨h.w, h.row, h.low, ?_, rfl, h.st, h.cells, h.below⟩, h.top⟩, rfl⟩
      show min (s.w - 1) (s.col + _) = min (t.w - 1) (t.col + _)
      rw [h.w, h.col]
    · next e =>
      rw [if_neg e] at hk
      split
      · refine ⟨⟨⟨h.w, h.row, h.low, h.col, h.pend, h.st, fun a ha x hx => ?_, fun a ha x hx => ?_⟩, h.top⟩, rfl⟩
        · show (if s.row < a ∨ (a = s.row ∧ s.col ≤ x) then 32 else s.cell a x) = (if t.row < k + a ∨ (k + a = t.row ∧ t.col ≤ x) then 32 else t.cell (k + a) x)
          rw [h.cells a ha x hx, h.col]
          by_cases e : s.row < a ∨ (a = s.row ∧ t.col ≤ x)
          · rw [if_pos e, if_pos (by omega)]
          · rw [if_neg e, if_neg (by omega)]
        · show (if t.row < a ∨ _ then 32 else t.cell a x) = 32
          have : k + s.h ≤ a := ha
          rw [if_pos (.inl (by omega))]
      · next e =>
        rw [if_neg e] at hk
        split
        · refine ⟨⟨⟨h.w, h.row, h.low, h.col, h.pend, h.st, fun a ha x hx => ?_, fun a ha x hx => ?_⟩, h.top⟩, rfl⟩
          · show (if a = s.row then 32 else s.cell a x) = (if k + a = t.row then 32 else t.cell (k + a) x)
            rw [h.cells a ha x hx]
            by_cases e : a = s.row
            · rw [if_pos e, if_pos (by omega)]
            · rw [if_neg e, if_neg (by omega)]
          · show (if a = t.row then 32 else t.cell a x) = 32
            have : k + s.h ≤ a := ha
            rw [if_neg (by omega)]
            exact h.below a ha x hx
        · next e =>
          rw [if_neg e] at hk
          split
          · next e =>
            rw [if_pos e] at hk
            have hk : k ≤ 0 := hk
            exact ⟨⟨⟨h.w, by show 0 = 0 - k; omega, by show 0 < s.h; omega, rfl, rfl, h.st, h.cells, h.below⟩, hk⟩, rfl⟩
          · exact ⟨h, rfl⟩

theorem withSt (h : Win s t k) (e : EscState) : Win { s with st := e } { t with st := e } k :=
  ⟨⟨h.w, h.row, h.low, h.col, h.pend, rfl, h.cells, h.below⟩, h.top⟩

/-- One character. -/
theorem feed_mono (h : Win s t k) (c : Rune) (hk : k ≤ (t.feed c).row) :
    ∃ k', Win (s.feed c) (t.feed c) k' ∧ (s.feed c).h = s.h ∧ (k' = k ∨ (k' + s.h = (t.feed c).row + 1 ∧ t.row < (t.feed c).row ∧ k ≤ k')) := by
  unfold Spec.Term.feed at hk ⊢
  unfold Scr.feed
  rw [h.st]
  cases hs : t.st with
  | ground =>
    dsimp only
    split
    · exact ⟨k, h.withSt _, rfl, .inl rfl⟩
    · split
      · refine ⟨k, ⟨⟨h.w, h.row, h.low, ?_, rfl, h.st, h.cells, h.below⟩, h.top⟩, rfl, .inl rfl⟩
        show s.col - 1 = t.col - 1
        rw [h.col]
      · split
        · exact ⟨k, ⟨⟨h.w, h.row, h.low, rfl, rfl, h.st, h.cells, h.below⟩, h.top⟩, rfl, .inl rfl⟩
        · split
          · obtain ⟨k', h1, h2, h3, h4⟩ := h.down
            refine ⟨k', h1, h2, ?_⟩
            rcases h3 with h3 | h3
            · exact .inl h3
            · exact .inr ⟨h3, Nat.lt_succ_self _, h4⟩
          · split
            · exact ⟨k, h, rfl, .inl rfl⟩
            · obtain ⟨k', h1, h2, h3, h4⟩ := h.put c
              refine ⟨k', h1, h2, ?_⟩
              rcases h3 with h3 | h3
              · exact .inl h3
              · by_cases e : k' = k
                · exact .inl e
                · refine .inr ⟨h3, ?_, h4⟩
                  have := h.at'
                  have := h.low
                  omega
  | esc =>
    dsimp only
    split
    · exact ⟨k, h.withSt _, rfl, .inl rfl⟩
    · exact ⟨k, h.withSt _, rfl, .inl rfl⟩
  | csi ps =>
    rw [hs] at hk
    dsimp only at hk ⊢
    split
    · exact ⟨k, h.withSt _, rfl, .inl rfl⟩
    · next hc =>
      rw [if_neg hc] at hk
      obtain ⟨h1, h2⟩ := h.csi ps c hk
      exact ⟨k, h1.withSt _, h2, .inl rfl⟩

theorem feed (h : Win s t k) (c : Rune) (hk : k ≤ (t.feed c).row) :
    ∃ k', Win (s.feed c) (t.feed c) k' ∧ (s.feed c).h = s.h ∧ (k' = k ∨ (k' + s.h = (t.feed c).row + 1 ∧ t.row < (t.feed c).row)) := by
  obtain ⟨k', h1, h2, h3⟩ := h.feed_mono c hk
  exact ⟨k', h1, h2, h3.imp id fun h => ⟨h.1, h.2.1⟩⟩

end Win

/-- The cursor never goes up. -/
def Falls : Spec.Term → List Rune → Prop
  | _, [] => True
  | t, c :: cs => t.row ≤ (t.feed c).row ∧ Falls (t.feed c) cs

/-- The cursor never goes down. -/
def Climbs : Spec.Term → List Rune → Prop
  | _, [] => True
  | t, c :: cs => (t.feed c).row ≤ t.row ∧ Climbs (t.feed c) cs

theorem Falls.append {a b : List Rune} : ∀ {t : Spec.Term}, Falls t a → Falls (t.run a) b → Falls t (a ++ b) := by
  induction a with
  | nil => intro t _ h; exact h
  | cons c a ih => intro t h1 h2; exact ⟨h1.1, ih h1.2 h2⟩

theorem Climbs.append {a b : List Rune} : ∀ {t : Spec.Term}, Climbs t a → Climbs (t.run a) b → Climbs t (a ++ b) := by
  induction a with
  | nil => intro t _ h; exact h
  | cons c a ih => intro t h1 h2; exact ⟨h1.1, ih h1.2 h2⟩

theorem Falls.le {cs : List Rune} : ∀ {t : Spec.Term}, Falls t cs → t.row ≤ (t.run cs).row := by
  induction cs with
  | nil => intro t _; exact Nat.le_refl _
  | cons c cs ih => intro t h; exact Nat.le_trans h.1 (ih h.2)

theorem Climbs.le {cs : List Rune} : ∀ {t : Spec.Term}, Climbs t cs → (t.run cs).row ≤ t.row := by
  induction cs with
  | nil => intro t _; exact Nat.le_refl _
  | cons c cs ih => intro t h; exact Nat.le_trans (ih h.2) h.1

namespace Win

/-- Output that does not go down, and ends in the window. -/
theorem climbs {cs : List Rune} : ∀ {s : Scr} {t : Spec.Term} {k : Nat}, Win s t k → Climbs t cs → k ≤ (t.run cs).row →
    Win (s.run cs) (t.run cs) k ∧ (s.run cs).h = s.h := by
  induction cs with
  | nil => intro s t k h _ _; exact ⟨h, rfl⟩
  | cons c cs ih =>
    intro s t k h h1 h2
    have hl := h1.2.le
    have h2 : k ≤ ((t.feed c).run cs).row := h2
    obtain ⟨k1, g1, g2, g3⟩ := h.feed c (by omega)
    have e : k1 = k := by
      rcases g3 with g3 | ⟨_, g3⟩
      · exact g3
      · have := h1.1
        omega
    subst e
    obtain ⟨e1, e2⟩ := ih g1 h1.2 h2
    exact ⟨e1, e2.trans g2⟩

/-- Output that only goes down. -/
theorem falls {cs : List Rune} : ∀ {s : Scr} {t : Spec.Term} {k : Nat}, Win s t k → Falls t cs →
    ∃ k', Win (s.run cs) (t.run cs) k' ∧ (s.run cs).h = s.h ∧ (k' = k ∨ k' + s.h = (t.run cs).row + 1) := by
  induction cs with
  | nil => intro s t k h _; exact ⟨k, h, rfl, .inl rfl⟩
  | cons c cs ih =>
    intro s t k h h3
    have ht := h.top
    obtain ⟨k1, g1, g2, g3⟩ := h.feed c (by have := h3.1; omega)
    obtain ⟨k', e1, e2, e4⟩ := ih g1 h3.2
    have hl := h3.2.le
    refine ⟨k', e1, e2.trans g2, ?_⟩
    rw [g2] at e4
    rcases e4 with rfl | e4
    · rcases g3 with rfl | ⟨g3, _⟩
      · exact .inl rfl
      · refine .inr ?_
        show k' + s.h = ((t.feed c).run cs).row + 1
        have h1 := e1.at'
        have h2 := e1.low
        have h4 : ((s.feed c).run cs).h = s.h := e2.trans g2
        have h1 : ((t.feed c).run cs).row = k' + ((s.feed c).run cs).row := h1
        have h2 : ((s.feed c).run cs).row < ((s.feed c).run cs).h := h2
        omega
    · exact .inr e4

end Win

/-! ### Tokens -/

open Term

theorem csi_climbs (t : Spec.Term) (ps : List Rune) (c : Rune) : (t.csi ps c).row ≤ t.row := by
  unfold Spec.Term.csi
  repeat' split
  · exact Nat.sub_le _ _
  · exact Nat.le_refl _
  · exact Nat.le_refl _
  · exact Nat.le_refl _
  · exact Nat.zero_le _
  · exact Nat.le_refl _

/-- In the middle of a control sequence. -/
theorem climbs_params {body : List Rune} (hb : ∀ c ∈ body, 48 ≤ c ∧ c < 64) (f : Rune) (hf : 64 ≤ f) : ∀ (t : Spec.Term) (ps : List Rune),
    Climbs { t with st := .csi ps } (body ++ [f]) := by
  induction body with
  | nil =>
    intro t ps
    refine ⟨?_, trivial⟩
    simp only [Spec.Term.feed]
    rw [if_neg (by omega)]
    exact csi_climbs _ _ _
  | cons c body ih =>
    intro t ps
    have hc := hb c (by simp)
    have e : ({ t with st := .csi ps } : Spec.Term).feed c = { t with st := .csi (ps ++ [c]) } := by
      simp only [Spec.Term.feed]
      rw [if_pos (by omega)]
    refine ⟨by rw [e]; exact Nat.le_refl _, ?_⟩
    rw [e]
    exact ih (fun x hx => hb x (List.mem_cons_of_mem _ hx)) t _

theorem climbs_csi {t : Spec.Term} (ht : t.st = .ground) {body : List Rune} (hb : ∀ c ∈ body, 48 ≤ c ∧ c < 64) {f : Rune} (hf : 64 ≤ f) :
    Climbs t ([27, 91] ++ body ++ [f]) := by
  have e1 : t.feed 27 = { t with st := .esc } := by simp [Spec.Term.feed, ht]
  have e2 : ({ t with st := .esc } : Spec.Term).feed 91 = { t with st := .csi [] } := rfl
  refine ⟨by rw [e1]; exact Nat.le_refl _, ?_⟩
  rw [e1]
  refine ⟨by rw [e2]; exact Nat.le_refl _, ?_⟩
  rw [e2]
  exact climbs_params hb f hf t []

/-- A colour does not move the cursor. -/
theorem falls_params {body : List Rune} (hb : ∀ c ∈ body, 48 ≤ c ∧ c < 64) : ∀ (t : Spec.Term) (ps : List Rune),
    Falls { t with st := .csi ps } (body ++ [109]) := by
  induction body with
  | nil => intro t ps; exact ⟨Nat.le_refl _, trivial⟩
  | cons c body ih =>
    intro t ps
    have hc := hb c (by simp)
    have e : ({ t with st := .csi ps } : Spec.Term).feed c = { t with st := .csi (ps ++ [c]) } := by
      simp only [Spec.Term.feed]
      rw [if_pos (by omega)]
    refine ⟨by rw [e]; exact Nat.le_refl _, ?_⟩
    rw [e]
    exact ih (fun x hx => hb x (List.mem_cons_of_mem _ hx)) t _

theorem falls_csi {t : Spec.Term} (ht : t.st = .ground) {body : List Rune} (hb : ∀ c ∈ body, 48 ≤ c ∧ c < 64) :
    Falls t ([27, 91] ++ body ++ [109]) := by
  have e1 : t.feed 27 = { t with st := .esc } := by simp [Spec.Term.feed, ht]
  have e2 : ({ t with st := .esc } : Spec.Term).feed 91 = { t with st := .csi [] } := rfl
  refine ⟨by rw [e1]; exact Nat.le_refl _, ?_⟩
  rw [e1]
  refine ⟨by rw [e2]; exact Nat.le_refl _, ?_⟩
  rw [e2]
  exact falls_params hb t []

theorem put_falls (t : Spec.Term) (c : Rune) : t.row ≤ (t.put c).row := by
  rw [show (t.put c).row = t.wrap.row from Win.store_row _ _]
  unfold Spec.Term.wrap
  split
  · exact Nat.le_succ _
  · exact Nat.le_refl _

/-- Coloured text. -/
theorem falls_coloured {s vis : List Rune} (hs : Coloured s vis) : ∀ {t : Spec.Term}, t.st = .ground → Falls t s ∧ (t.run s).st = .ground := by
  induction hs with
  | nil => intro t h; exact ⟨trivial, h⟩
  | @char c s v hc _ ih =>
    intro t h
    have e := Printable.feed hc h
    have hst : (t.put c).st = .ground := by
      unfold Spec.Term.put Spec.Term.store Spec.Term.wrap
      dsimp only
      repeat' split
      all_goals exact h
    refine ⟨⟨by rw [e]; exact put_falls _ _, by rw [e]; exact (ih hst).1⟩, by rw [run_cons, e]; exact (ih hst).2⟩
  | @colour body s v hb _ ih =>
    intro t h
    have e : (27 :: 91 :: body ++ 109 :: s : List Rune) = ([27, 91] ++ body ++ [109]) ++ s := by simp
    have e2 := run_csi t h body hb 109 (by omega)
    have hst : (t.run ([27, 91] ++ body ++ [109])).st = .ground := by rw [e2]
    rw [e, run_append]
    exact ⟨(falls_csi h hb).append (ih hst).1, (ih hst).2⟩

/-- A token that does not lead down. -/
inductive Rising : Tok → Prop
  | bs : Rising .bs
  | cr : Rising .cr
  | up1 : Rising .up1
  | right (n : Nat) : Rising (.right n)
  | up (n : Nat) : Rising (.up n)
  | eraseBelow : Rising .eraseBelow
  | eraseLine : Rising .eraseLine
  | bell : Rising .bell

theorem climbs_tok {k : Tok} (hk : Rising k) {t : Spec.Term} (ht : t.st = .ground) : Climbs t k.render ∧ (t.run k.render).st = .ground := by
  have csi : ∀ {body : List Rune} {f : Rune}, (∀ c ∈ body, 48 ≤ c ∧ c < 64) → 64 ≤ f →
      Climbs t ([27, 91] ++ body ++ [f]) ∧ (t.run ([27, 91] ++ body ++ [f])).st = .ground := fun hb hf =>
    ⟨climbs_csi ht hb hf, by rw [run_csi t ht _ hb _ hf]⟩
  have one : ∀ {c : Rune} {t' : Spec.Term}, t.feed c = t' → t'.row ≤ t.row → t'.st = .ground → Climbs t [c] ∧ (t.run [c]).st = .ground := by
    intro c t' e h1 h2
    subst e
    exact ⟨⟨h1, trivial⟩, h2⟩
  cases hk with
  | bs => exact one (t' := t.back) (by simp [Spec.Term.feed, ht]) (Nat.le_refl _) ht
  | cr => exact one (t' := t.home) (by simp [Spec.Term.feed, ht]) (Nat.le_refl _) ht
  | bell => exact one (t' := t) (by simp [Spec.Term.feed, ht]) (Nat.le_refl _) ht
  | up1 => exact csi (body := []) (by simp) (by omega)
  | right n => exact csi (itoa_digits n) (by omega)
  | up n => exact csi (itoa_digits n) (by omega)
  | eraseBelow => exact csi (body := []) (by simp) (by omega)
  | eraseLine => exact csi (body := [50]) (by simp) (by omega)

theorem climbs_toks {ts : List Tok} (hts : ∀ k ∈ ts, Rising k) : ∀ {t : Spec.Term}, t.st = .ground → Climbs t (chars ts) ∧ (t.run (chars ts)).st = .ground := by
  induction ts with
  | nil => intro t ht; exact ⟨trivial, ht⟩
  | cons k ts ih =>
    intro t ht
    have e : chars (k :: ts) = k.render ++ chars ts := by simp [chars]
    obtain ⟨h1, h2⟩ := climbs_tok (hts k (by simp)) ht
    obtain ⟨h3, h4⟩ := ih (fun x hx => hts x (List.mem_cons_of_mem _ hx)) h2
    rw [e, run_append]
    exact ⟨h1.append h3, h4⟩

/-! ### Above the window -/

theorem Scr.run_append (s : Scr) (a b : List Rune) : s.run (a ++ b) = (s.run a).run b := by simp [Scr.run, List.foldl_append]

theorem Scr.run_params (s : Scr) (body : List Rune) (hb : ∀ c ∈ body, 48 ≤ c ∧ c < 64) (ps : List Rune) :
    ({ s with st := .csi ps } : Scr).run body = { s with st := .csi (ps ++ body) } := by
  induction body generalizing ps with
  | nil => simp [Scr.run]
  | cons c body ih =>
    have hc := hb c (by simp)
    have e : ({ s with st := .csi ps } : Scr).feed c = { s with st := .csi (ps ++ [c]) } := by
      simp only [Scr.feed]
      rw [if_pos (by omega)]
    show (({ s with st := .csi ps } : Scr).feed c).run body = _
    rw [e, ih (fun x hx => hb x (List.mem_cons_of_mem _ hx))]
    simp

theorem Scr.run_csi (s : Scr) (hs : s.st = .ground) (body : List Rune) (hb : ∀ c ∈ body, 48 ≤ c ∧ c < 64) (f : Rune) (hf : 64 ≤ f) :
    s.run ([27, 91] ++ body ++ [f]) = { s.csi body f with st := .ground } := by
  have e : s.run [27, 91] = { s with st := .csi [] } := by simp [Scr.run, Scr.feed, hs]
  rw [Scr.run_append, Scr.run_append, e, Scr.run_params s body hb]
  rw [List.nil_append]
  show Scr.feed { s with st := .csi body } f = _
  simp only [Scr.feed]
  rw [if_neg (by omega)]
  unfold Scr.csi
  repeat' split
  all_goals rfl

/-- A token that moves the cursor and does not lead down. -/
inductive Moving : Tok → Prop
  | bs : Moving .bs
  | cr : Moving .cr
  | up1 : Moving .up1
  | right (n : Nat) : Moving (.right n)
  | bell : Moving .bell

namespace Near
variable {s : Scr} {t : Spec.Term} {k : Nat}

theorem tok (h : Near s t k) (ht : t.st = .ground) {x : Tok} (hx : Moving x) :
    Near (s.run x.render) (t.run x.render) k ∧ (s.run x.render).h = s.h ∧ (t.run x.render).st = .ground := by
  have hs : s.st = .ground := h.st.trans ht
  have csi : ∀ {body : List Rune} {f : Rune}, (∀ c ∈ body, 48 ≤ c ∧ c < 64) → 64 ≤ f → Near (s.csi body f) (t.csi body f) k → (s.csi body f).h = s.h →
      Near (s.run ([27, 91] ++ body ++ [f])) (t.run ([27, 91] ++ body ++ [f])) k ∧ (s.run ([27, 91] ++ body ++ [f])).h = s.h ∧
      (t.run ([27, 91] ++ body ++ [f])).st = .ground := by
    intro body f hb hf g1 g2
    rw [Scr.run_csi s hs body hb f hf, Term.run_csi t ht body hb f hf]
    exact ⟨⟨g1.w, g1.row, g1.low, g1.col, g1.pend, rfl, g1.cells, g1.below⟩, g2, rfl⟩
  have one : ∀ {c : Rune} {s' : Scr} {t' : Spec.Term}, s.feed c = s' → t.feed c = t' → Near s' t' k → s'.h = s.h → t'.st = .ground →
      Near (s.run [c]) (t.run [c]) k ∧ (s.run [c]).h = s.h ∧ (t.run [c]).st = .ground := by
    intro c s' t' e1 e2 h1 h2 h3
    subst e1 e2
    exact ⟨h1, h2, h3⟩
  cases hx with
  | bs =>
    refine one (s' := s.back) (t' := t.back) (by simp [Scr.feed, hs]) (by simp [Spec.Term.feed, ht]) ⟨h.w, h.row, h.low, ?_, rfl, h.st, h.cells, h.below⟩ rfl ht
    show s.col - 1 = t.col - 1
    rw [h.col]
  | cr =>
    exact one (s' := s.home) (t' := t.home) (by simp [Scr.feed, hs]) (by simp [Spec.Term.feed, ht]) ⟨h.w, h.row, h.low, rfl, rfl, h.st, h.cells, h.below⟩ rfl ht
  | bell => exact one (s' := s) (t' := t) (by simp [Scr.feed, hs]) (by simp [Spec.Term.feed, ht]) h rfl ht
  | up1 =>
    refine csi (body := []) (f := 65) (by simp) (by omega) ?_ rfl
    have hr := h.row
    have hl := h.low
    refine ⟨h.w, ?_, ?_, h.col, rfl, h.st, h.cells, h.below⟩
    · show s.row - max 1 (num []) = t.row - max 1 (num []) - k; omega
    · show s.row - max 1 (num []) < s.h; omega
  | right n =>
    refine csi (body := itoa n) (f := 67) (itoa_digits n) (by omega) ?_ rfl
    refine ⟨h.w, h.row, h.low, ?_, rfl, h.st, h.cells, h.below⟩
    show min (s.w - 1) (s.col + _) = min (t.w - 1) (t.col + _)
    rw [h.w, h.col]

theorem toks {ts : List Tok} (hts : ∀ x ∈ ts, Moving x) : ∀ {s : Scr} {t : Spec.Term}, Near s t k → t.st = .ground →
    Near (s.run (chars ts)) (t.run (chars ts)) k ∧ (s.run (chars ts)).h = s.h ∧ (t.run (chars ts)).st = .ground := by
  induction ts with
  | nil => intro s t h ht; exact ⟨h, rfl, ht⟩
  | cons x ts ih =>
    intro s t h ht
    have e : chars (x :: ts) = x.render ++ chars ts := by simp [chars]
    obtain ⟨h1, h2, h3⟩ := h.tok ht (hts x (by simp))
    obtain ⟨g1, g2, g3⟩ := ih (fun x hx => hts x (List.mem_cons_of_mem _ hx)) h1 h3
    rw [e, Scr.run_append, Term.run_append]
    exact ⟨g1, g2.trans h2, g3⟩

end Near

/-! ### Erasing a line whose start is above the window -/

theorem scr_eraseBelow (s : Scr) (hs : s.st = .ground) : s.run (chars [.eraseBelow]) = { s.eraseBelow with st := .ground } :=
  Scr.run_csi s hs [] (by simp) 74 (by omega)

theorem scr_eraseLine (s : Scr) (hs : s.st = .ground) : s.run (chars [.eraseLine]) = { s.eraseLine with st := .ground } :=
  Scr.run_csi s hs [50] (by simp) 75 (by omega)

theorem scr_up1 (s : Scr) (hs : s.st = .ground) : s.run (chars [.up1]) = { s.up 1 with st := .ground } :=
  Scr.run_csi s hs [] (by simp) 65 (by omega)

theorem scr_cr (s : Scr) (hs : s.st = .ground) : s.run (chars [.cr]) = s.home := by
  show s.feed 13 = _
  simp [Scr.feed, hs]

/-- The whole screen is erased. -/
theorem scr_wipe {n : Nat} : ∀ {s : Scr}, s.st = .ground → s.row ≤ n → (∀ a, s.row < a → ∀ x, s.cell a x = 32) →
    ∃ s', s.run (chars ((List.replicate n [Tok.eraseLine, .cr, .up1]).flatten ++ [.eraseLine, .cr])) = s' ∧ s'.w = s.w ∧ s'.h = s.h ∧ s'.row = 0 ∧ s'.col = 0 ∧
      s'.pend = false ∧ s'.st = .ground ∧ ∀ a x, s'.cell a x = 32 := by
  induction n with
  | zero =>
    intro s hs hr hb
    have e : chars ((List.replicate 0 [Tok.eraseLine, .cr, .up1]).flatten ++ [.eraseLine, .cr]) = chars [.eraseLine] ++ chars [.cr] := by simp [chars]
    refine ⟨_, rfl, ?_⟩
    rw [e, Scr.run_append, scr_eraseLine s hs, scr_cr _ rfl]
    refine ⟨rfl, rfl, by show s.row = 0; omega, rfl, rfl, rfl, fun a x => ?_⟩
    show (if a = s.row then 32 else s.cell a x) = 32
    split
    · rfl
    · exact hb a (by omega) x
  | succ n ih =>
    intro s hs hr hb
    have e : chars ((List.replicate (n + 1) [Tok.eraseLine, .cr, .up1]).flatten ++ [.eraseLine, .cr]) =
        chars [.eraseLine] ++ (chars [.cr] ++ (chars [.up1] ++ chars ((List.replicate n [Tok.eraseLine, .cr, .up1]).flatten ++ [.eraseLine, .cr]))) := by
      simp [chars, List.replicate_succ]
    rw [e, Scr.run_append, Scr.run_append, Scr.run_append, scr_eraseLine s hs, scr_cr _ rfl, scr_up1 _ rfl]
    obtain ⟨s', h1, h2, h3, h4⟩ := ih (s := { ({ s.eraseLine with st := .ground } : Scr).home.up 1 with st := .ground }) rfl (by show s.row - 1 ≤ n; omega)
      (fun a ha x => by
        have ha : s.row - 1 < a := ha
        show (if a = s.row then 32 else s.cell a x) = 32
        split
        · rfl
        · exact hb a (by omega) x)
    exact ⟨s', h1, h2, h3, h4⟩

/-! ### A redraw -/

open Spec.Term RB

variable {U : UTables} {d : DCfg} {w : Nat} {vis : List Rune} {t0 base : Spec.Term} {y H : Nat}

theorem Drawn.top {t0 t : Spec.Term} {y : Nat} (h : Drawn t0 t y [] 0) : t.row = y := by
  rcases h.at' with ⟨_, g, _⟩ | ⟨_, g, _⟩
  · simpa using g
  · omega

theorem bsTok_moving (w : Nat) (sep : List Int) (i : Nat) : ∀ k ∈ RB.bsTok (w : Int) sep i, Moving k := by
  intro k hk
  unfold RB.bsTok at hk
  split at hk
  · simp only [List.mem_cons, List.not_mem_nil, or_false] at hk
    rcases hk with rfl | rfl | rfl | rfl
    · exact .bs
    · exact .up1
    · exact .cr
    · exact .right w
  · simp only [List.mem_cons, List.not_mem_nil, or_false] at hk
    subst hk
    exact .bs

theorem bsLoop_moving (w : Nat) (sep : List Int) (i n : Nat) : ∀ k ∈ RB.bsLoop (w : Int) sep i n, Moving k := by
  induction n with
  | zero => intro k hk; cases hk
  | succ n ih =>
    intro k hk
    rw [RB.bsLoop, List.mem_append] at hk
    rcases hk with hk | hk
    · exact bsTok_moving w sep _ k hk
    · exact ih k hk

/-- Erasing the line. -/
theorem Plain.cleans {r : RB} (h : Plain U d w vis r) {n ts} (h1 : r.idxLine U r.width = .ok n)
    (h2 : r.cleanOutput U n = .ok ts) {s : Scr} {t : Spec.Term} {k : Nat} (hn : Near s t k) (hst : t.st = .ground)
    (hrow : t.row = y + (vis.length + r.idx) / w) : Win (s.run (chars ts)) (t.run (chars ts)) (min k y) ∧ (s.run (chars ts)).h = s.h := by
  have hd := h.cleaned h1 h2 hst hrow
  have htop := Drawn.top hd
  rw [h.idxLine] at h1
  cases h1
  unfold RB.cleanOutput at h2
  have hw : r.width ≠ 0 := by rw [h.width]; have := h.pw; omega
  rw [if_neg hw] at h2
  generalize (vis.length + r.idx) / w = n at *
  have h2 : ts = [.eraseBelow] ++ ((List.replicate n [Tok.eraseLine, .cr, .up1]).flatten ++ [.eraseLine, .cr]) := by
    split at h2
    · next h0 =>
      have h0 : n = 0 := by exact_mod_cast h0
      cases h2
      rw [h0]; rfl
    · cases h2
      rw [← List.append_assoc]
      rfl
  by_cases hk : k ≤ y
  · rw [Nat.min_eq_left hk]
    refine Win.climbs ⟨hn, by omega⟩ (climbs_toks (fun k hk => ?_) hst).1 (by omega)
    subst h2
    simp only [List.mem_append, List.mem_cons, List.not_mem_nil, or_false, List.mem_flatten, List.mem_replicate] at hk
    rcases hk with rfl | ⟨l, ⟨_, rfl⟩, hk⟩ | rfl | rfl
    · exact .eraseBelow
    · simp only [List.mem_cons, List.not_mem_nil, or_false] at hk
      rcases hk with rfl | rfl | rfl
      · exact .eraseLine
      · exact .cr
      · exact .up1
    · exact .eraseLine
    · exact .cr
  · rw [Nat.min_eq_right (by omega)]
    have hs : s.st = .ground := hn.st.trans hst
    have hr := hn.row
    obtain ⟨s', g1, g2, g3, g4, g5, g6, g7, g8⟩ := scr_wipe (n := n) (s := { s.eraseBelow with st := .ground }) rfl (by show s.row ≤ n; omega)
      (fun a ha x => by
        show (if s.row < a ∨ _ then 32 else s.cell a x) = 32
        rw [if_pos (.inl ha)])
    have e : s.run (chars ts) = s' := by rw [h2, chars_append, Scr.run_append, scr_eraseBelow s hs]; exact g1
    rw [e]
    have hl := hn.low
    obtain ⟨p1, p2⟩ : (t.run (chars ts)).col = 0 ∧ (t.run (chars ts)).pend = false := by
      rcases hd.at' with ⟨g0, _, g, _⟩ | ⟨_, g, _⟩
      · exact ⟨by simpa using g, g0⟩
      · omega
    have hblank : ∀ a x, x < s'.w → (t.run (chars ts)).cell (y + a) x = 32 := by
      intro a x hx
      rw [g2] at hx
      have := hd.cells a x (by rw [hd.w, ← hn.w]; exact hx)
      rw [this]; rfl
    refine ⟨⟨⟨?_, ?_, ?_, ?_, ?_, ?_, fun a _ x hx => ?_, fun a ha x hx => ?_⟩, ?_⟩, g3⟩
    · rw [g2, hd.w]; exact hn.w
    · rw [g4, htop]; omega
    · rw [g4, g3]; show 0 < s.h; omega
    · rw [g5, p1]
    · rw [g6, p2]
    · rw [g7, hd.st]
    · rw [g8, hblank a x hx]
    · obtain ⟨b, rfl⟩ := Nat.exists_eq_add_of_le (show y ≤ a by omega)
      exact hblank b x hx
    · omega

/-- Printing the line. -/
theorem Plain.prints {r : RB} (h : Plain U d w vis r) {ts : List Tok} (ho : r.output U d = .ok ts) {t0 t : Spec.Term} (hw : t0.w = w)
    (ht : Drawn t0 t y [] 0) {s : Scr} {k : Nat} (hs : Win s t k) : ∃ k', Near (s.run (chars ts)) (t.run (chars ts)) k' ∧ (s.run (chars ts)).h = s.h ∧
      (k' = k ∨ k' + s.h = y + (vis.length + r.buf.length) / w + 1) := by
  have hw0 : 0 < t0.w := by rw [hw]; have := h.pw; omega
  obtain ⟨f, hf, hcol⟩ := h.paint
  have hcol := hcol r.buf r.idx (fun c hc => (h.buf c hc).1)
  have d1 := run_coloured h.prompt hw0 (text := []) (by simpa using ht)
  simp only [List.nil_append] at d1
  have d2 := run_coloured hcol hw0 d1
  obtain ⟨bs, ets, hb1, hb2⟩ := h.output_eq hf ho
  have hlen : (vis ++ r.buf).length = vis.length + r.buf.length := List.length_append ..
  have hmove : ∀ k ∈ bs, Moving k := by
    by_cases hi : r.idx < r.buf.length
    · have hb := hb1 hi
      unfold RB.getBackspaceSequence at hb
      dsimp only at hb
      split at hb
      all_goals
        obtain ⟨p, _, hb⟩ := R.bind_inv hb
        obtain ⟨sep, _, hb⟩ := R.bind_inv hb
        cases hb
        rw [h.width]
        exact bsLoop_moving w sep _ _
    · rw [hb2 hi]; intro k hk; cases hk
  rw [ets, chars_append, chars_ch, chars_append, paint_chars U hcol.no_tab, chars_append]
  obtain ⟨f1, g1⟩ := falls_coloured h.prompt ht.st
  obtain ⟨f2, g2⟩ := falls_coloured hcol g1
  generalize e2 : (t.run r.prompt).run (f r.buf r.idx) = t2 at *
  have hw2 : t2.w = w := d2.w.trans hw
  -- the blank at the edge
  have key : Falls t2 (chars (if r.buf = [] ∨ (vis.length + r.buf.length) % w = 0 then [.ch 32, .bs] else [])) ∧
      (t2.run (chars (if r.buf = [] ∨ (vis.length + r.buf.length) % w = 0 then [.ch 32, .bs] else []))).row = y + (vis.length + r.buf.length) / w ∧
      (t2.run (chars (if r.buf = [] ∨ (vis.length + r.buf.length) % w = 0 then [.ch 32, .bs] else []))).st = .ground := by
    split
    · have d3 := Drawn.put_blank hw0 d2
      have hpb := Plain.put_back (t := t2) (by rw [hw2, ← hw]; exact hw0) d2.at'
      rw [hw2, hlen] at hpb
      have e1 : t2.feed 32 = t2.put 32 := Printable.feed ⟨by omega, by omega, by omega⟩ d2.st
      have e3 : (t2.put 32).feed 8 = (t2.put 32).back := by simp [Spec.Term.feed, d3.st]
      have ec : chars [.ch 32, .bs] = [32, 8] := rfl
      have er : t2.run [32, 8] = (t2.put 32).back := by rw [run_cons, e1]; exact e3
      rw [ec, er]
      refine ⟨⟨by rw [e1]; exact put_falls _ _, by rw [e1, e3]; exact Nat.le_refl _, trivial⟩, hpb.1, d3.st⟩
    · next hne =>
      refine ⟨trivial, ?_, d2.st⟩
      have := d2.at'
      rw [At, hw2, hlen] at this
      rcases this with ⟨_, g, _⟩ | ⟨_, _, g, _⟩
      · exact g
      · exact absurd (.inr g) hne
  obtain ⟨k1, k2, k3⟩ := key
  have hf : Falls t (r.prompt ++ (f r.buf r.idx ++ chars (if r.buf = [] ∨ (vis.length + r.buf.length) % w = 0 then [.ch 32, .bs] else []))) :=
    f1.append (f2.append (by rw [e2]; exact k1))
  have er : t.run (r.prompt ++ (f r.buf r.idx ++ chars (if r.buf = [] ∨ (vis.length + r.buf.length) % w = 0 then [.ch 32, .bs] else []))) =
      t2.run (chars (if r.buf = [] ∨ (vis.length + r.buf.length) % w = 0 then [.ch 32, .bs] else [])) := by
    rw [run_append, run_append, e2]
  rw [← List.append_assoc (f r.buf r.idx), ← List.append_assoc]
  obtain ⟨k', q1, q2, q3⟩ := hs.falls hf
  rw [er, k2] at q3
  obtain ⟨z1, z2, z3⟩ := q1.toNear.toks hmove (by rw [er]; exact k3)
  rw [Scr.run_append, Term.run_append]
  exact ⟨k', z1, z2.trans q2, q3⟩

end RL
