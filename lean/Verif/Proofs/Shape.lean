import Verif.Proofs.Disp
/-!
# The widths do not change, and outside a search nothing is left of it

`Shaped w o`: the search and the completion have the width `w`, and unless a search is running there are no marks and no search
text.  Every function of the editing loop keeps this (used for C95).
-/

namespace RL

theorem Comp.completeRefresh_width {U : UTables} {c c' : Comp} {r r' : RB} (h : c.completeRefresh U r = .ok (c', r')) : c'.width = c.width := by
  have := (Comp.completeRefresh_ok h).2.2
  rw [this]

theorem Comp.enterSelect_width {U : UTables} {c c' : Comp} {r r' : RB} (h : c.enterSelect U r = .ok (c', r')) : c'.width = c.width := by
  have := Comp.completeRefresh_width (c := { c with inSelect := true, choise := -1 }) h
  exact this

theorem Comp.enterComplete_width {U : UTables} {c c' : Comp} {r r' : RB} {off : Int} {cs : List (List Rune)}
    (h : Comp.enterComplete U off cs c r = .ok (c', r')) : c'.width = c.width := by
  have := Comp.completeRefresh_width (c := { c with inComplete := true, candidate := cs, off := off }) h
  exact this

theorem Comp.nextCandidate_width {c c' : Comp} {i : Int} (h : c.nextCandidate i = .ok c') : c'.width = c.width := by
  obtain ⟨_, _, h⟩ := R.bind_inv h
  cases h; rfl

theorem Comp.doSelect_width {U : UTables} {d : DCfg} {c c' : Comp} {r r' : RB} (h : c.doSelect U d r = .ok (c', r')) : c'.width = c.width := by
  unfold Comp.doSelect at h
  split at h
  · obtain ⟨r1, e1, h⟩ := R.bind_inv h
    cases h; rfl
  · obtain ⟨c1, e1, h⟩ := R.bind_inv h
    exact (Comp.completeRefresh_width h).trans (Comp.nextCandidate_width e1)

theorem Comp.onComplete_width {U : UTables} {d : DCfg} {auto : Option Completer} {c c' : Comp} {r r' : RB} {b : Bool}
    (h : Comp.onComplete U d auto c r = .ok (b, c', r')) : c'.width = c.width := by
  unfold Comp.onComplete at h
  split at h
  · cases h; rfl
  · split at h
    · obtain ⟨⟨c1, r1⟩, e1, h⟩ := R.bind_inv h
      cases h; exact Comp.doSelect_width e1
    · split at h
      · obtain ⟨⟨c1, r1⟩, e1, h⟩ := R.bind_inv h
        obtain ⟨⟨c2, r2⟩, e2, h⟩ := R.bind_inv h
        cases h; exact (Comp.doSelect_width e2).trans (Comp.enterSelect_width e1)
      · dsimp only at h
        split at h
        · cases h
        · split at h
          · cases h; rfl
          · split at h
            · split at h
              · obtain ⟨r1, e1, h⟩ := R.bind_inv h
                cases h; rfl
              · obtain ⟨⟨same, size, cands⟩, _, h⟩ := R.bind_inv h
                dsimp only at h
                split at h
                · obtain ⟨r1, e1, h⟩ := R.bind_inv h
                  cases h; rfl
                · obtain ⟨⟨c1, r1⟩, e1, h⟩ := R.bind_inv h
                  cases h; have := Comp.enterComplete_width e1; exact this
            · obtain ⟨⟨c1, r1⟩, e1, h⟩ := R.bind_inv h
              cases h; have := Comp.enterComplete_width e1; exact this

theorem Comp.selectKey_width {U : UTables} {d : DCfg} {c : Comp} {r : RB} {k : Rune} :
    Oks (fun x => x.2.1.width = c.width) (c.selectKey U d k r) := by
  have any : ∀ {α} {x : R α}, Oks (fun _ => True) x := fun _ _ => trivial
  have next : ∀ i, Oks (fun c' => c'.width = c.width) (c.nextCandidate i) := fun _ _ e => Comp.nextCandidate_width e
  unfold Comp.selectKey
  refine .ite (.bind any fun _ _ => .bind any fun _ _ => .ok rfl) (.ite (.bind any fun _ _ => .bind (next _) fun _ e => .ok e) (.ite
    (.bind any fun _ _ => .ok rfl) (.ite (.ok rfl) (.ite (.bind (P := fun x => x.1.width = c.width) (fun x e => Comp.doSelect_width e) fun _ e => .ok e)
    (.ite (.ok rfl) (.ite (.bind any fun _ _ => .ok rfl) (.ite (.bind (next _) fun _ e => .ok e) (.ite ?_ (.ok rfl)))))))))
  exact .ite (.bind any fun _ _ => .ok rfl) (.ok rfl)

theorem Comp.handleSelect_width {U : UTables} {d : DCfg} {c : Comp} {r : RB} {k : Rune} :
    Oks (fun x => x.2.1.width = c.width) (c.handleSelect U d k r) :=
  .bind Comp.selectKey_width fun _ e => .ite (.bind (P := fun x => x.1.width = c.width) (fun _ e2 => (Comp.completeRefresh_width e2).trans e) fun _ e => .ok e) (.ok e)

/-- The widths, and nothing left of the last search. -/
def Op.Shaped (w : Int) (o : Op) : Prop :=
  o.comp.width = w ∧ o.search.width = w ∧ (o.search.inMode = false → o.search.markStart = 0 ∧ o.search.data = [])

/-- Results that carry a state. -/
class HasShape (α : Type) where
  good : Int → α → Prop

instance : HasShape Op := ⟨Op.Shaped⟩
instance : HasShape Op.KeyRes := ⟨fun w k => k.op.Shaped w⟩
instance {α β} [HasShape β] : HasShape (α × β) := ⟨fun w x => HasShape.good w x.2⟩
instance {α} [HasShape α] : HasShape (Option α) := ⟨fun w x => ∀ a, x = some a → HasShape.good w a⟩

/-- If the computation succeeds, its result is in shape. -/
structure SH {α} [HasShape α] (w : Int) (x : R α) : Prop where
  ok : ∀ a, x = .ok a → HasShape.good w a

namespace SH
variable {w : Int}
variable {α β : Type} [HasShape β]

theorem pure {a : β} (h : HasShape.good w a) : SH w (.ok a) := ⟨fun b e => by cases e; exact h⟩
theorem op {o : Op} (h : o.Shaped w) : SH w (.ok o) := pure h
theorem key {k : Op.KeyRes} (h : k.op.Shaped w) : SH w (.ok k) := pure h
theorem pair {a : α} {o : Op} (h : o.Shaped w) : SH w (.ok (a, o)) := pure (β := α × Op) h
theorem some {a : α} {o : Op} (h : o.Shaped w) : SH w (.ok (some (a, o))) :=
  pure (β := Option (α × Op)) fun _ e => by cases e; exact h
theorem none : SH w (.ok none : R (Option (Rune × Op))) := pure (β := Option (Rune × Op)) fun _ e => by cases e
theorem error {e : Fault} : SH w (.error e : R β) := ⟨fun _ h => by cases h⟩
theorem any {x : R α} {f : α → R β} (hf : ∀ a, SH w (f a)) : SH w (x >>= f) := by
  cases x with
  | ok a => exact hf a
  | error e => exact error
theorem bind [HasShape α] {x : R α} {f : α → R β} (hx : SH w x) (hf : ∀ a, HasShape.good w a → SH w (f a)) : SH w (x >>= f) := by
  cases x with
  | ok a => exact hf a (hx.ok a rfl)
  | error e => exact error
theorem ite {p : Prop} [Decidable p] {x y : R β} (hx : SH w x) (hy : SH w y) : SH w (if p then x else y) := by
  by_cases h : p
  · rw [if_pos h]; exact hx
  · rw [if_neg h]; exact hy

end SH

namespace Op
variable {c : OCfg} {w : Int}

theorem edit_shape {o : Op} {k : Cmd} (h : o.Shaped w) : SH w (o.edit c k) := .any fun _ => .op h
theorem refreshNil_shape {o : Op} (h : o.Shaped w) : SH w (o.refreshNil c) := .any fun _ => .op h
theorem clean_shape {o : Op} (h : o.Shaped w) : SH w (o.clean c) := .any fun _ => .op h
theorem refresh_shape {o : Op} (h : o.Shaped w) : SH w (o.refresh c) := .ite (refreshNil_shape h) (.op h)
theorem exitSearch_shape {o : Op} {b : Bool} (h : o.Shaped w) : SH w (o.exitSearch c b) := by
  constructor
  intro o' e
  obtain ⟨⟨s, hi, rb⟩, e1, e⟩ := R.bind_inv e
  cases e
  unfold Search.exitSearchMode at e1
  have off : s.width = o.search.width ∧ s.markStart = 0 ∧ s.data = [] := by
    dsimp only at e1
    split at e1
    · split at e1
      · cases e1
      · obtain ⟨_, _, e1⟩ := R.bind_inv e1
        cases e1; exact ⟨rfl, rfl, rfl⟩
    · cases e1; exact ⟨rfl, rfl, rfl⟩
  exact ⟨h.1, off.1.trans h.2.1, fun _ => off.2⟩

theorem onComplete_shape {o : Op} (h : o.Shaped w) : SH w (o.onComplete c) := by
  constructor
  intro x e
  obtain ⟨⟨b, cm, rb⟩, e1, e⟩ := R.bind_inv e
  cases e
  exact ⟨(Comp.onComplete_width e1).trans h.1, h.2⟩

theorem completeRefresh_shape {o : Op} (h : o.Shaped w) : SH w (o.completeRefresh c) := by
  constructor
  intro x e
  obtain ⟨⟨cm, rb⟩, e1, e⟩ := R.bind_inv e
  cases e
  exact ⟨(Comp.completeRefresh_width e1).trans h.1, h.2⟩

theorem search_shape {b : Bool} {s : Search} {h : Hist} {r : RB} {s' h' r'} (hm : s.inMode = true)
    (e : Search.search c.U c.d c.h b s h r = .ok (s', h', r')) : s'.inMode = true ∧ s'.width = s.width := by
  obtain ⟨k1, _, _, k2, _⟩ := Search.search_ok e
  exact ⟨k1.trans hm, k2⟩

theorem readRune_shape {o : Op} (h : o.Shaped w) : SH w o.readRune := by
  unfold readRune
  refine .ite .error ?_
  dsimp only
  split
  · exact .pair h
  · exact .pair h

theorem vimMovement_shape {o : Op} {r : Rune} (h : o.Shaped w) : SH w (vimMovement c r o) := by
  have ed : ∀ (k : Cmd) {o : Op}, o.Shaped w → SH w (do let o ← o.edit c k; .ok (some ((0 : Rune), o)) : R (Option (Rune × Op))) :=
    fun k o h => .bind (edit_shape h) fun _ a => .some a
  unfold vimMovement
  dsimp only
  refine .ite (.some h) (.ite (.some h) (.ite (.some h) (.ite (.some h) (.ite (ed _ h) (.ite (ed _ h) (.ite ?_ (.ite ?_
    (.ite ?_ (.ite (ed _ h) (.ite (ed _ h) (.ite (ed _ h) (.ite (ed _ h) (.ite ?_ .none)))))))))))))
  · exact .bind (edit_shape h) fun _ a => .ite (ed _ a) (.some a)
  · exact .bind (readRune_shape h) fun _ a => ed _ a
  · exact .bind (readRune_shape h) fun _ a => .ite (ed _ a) (.ite (ed _ a) (.ite (ed _ a) (.ite (ed _ a) (.some a))))
  · exact .bind (readRune_shape h) fun _ a => .ite (.some a) (ed _ a)

theorem vimEnterInsert_shape {o : Op} {r : Rune} (h : o.Shaped w) : SH w (vimEnterInsert c r o) := by
  have ed : ∀ (k : Cmd) {o : Op}, o.Shaped w →
      SH w (do let o ← o.edit c k; .ok (some ((0 : Rune), { o with vimNormal := false })) : R (Option (Rune × Op))) :=
    fun k o h => .bind (edit_shape h) fun _ a => .some a
  unfold vimEnterInsert
  dsimp only
  refine .ite (.some h) (.ite (ed _ h) (.ite (ed _ h) (.ite (ed _ h) (.ite (ed _ h) (.ite (ed _ h) (.ite ?_ .none))))))
  exact .bind (readRune_shape h) fun _ a => .ite (ed _ a) (.ite (ed _ a) (.ite (ed _ a) (.ite (ed _ a) (.some a))))

theorem handleVim_shape {o : Op} {r : Rune} (h : o.Shaped w) : SH w (handleVim c r o) := by
  unfold handleVim
  refine .ite ?_ (.ite (.pair h) (.pair h))
  unfold vimNormalKey
  refine .ite (.pair h) (.bind (vimMovement_shape h) fun x a => ?_)
  cases x with
  | some x => exact .pure (β := Rune × Op) (a x rfl)
  | none =>
    refine .bind (vimEnterInsert_shape h) fun x a => ?_
    cases x with
    | some x => exact .pure (β := Rune × Op) (a x rfl)
    | none => exact .pair h

theorem keySearch_shape {o : Op} {fwd : Bool} (h : o.Shaped w) : SH w (keySearch c fwd o) := by
  unfold keySearch
  refine .bind (α := Bool × Op) ?_ fun x a => .ite (.key a) (.key a)
  constructor
  intro x e
  obtain ⟨⟨ok, s, hi, rb⟩, e1, e⟩ := R.bind_inv e
  cases e
  unfold Search.searchMode at e1
  by_cases q : o.search.width = 0
  · rw [if_pos q] at e1; cases e1; exact h
  rw [if_neg q] at e1
  dsimp only at e1
  have on : s.inMode = true ∧ s.width = o.search.width → HasShape.good w ((ok, { o with search := s, hist := hi, rb := rb }) : Bool × Op) := by
    intro a
    refine ⟨h.1, a.2.trans h.2.1, fun b => ?_⟩
    have : s.inMode = false := b
    rw [a.1] at this; cases this
  apply on
  by_cases q : o.search.inMode = true
  · rw [if_pos q] at e1
    obtain ⟨⟨s1, h1, r1⟩, e3, e1⟩ := R.bind_inv e1
    cases e1
    have := search_shape (s := { o.search with inMode := true, fwd := fwd, source := o.hist.current }) rfl e3
    exact this
  · rw [if_neg q] at e1
    obtain ⟨⟨s1, r1⟩, e3, e1⟩ := R.bind_inv e1
    cases e1
    obtain ⟨rfl, _⟩ := Search.searchRefresh_ok e3
    exact ⟨rfl, rfl⟩

theorem searchChar_shape {o : Op} {r : Rune} (hm : o.search.inMode = true) (h : o.Shaped w) : SH w (o.searchChar c r) := by
  constructor
  intro o' e
  obtain ⟨⟨s, hi, rb⟩, e1, e⟩ := R.bind_inv e
  cases e
  obtain ⟨k1, k2⟩ := search_shape (c := c) (s := { o.search with data := o.search.data ++ [r] }) hm e1
  refine ⟨h.1, k2.trans h.2.1, fun b => ?_⟩
  have b : s.inMode = false := b
  rw [k1] at b; cases b

theorem searchBackspace_shape {o : Op} (hm : o.search.inMode = true) (h : o.Shaped w) : SH w (o.searchBackspace c) := by
  constructor
  intro o' e
  obtain ⟨⟨s, hi, rb⟩, e1, e⟩ := R.bind_inv e
  cases e
  unfold Search.searchBackspace at e1
  split at e1
  · obtain ⟨k1, k2⟩ := search_shape (c := c) (s := { o.search with data := o.search.data.dropLast }) hm e1
    refine ⟨h.1, k2.trans h.2.1, fun b => ?_⟩
    have b : s.inMode = false := b
    rw [k1] at b; cases b
  · cases e1; exact h

theorem key_shape {o : Op} {r : Rune} (h : o.Shaped w) : SH w (o.key c r) := by
  unfold key
  cases simpleKey r with
  | some k => exact .bind (edit_shape h) fun _ a => .key a
  | none =>
    dsimp only
    refine .ite ?_ (.ite ?_ (.ite (keySearch_shape h) (.ite (keySearch_shape h) (.ite ?_ (.ite ?_ (.ite ?_ (.ite ?_ (.ite ?_ (.ite ?_
      (.ite ?_ (.ite ?_ ?_)))))))))))
    · unfold keyBell
      have h2 : ∀ {o : Op}, o.Shaped w → SH w (if o.comp.inComplete = true then
          (refreshNil c { o with comp := o.comp.exitComplete } >>= fun o => .ok { op := o })
          else ((.ok o : R Op) >>= fun o => .ok { op := o }) : R KeyRes) := fun a =>
        .ite (.bind (refreshNil_shape a) fun _ b => .key b) (.bind (.op a) fun _ b => .key b)
      dsimp only
      split
      · exact .bind (exitSearch_shape h) fun _ a => .bind (refreshNil_shape a) fun _ b => h2 b
      · exact h2 h
    · unfold keyTab
      split
      · exact .key h
      · exact .bind (onComplete_shape h) fun _ a => .ite (.key a) (.key a)
    · unfold keyBackspace
      by_cases q : o.search.inMode = true
      · rw [if_pos q]
        exact .bind (searchBackspace_shape q h) fun _ a => .key a
      · rw [if_neg q]
        exact .ite (.key h) (.bind (edit_shape h) fun _ a => .ite (.bind (onComplete_shape a) fun _ b => .key b) (.key a))
    · exact .bind (clean_shape h) fun _ a => .bind (refresh_shape a) fun _ b => .key b
    · exact .bind (refresh_shape (o := { o with rb := o.rb.write [.home] }) h) fun _ b => .key b
    · unfold keyEnter
      have save : ∀ {o : Op} {data : List Rune}, o.Shaped w → SH w (if c.noSave = false then do
              let h ← o.hist.new c.h data
              .ok { op := { o with hist := h } }
            else .ok { op := o, update := false } : R KeyRes) := fun a => .ite (.any fun _ => .key a) (.key a)
      dsimp only
      have main : ∀ {o : Op}, o.Shaped w → SH w (o.edit c .toEnd >>= fun o => if c.unique = false then
          o.edit c (.insert [10]) >>= fun o => if o.rb.reset.1.length = 0 then .error .panic else
            (if c.noSave = false then do
              let h ← o.hist.new c.h (o.rb.reset.1.take (o.rb.reset.1.length - 1))
              .ok { op := { o with rb := o.rb.reset.2, events := o.events ++ [.line (o.rb.reset.1.take (o.rb.reset.1.length - 1))], hist := h } }
            else .ok { op := { o with rb := o.rb.reset.2, events := o.events ++ [.line (o.rb.reset.1.take (o.rb.reset.1.length - 1))] }, update := false })
          else o.clean c >>= fun o => if c.noSave = false then do
              let h ← o.hist.new c.h o.rb.reset.1
              .ok { op := { o with rb := o.rb.reset.2, events := o.events ++ [.line o.rb.reset.1], hist := h } }
            else .ok { op := { o with rb := o.rb.reset.2, events := o.events ++ [.line o.rb.reset.1] }, update := false } : R KeyRes) := by
        intro o h
        refine .bind (edit_shape h) fun _ a => .ite (.bind (edit_shape a) fun o b => .ite .error ?_) (.bind (clean_shape a) fun o b => ?_)
        · exact .ite (.any fun _ => .key b) (.key b)
        · exact .ite (.any fun _ => .key b) (.key b)
      split
      · exact .bind (exitSearch_shape h) fun _ a => main a
      · exact main h
    · unfold keyPrev
      split
      · exact .bind (edit_shape (o := { o with hist := _ }) h) fun _ a => .key a
      · exact .key h
    · unfold keyNext
      split
      · exact .bind (edit_shape (o := { o with hist := _ }) h) fun _ a => .key a
      · exact .key h
    · unfold keyDelete
      refine .ite ?_ ?_
      · exact .any fun _ => .ite (.key h) (.key h)
      · have fin : ∀ {o : Op}, o.Shaped w → SH w (if c.unique = true then o.clean c >>= fun o => .ok { op := o, update := false }
            else .ok { op := o, update := false } : R KeyRes) := fun a => .ite (.bind (clean_shape a) fun _ b => .key b) (.key a)
        dsimp only
        split
        · exact .bind (edit_shape h) fun o a => fin (o := { o with rb := _, hist := _, events := _ }) a
        · exact fin (o := { o with rb := _, hist := _, events := _ }) h
    · unfold keyInterrupt
      refine .ite (.bind (exitSearch_shape h) fun _ a => .key a) (.ite (.bind (refreshNil_shape (o := { o.kickRead with comp := _ }) h) fun _ a => .key a) ?_)
      refine .bind (edit_shape h) fun _ a => .bind (refreshNil_shape a) fun _ b => ?_
      dsimp only
      split
      · exact .bind (edit_shape b) fun _ d => .any fun _ => .key d
      · exact .key b
    · unfold keyText
      by_cases q : o.search.inMode = true
      · rw [if_pos q]
        exact .bind (searchChar_shape q h) fun _ a => .key a
      · rw [if_neg q]
        exact .bind (edit_shape h) fun _ a => .ite (.bind (onComplete_shape a) fun _ b => .key b) (.key a)

theorem dispatch_shape {o : Op} {r : Rune} (h : o.Shaped w) : SH w (o.dispatch c r) := by
  unfold dispatch
  refine .bind (key_shape h) fun k a => .bind ?_ fun k a => ?_
  · unfold listen
    split
    · exact .key a
    · split
      · exact .key a
      · exact .any fun _ => .key a
  · unfold finish
    refine .bind (α := Op) ?_ fun _ b => .ite (.op b) (.op b)
    unfold settle
    refine .ite (.bind (exitSearch_shape a) fun _ b => refreshNil_shape b) (.ite (.ite (refresh_shape (o := { k.op with comp := _ }) a) ?_) (.op a))
    exact .bind (refreshNil_shape a) fun _ b => completeRefresh_shape b

theorem iter_shape {o : Op} (h : o.Shaped w) : SH w (o.iter c) := by
  have vim : ∀ {o : Op} {r : Rune}, o.Shaped w → SH w (o.viaVim c r) := by
    intro o r h
    exact .ite (.bind (handleVim_shape h) fun x a => .ite (.op a) (dispatch_shape a)) (dispatch_shape h)
  have menu : ∀ {o : Op} {r : Rune}, o.Shaped w → SH w (o.viaMenu c r) := by
    intro o r h
    refine .ite ?_ (vim h)
    refine ⟨fun o' e => ?_⟩
    obtain ⟨x, e1, e⟩ := R.bind_inv e
    have h : ({ o with comp := x.2.1, rb := x.2.2 } : Op).Shaped w := ⟨(Comp.handleSelect_width _ e1).trans h.1, h.2⟩
    revert e
    refine SH.ok ?_ o'
    refine .ite (.op h) (.bind (refreshNil_shape h) fun o a => .ite (.op a) (.ite (.op a) (.ite (.op a) (vim a))))
  have hand : ∀ {o : Op} {r : Rune}, o.Shaped w → SH w (o.handle c r) := by
    intro o r h
    exact .ite (.ite (.bind (clean_shape h) fun _ a => .op a) (menu h)) (menu h)
  unfold iter
  refine .bind (readRune_shape h) fun x a => ?_
  show SH w (x.2.accept c x.1)
  unfold accept
  split
  · exact hand a
  · split
    · exact refreshNil_shape (o := x.2.kickRead) a
    · exact hand a

theorem iter_shaped {o o' : Op} (h : o.Shaped w) (e : o.iter c = .ok o') : o'.Shaped w := (iter_shape h).ok o' e

end Op
end RL
