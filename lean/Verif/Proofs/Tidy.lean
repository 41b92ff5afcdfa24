import Verif.Proofs.Keys
/-!
# Outside a search there is no search text

`Tidy o`: unless a search is running, the search text is empty and the search is not marked as failing.  Every function of
the editing loop keeps this.
-/

namespace RL

/-- Unless a search is running, nothing is left of the last one. -/
def Op.Tidy (o : Op) : Prop := o.search.inMode = false → o.search.data = [] ∧ o.search.failing = false

/-- Results that carry a state. -/
class HasOp (α : Type) where
  good : α → Prop

instance : HasOp Op := ⟨Op.Tidy⟩
instance : HasOp Op.KeyRes := ⟨fun k => k.op.Tidy⟩
instance {α β} [HasOp β] : HasOp (α × β) := ⟨fun x => HasOp.good x.2⟩
instance {α} [HasOp α] : HasOp (Option α) := ⟨fun x => ∀ a, x = some a → HasOp.good a⟩

/-- If the computation succeeds, its result is tidy. -/
structure TD {α} [HasOp α] (x : R α) : Prop where
  ok : ∀ a, x = .ok a → HasOp.good a

namespace TD
variable {α β : Type} [HasOp β]

theorem pure {a : β} (h : HasOp.good a) : TD (.ok a) := ⟨fun b e => by cases e; exact h⟩
theorem op {o : Op} (h : o.Tidy) : TD (.ok o) := pure h
theorem key {k : Op.KeyRes} (h : k.op.Tidy) : TD (.ok k) := pure h
theorem pair {a : α} {o : Op} (h : o.Tidy) : TD (.ok (a, o)) := pure (β := α × Op) h
theorem some {a : α} {o : Op} (h : o.Tidy) : TD (.ok (some (a, o))) :=
  pure (β := Option (α × Op)) fun _ e => by cases e; exact h
theorem none : TD (.ok none : R (Option (Rune × Op))) := pure (β := Option (Rune × Op)) fun _ e => by cases e
theorem error {e : Fault} : TD (.error e : R β) := ⟨fun _ h => by cases h⟩
theorem any {x : R α} {f : α → R β} (hf : ∀ a, TD (f a)) : TD (x >>= f) := by
  cases x with
  | ok a => exact hf a
  | error e => exact error
theorem bind [HasOp α] {x : R α} {f : α → R β} (hx : TD x) (hf : ∀ a, HasOp.good a → TD (f a)) : TD (x >>= f) := by
  cases x with
  | ok a => exact hf a (hx.ok a rfl)
  | error e => exact error
theorem ite {p : Prop} [Decidable p] {x y : R β} (hx : TD x) (hy : TD y) : TD (if p then x else y) := by
  by_cases h : p
  · rw [if_pos h]; exact hx
  · rw [if_neg h]; exact hy

end TD

namespace Op
variable {c : OCfg}

theorem edit_td {o : Op} {k : Cmd} (h : o.Tidy) : TD (o.edit c k) := .any fun _ => .op h
theorem refreshNil_td {o : Op} (h : o.Tidy) : TD (o.refreshNil c) := .any fun _ => .op h
theorem clean_td {o : Op} (h : o.Tidy) : TD (o.clean c) := .any fun _ => .op h
theorem refresh_td {o : Op} (h : o.Tidy) : TD (o.refresh c) := .ite (refreshNil_td h) (.op h)
theorem exitSearch_td {o : Op} {b : Bool} : TD (o.exitSearch c b) := by
  constructor
  intro o' e
  obtain ⟨⟨s, h, rb⟩, e1, e⟩ := R.bind_inv e
  cases e
  unfold Search.exitSearchMode at e1
  have off : s.data = [] ∧ s.failing = false := by
    dsimp only at e1
    split at e1
    · split at e1
      · cases e1
      · obtain ⟨_, _, e1⟩ := R.bind_inv e1
        cases e1; exact ⟨rfl, rfl⟩
    · cases e1; exact ⟨rfl, rfl⟩
  exact fun _ => off

theorem onComplete_td {o : Op} (h : o.Tidy) : TD (o.onComplete c) := .any fun _ => .pair h
theorem completeRefresh_td {o : Op} (h : o.Tidy) : TD (o.completeRefresh c) := .any fun _ => .op h

theorem search_tidy {b : Bool} {s : Search} {h : Hist} {r : RB} {s' h' r'} (hm : s.inMode = true)
    (e : Search.search c.U c.d c.h b s h r = .ok (s', h', r')) : s'.inMode = true := by
  obtain ⟨k1, _⟩ := Search.search_ok e
  exact k1.trans hm

theorem readRune_td {o : Op} (h : o.Tidy) : TD o.readRune := by
  unfold readRune
  refine .ite .error ?_
  dsimp only
  split
  · exact .pair h
  · exact .pair h

theorem vimMovement_td {o : Op} {r : Rune} (h : o.Tidy) : TD (vimMovement c r o) := by
  have ed : ∀ (k : Cmd) {o : Op}, o.Tidy → TD (do let o ← o.edit c k; .ok (some ((0 : Rune), o)) : R (Option (Rune × Op))) :=
    fun k o h => .bind (edit_td h) fun _ a => .some a
  unfold vimMovement
  dsimp only
  refine .ite (.some h) (.ite (.some h) (.ite (.some h) (.ite (.some h) (.ite (ed _ h) (.ite (ed _ h) (.ite ?_ (.ite ?_
    (.ite ?_ (.ite (ed _ h) (.ite (ed _ h) (.ite (ed _ h) (.ite (ed _ h) (.ite ?_ .none)))))))))))))
  · exact .bind (edit_td h) fun _ a => .ite (ed _ a) (.some a)
  · exact .bind (readRune_td h) fun _ a => ed _ a
  · exact .bind (readRune_td h) fun _ a => .ite (ed _ a) (.ite (ed _ a) (.ite (ed _ a) (.ite (ed _ a) (.some a))))
  · exact .bind (readRune_td h) fun _ a => .ite (.some a) (ed _ a)

theorem vimEnterInsert_td {o : Op} {r : Rune} (h : o.Tidy) : TD (vimEnterInsert c r o) := by
  have ed : ∀ (k : Cmd) {o : Op}, o.Tidy →
      TD (do let o ← o.edit c k; .ok (some ((0 : Rune), { o with vimNormal := false })) : R (Option (Rune × Op))) :=
    fun k o h => .bind (edit_td h) fun _ a => .some a
  unfold vimEnterInsert
  dsimp only
  refine .ite (.some h) (.ite (ed _ h) (.ite (ed _ h) (.ite (ed _ h) (.ite (ed _ h) (.ite (ed _ h) (.ite ?_ .none))))))
  exact .bind (readRune_td h) fun _ a => .ite (ed _ a) (.ite (ed _ a) (.ite (ed _ a) (.ite (ed _ a) (.some a))))

theorem handleVim_td {o : Op} {r : Rune} (h : o.Tidy) : TD (handleVim c r o) := by
  unfold handleVim
  refine .ite ?_ (.ite (.pair h) (.pair h))
  unfold vimNormalKey
  refine .ite (.pair h) (.bind (vimMovement_td h) fun x a => ?_)
  cases x with
  | some x => exact .pure (β := Rune × Op) (a x rfl)
  | none =>
    refine .bind (vimEnterInsert_td h) fun x a => ?_
    cases x with
    | some x => exact .pure (β := Rune × Op) (a x rfl)
    | none => exact .pair h

theorem keySearch_td {o : Op} {fwd : Bool} (h : o.Tidy) : TD (keySearch c fwd o) := by
  unfold keySearch
  refine .bind (α := Bool × Op) ?_ fun x a => .ite (.key a) (.key a)
  constructor
  intro x e
  obtain ⟨⟨ok, s, hi, rb⟩, e1, e⟩ := R.bind_inv e
  cases e
  unfold Search.searchMode at e1
  by_cases q : o.search.width = 0
  · rw [if_pos q] at e1; cases e1; exact h
  rw [if_neg q] at e1
  dsimp only at e1
  have on : s.inMode = true → HasOp.good ((ok, { o with search := s, hist := hi, rb := rb }) : Bool × Op) := by
    intro a b
    have : s.inMode = false := b
    rw [a] at this; cases this
  apply on
  by_cases q : o.search.inMode = true
  · rw [if_pos q] at e1
    obtain ⟨⟨s1, h1, r1⟩, e3, e1⟩ := R.bind_inv e1
    cases e1
    exact search_tidy rfl e3
  · rw [if_neg q] at e1
    obtain ⟨⟨s1, r1⟩, e3, e1⟩ := R.bind_inv e1
    cases e1
    obtain ⟨rfl, _⟩ := Search.searchRefresh_ok e3
    rfl

theorem searchChar_td {o : Op} {r : Rune} (hm : o.search.inMode = true) : TD (o.searchChar c r) := by
  constructor
  intro o' e
  obtain ⟨⟨s, hi, rb⟩, e1, e⟩ := R.bind_inv e
  cases e
  have := search_tidy (c := c) (s := { o.search with data := o.search.data ++ [r] }) hm e1
  intro b
  have b : s.inMode = false := b
  rw [this] at b; cases b

theorem searchBackspace_td {o : Op} (hm : o.search.inMode = true) (h : o.Tidy) : TD (o.searchBackspace c) := by
  constructor
  intro o' e
  obtain ⟨⟨s, hi, rb⟩, e1, e⟩ := R.bind_inv e
  cases e
  unfold Search.searchBackspace at e1
  split at e1
  · have := search_tidy (c := c) (s := { o.search with data := o.search.data.dropLast }) hm e1
    intro b
    have b : s.inMode = false := b
    rw [this] at b; cases b
  · cases e1; exact h

theorem key_td {o : Op} {r : Rune} (h : o.Tidy) : TD (o.key c r) := by
  unfold key
  cases simpleKey r with
  | some k => exact .bind (edit_td h) fun _ a => .key a
  | none =>
    dsimp only
    refine .ite ?_ (.ite ?_ (.ite (keySearch_td h) (.ite (keySearch_td h) (.ite ?_ (.ite ?_ (.ite ?_ (.ite ?_ (.ite ?_ (.ite ?_
      (.ite ?_ (.ite ?_ ?_)))))))))))
    · unfold keyBell
      have h2 : ∀ {o : Op}, o.Tidy → TD (if o.comp.inComplete = true then
          (refreshNil c { o with comp := o.comp.exitComplete } >>= fun o => .ok { op := o })
          else ((.ok o : R Op) >>= fun o => .ok { op := o }) : R KeyRes) := fun a =>
        .ite (.bind (refreshNil_td a) fun _ b => .key b) (.bind (.op a) fun _ b => .key b)
      dsimp only
      split
      · exact .bind exitSearch_td fun _ a => .bind (refreshNil_td a) fun _ b => h2 b
      · exact h2 h
    · unfold keyTab
      split
      · exact .key h
      · exact .bind (onComplete_td h) fun _ a => .ite (.key a) (.key a)
    · unfold keyBackspace
      by_cases q : o.search.inMode = true
      · rw [if_pos q]
        exact .bind (searchBackspace_td q h) fun _ a => .key a
      · rw [if_neg q]
        exact .ite (.key h) (.bind (edit_td h) fun _ a => .ite (.bind (onComplete_td a) fun _ b => .key b) (.key a))
    · exact .bind (clean_td h) fun _ a => .bind (refresh_td a) fun _ b => .key b
    · exact .bind (refresh_td (o := { o with rb := o.rb.write [.home] }) h) fun _ b => .key b
    · unfold keyEnter
      have save : ∀ {o : Op} {data : List Rune}, o.Tidy → TD (if c.noSave = false then do
              let h ← o.hist.new c.h data
              .ok { op := { o with hist := h } }
            else .ok { op := o, update := false } : R KeyRes) := fun a => .ite (.any fun _ => .key a) (.key a)
      dsimp only
      have main : ∀ {o : Op}, o.Tidy → TD (o.edit c .toEnd >>= fun o => if c.unique = false then
          o.edit c (.insert [10]) >>= fun o => if o.rb.reset.1.length = 0 then .error .panic else
            (if c.noSave = false then do
              let h ← o.hist.new c.h (o.rb.reset.1.take (o.rb.reset.1.length - 1))
              .ok { op := { o with rb := o.rb.reset.2, events := o.events ++ [.line (o.rb.reset.1.take (o.rb.reset.1.length - 1))], hist := h } }
            else .ok { op := { o with rb := o.rb.reset.2, events := o.events ++ [.line (o.rb.reset.1.take (o.rb.reset.1.length - 1))] }, update := false })
          else o.clean c >>= fun o => if c.noSave = false then do
              let h ← o.hist.new c.h o.rb.reset.1
              .ok { op := { o with rb := o.rb.reset.2, events := o.events ++ [.line o.rb.reset.1], hist := h } }
            else .ok { op := { o with rb := o.rb.reset.2, events := o.events ++ [.line o.rb.reset.1] }, update := false } : R KeyRes) := by
        intro o h
        refine .bind (edit_td h) fun _ a => .ite (.bind (edit_td a) fun o b => .ite .error ?_) (.bind (clean_td a) fun o b => ?_)
        · exact .ite (.any fun _ => .key b) (.key b)
        · exact .ite (.any fun _ => .key b) (.key b)
      split
      · exact .bind exitSearch_td fun _ a => main a
      · exact main h
    · unfold keyPrev
      split
      · exact .bind (edit_td (o := { o with hist := _ }) h) fun _ a => .key a
      · exact .key h
    · unfold keyNext
      split
      · exact .bind (edit_td (o := { o with hist := _ }) h) fun _ a => .key a
      · exact .key h
    · unfold keyDelete
      refine .ite ?_ ?_
      · exact .any fun _ => .ite (.key h) (.key h)
      · have fin : ∀ {o : Op}, o.Tidy → TD (if c.unique = true then o.clean c >>= fun o => .ok { op := o, update := false }
            else .ok { op := o, update := false } : R KeyRes) := fun a => .ite (.bind (clean_td a) fun _ b => .key b) (.key a)
        dsimp only
        split
        · exact .bind (edit_td h) fun o a => fin (o := { o with rb := _, hist := _, events := _ }) a
        · exact fin (o := { o with rb := _, hist := _, events := _ }) h
    · unfold keyInterrupt
      refine .ite (.bind exitSearch_td fun _ a => .key a) (.ite (.bind (refreshNil_td (o := { o.kickRead with comp := _ }) h) fun _ a => .key a) ?_)
      refine .bind (edit_td h) fun _ a => .bind (refreshNil_td a) fun _ b => ?_
      dsimp only
      split
      · exact .bind (edit_td b) fun _ d => .any fun _ => .key d
      · exact .key b
    · unfold keyText
      by_cases q : o.search.inMode = true
      · rw [if_pos q]
        exact .bind (searchChar_td q) fun _ a => .key a
      · rw [if_neg q]
        exact .bind (edit_td h) fun _ a => .ite (.bind (onComplete_td a) fun _ b => .key b) (.key a)

theorem dispatch_td {o : Op} {r : Rune} (h : o.Tidy) : TD (o.dispatch c r) := by
  unfold dispatch
  refine .bind (key_td h) fun k a => .bind ?_ fun k a => ?_
  · unfold listen
    split
    · exact .key a
    · split
      · exact .key a
      · exact .any fun _ => .key a
  · unfold finish
    refine .bind (α := Op) ?_ fun _ b => .ite (.op b) (.op b)
    unfold settle
    refine .ite (.bind exitSearch_td fun _ b => refreshNil_td b) (.ite (.ite (refresh_td (o := { k.op with comp := _ }) a) ?_) (.op a))
    exact .bind (refreshNil_td a) fun _ b => completeRefresh_td b

theorem iter_td {o : Op} (h : o.Tidy) : TD (o.iter c) := by
  have vim : ∀ {o : Op} {r : Rune}, o.Tidy → TD (o.viaVim c r) := by
    intro o r h
    exact .ite (.bind (handleVim_td h) fun x a => .ite (.op a) (dispatch_td a)) (dispatch_td h)
  have menu : ∀ {o : Op} {r : Rune}, o.Tidy → TD (o.viaMenu c r) := by
    intro o r h
    refine .ite (.any fun x => ?_) (vim h)
    refine .ite (.op h) (.bind (refreshNil_td (o := { o with comp := _, rb := _ }) h) fun o a => .ite (.op a) (.ite (.op a) (.ite (.op a) (vim a))))
  have hand : ∀ {o : Op} {r : Rune}, o.Tidy → TD (o.handle c r) := by
    intro o r h
    exact .ite (.ite (.bind (clean_td h) fun _ a => .op a) (menu h)) (menu h)
  unfold iter
  refine .bind (readRune_td h) fun x a => ?_
  show TD (x.2.accept c x.1)
  unfold accept
  split
  · exact hand a
  · split
    · exact refreshNil_td (o := x.2.kickRead) a
    · exact hand a

theorem iter_tidy {o o' : Op} (h : o.Tidy) (e : o.iter c = .ok o') : o'.Tidy := (iter_td h).ok o' e

end Op
end RL
