import Verif.Model.Operation
/-!
# What has been written does not matter

The editing loop never reads what it has written: with other output before it, every function does the same and writes the same behind it.
This allows to look at a session from any moment on (used for C96).
-/

namespace RL

/-- `p` was written before. -/
@[reducible] def RB.pre (p : List Tok) (r : RB) : RB := { r with out := p ++ r.out }
@[reducible] def Op.pre (p : List Tok) (o : Op) : Op := { o with rb := o.rb.pre p }
@[reducible] def Op.KeyRes.pre (p : List Tok) (k : Op.KeyRes) : Op.KeyRes := { k with op := k.op.pre p }

/-- Results that carry output. -/
class HasOut (α : Type) where
  pre : List Tok → α → α

@[reducible] instance : HasOut RB := ⟨RB.pre⟩
@[reducible] instance : HasOut Op := ⟨Op.pre⟩
@[reducible] instance : HasOut Op.KeyRes := ⟨Op.KeyRes.pre⟩
@[reducible] instance {α β} [HasOut β] : HasOut (α × β) := ⟨fun p x => (x.1, HasOut.pre p x.2)⟩
@[reducible] instance {α} [HasOut α] : HasOut (Option α) := ⟨fun p x => x.map (HasOut.pre p)⟩

/-- `y` is `x` with `p` written before. -/
structure PR {α} [HasOut α] (p : List Tok) (x y : R α) : Prop where
  eq : y = x.map (HasOut.pre p)

namespace PR
variable {p : List Tok} {α β : Type} [HasOut β]

theorem pure {a : β} : PR p (.ok a) (.ok (HasOut.pre p a)) := ⟨rfl⟩
theorem rb {r : RB} : PR p (.ok r) (.ok (r.pre p)) := ⟨rfl⟩
theorem op {o : Op} : PR p (.ok o) (.ok (o.pre p)) := ⟨rfl⟩
theorem key {k : Op.KeyRes} : PR p (.ok k) (.ok (k.pre p)) := ⟨rfl⟩
theorem pair {a : α} {b : β} : PR p (.ok (a, b)) (.ok (a, HasOut.pre p b)) := ⟨rfl⟩
theorem error {e : Fault} : PR p (.error e : R β) (.error e) := ⟨rfl⟩
theorem any {x : R α} {f g : α → R β} (hf : ∀ a, PR p (f a) (g a)) : PR p (x >>= f) (x >>= g) := by
  cases x with
  | ok a => exact hf a
  | error e => exact error
theorem bind [HasOut α] {x y : R α} {f g : α → R β} (hx : PR p x y) (hf : ∀ a, PR p (f a) (g (HasOut.pre p a))) : PR p (x >>= f) (y >>= g) := by
  obtain ⟨hx⟩ := hx
  subst hx
  cases x with
  | ok a => exact hf a
  | error e => exact error
theorem ite {c : Prop} [Decidable c] {x x' y y' : R β} (hx : PR p x x') (hy : PR p y y') : PR p (if c then x else y) (if c then x' else y') := by
  by_cases h : c
  · rw [if_pos h, if_pos h]; exact hx
  · rw [if_neg h, if_neg h]; exact hy
theorem map [HasOut α] {x y : R α} {f : α → β} (hx : PR p x y) (hf : ∀ a, f (HasOut.pre p a) = HasOut.pre p (f a)) : PR p (f <$> x) (f <$> y) := by
  obtain ⟨hx⟩ := hx
  subst hx
  cases x with
  | ok a => exact ⟨congrArg Except.ok (hf a)⟩
  | error e => exact error

/-- From a run with the output to the run without. -/
theorem inv {x y : R β} (h : PR p x y) {b : β} (hy : y = .ok b) : ∃ a, x = .ok a ∧ b = HasOut.pre p a := by
  obtain ⟨h⟩ := h
  subst h
  cases x with
  | ok a => cases hy; exact ⟨a, rfl, rfl⟩
  | error e => cases hy

end PR

namespace RB
variable {p : List Tok} {U : UTables} {d : DCfg}

theorem write_pre {r : RB} {ts : List Tok} : (r.pre p).write ts = (r.write ts).pre p := by
  simp [write, pre, List.append_assoc]

theorem clean_pre {r : RB} : PR p (r.clean U) ((r.pre p).clean U) := by
  unfold clean
  refine .any fun l => .ite .rb (.any fun o => ?_)
  exact ⟨congrArg Except.ok (write_pre (r := { r with hadClean := true }))⟩

theorem print_pre {r : RB} : PR p (r.print U d) ((r.pre p).print U d) := by
  unfold print
  refine .any fun o => ?_
  rw [write_pre]
  exact .rb

theorem refresh_pre {r : RB} {f : Ed → R Ed} : PR p (r.refresh U d f) ((r.pre p).refresh U d f) := by
  unfold refresh
  refine .ite (.any fun e => .rb) (.bind clean_pre fun r => .any fun e => ?_)
  exact print_pre (r := { r with toEd := e })

theorem refreshV_pre {α} {r : RB} {f : Ed → R (α × Ed)} : PR p (r.refreshV U d f) ((r.pre p).refreshV U d f) := by
  unfold refreshV
  refine .ite (.any fun e => .pair) (.bind clean_pre fun r => .any fun e => .bind (print_pre (r := { r with toEd := e.2 })) fun r => .pair)

theorem refreshNil_pre {r : RB} : PR p (r.refreshNil U d) ((r.pre p).refreshNil U d) := refresh_pre

theorem deleteWord_pre {r : RB} : PR p (r.deleteWord U d) ((r.pre p).deleteWord U d) := by
  unfold deleteWord
  refine .ite .rb ?_
  dsimp only
  split
  · exact .any fun k => refresh_pre (r := { r with toEd := r.toEd.pushKill k })
  · exact refresh_pre

theorem setStyle_pre {r : RB} {a b : Nat} {s : List Rune} : PR p (r.setStyle U a b s) ((r.pre p).setStyle U a b s) := by
  unfold setStyle
  refine .ite .error ?_
  dsimp only
  have fin : ∀ ts, PR p (.ok (r.write ts)) (.ok ((r.pre p).write ts)) := fun ts => by rw [write_pre]; exact .rb
  exact .ite (.any fun _ => .any fun _ => .any fun _ => fin _) (.any fun _ => .any fun _ => .any fun _ => fin _)

end RB

theorem Cmd.apply_pre {p : List Tok} {U : UTables} {d : DCfg} {r : RB} (k : Cmd) : PR p (k.apply U d r) (k.apply U d (r.pre p)) := by
  cases k with
  | delete => exact .map RB.refreshV_pre fun _ => rfl
  | moveTo => exact .map RB.refreshV_pre fun _ => rfl
  | deleteWord => exact RB.deleteWord_pre
  | backup => exact .rb
  | yank => exact .ite .rb RB.refresh_pre
  | _ => exact RB.refresh_pre

namespace Search
variable {p : List Tok} {U : UTables} {d : DCfg} {g : HCfg}

theorem underline_pre {s : Search} {r : RB} : PR p (s.underline U r) (s.underline U (r.pre p)) := .ite RB.setStyle_pre .rb

theorem searchRefresh_pre {s : Search} {r : RB} {x : Int} : PR p (s.searchRefresh U r x) (s.searchRefresh U (r.pre p) x) := by
  unfold searchRefresh
  refine .any fun _ => .any fun _ => .any fun _ => .bind underline_pre fun r => .any fun _ => .any fun _ => ?_
  exact ⟨congrArg Except.ok (congrArg (Prod.mk _) RB.write_pre)⟩

theorem search_pre {b : Bool} {s : Search} {h : Hist} {r : RB} : PR p (s.search U d g b h r) (s.search U d g b h (r.pre p)) := by
  unfold search
  refine .ite (.bind searchRefresh_pre fun _ => .pair) (.any fun x => ?_)
  cases x with
  | none => exact .bind searchRefresh_pre fun _ => .pair
  | some x => exact .bind RB.refresh_pre fun _ => .bind searchRefresh_pre fun _ => .pair

theorem searchBackspace_pre {s : Search} {h : Hist} {r : RB} : PR p (s.searchBackspace U d g h r) (s.searchBackspace U d g h (r.pre p)) :=
  .ite search_pre .pair

theorem searchChar_pre {s : Search} {h : Hist} {r : RB} {c : Rune} : PR p (searchChar U d g c s h r) (searchChar U d g c s h (r.pre p)) := search_pre

theorem searchMode_pre {s : Search} {h : Hist} {r : RB} {f : Bool} : PR p (searchMode U d g f s h r) (searchMode U d g f s h (r.pre p)) := by
  unfold searchMode
  exact .ite .pair (.ite (.bind search_pre fun _ => .pair) (.bind searchRefresh_pre fun _ => .pair))

theorem exitSearchMode_pre {s : Search} {h : Hist} {r : RB} {b : Bool} : PR p (exitSearchMode U d b s h r) (exitSearchMode U d b s h (r.pre p)) := by
  unfold exitSearchMode
  dsimp only
  refine .ite ?_ .pure
  cases s.source with
  | none => exact .error
  | some c => exact .bind RB.refresh_pre fun _ => .pure

end Search

namespace Comp
variable {p : List Tok} {U : UTables} {d : DCfg}

theorem completeRefresh_pre {c : Comp} {r : RB} : PR p (c.completeRefresh U r) (c.completeRefresh U (r.pre p)) := by
  unfold completeRefresh
  refine .ite .pair (.any fun _ => .any fun _ => .any fun _ => ?_)
  dsimp only
  have fin : ∀ (c : Comp) ts, PR p (.ok (c, r.write ts)) (.ok (c, (r.pre p).write ts)) := fun c ts => by rw [RB.write_pre]; exact .pair
  exact .ite (.any fun _ => .any fun _ => .any fun _ => .any fun _ => .any fun _ => fin _ _) (.any fun _ => .any fun _ => .any fun _ => .any fun _ => fin _ _)

theorem doSelect_pre {c : Comp} {r : RB} : PR p (c.doSelect U d r) (c.doSelect U d (r.pre p)) := by
  unfold doSelect
  split
  · exact .bind RB.refresh_pre fun _ => .pair
  · exact .any fun _ => completeRefresh_pre

theorem onComplete_pre {auto : Option Completer} {c : Comp} {r : RB} : PR p (onComplete U d auto c r) (onComplete U d auto c (r.pre p)) := by
  unfold onComplete
  refine .ite .pure (.ite (.bind doSelect_pre fun _ => .pair) (.ite (.bind completeRefresh_pre fun _ => .bind doSelect_pre fun _ => .pair) ?_))
  dsimp only
  cases auto with
  | none => exact .error
  | some f =>
    dsimp only
    split
    · exact .pure
    · refine .ite (.ite (.bind RB.refresh_pre fun _ => .pure) (.any fun _ => .ite (.bind RB.refresh_pre fun _ => .pure) (.bind completeRefresh_pre fun _ => .pure)))
        (.bind completeRefresh_pre fun _ => .pure)

theorem selectKey_pre {c : Comp} {r : RB} {k : Rune} : PR p (c.selectKey U d k r) (c.selectKey U d k (r.pre p)) := by
  unfold selectKey
  refine .ite (.any fun _ => .bind RB.refresh_pre fun _ => .pure) (.ite (.any fun _ => .any fun _ => .pure) (.ite (.any fun _ => .pure) (.ite .pure (.ite
    (.bind doSelect_pre fun _ => .pure) (.ite .pure (.ite (.any fun _ => .pure) (.ite (.any fun _ => .pure) (.ite ?_ .pure))))))))
  exact .ite (.any fun _ => .pure) .pure

theorem handleSelect_pre {c : Comp} {r : RB} {k : Rune} : PR p (c.handleSelect U d k r) (c.handleSelect U d k (r.pre p)) :=
  .bind selectKey_pre fun _ => .ite (.bind completeRefresh_pre fun _ => .pure) .pure

end Comp

namespace Op
variable {p : List Tok} {c : OCfg}

theorem readRune_pre {o : Op} : PR p o.readRune (o.pre p).readRune := by
  unfold readRune
  refine .ite .error ?_
  dsimp only
  split <;> exact .pure

theorem bell_pre {o : Op} : (o.pre p).bell = o.bell.pre p := by
  unfold bell
  rw [show (o.pre p).rb = o.rb.pre p from rfl, RB.write_pre]

theorem edit_pre {o : Op} {k : Cmd} : PR p (o.edit c k) ((o.pre p).edit c k) := .bind k.apply_pre fun _ => .op
theorem refreshNil_pre {o : Op} : PR p (o.refreshNil c) ((o.pre p).refreshNil c) := .bind RB.refresh_pre fun _ => .op
theorem clean_pre {o : Op} : PR p (o.clean c) ((o.pre p).clean c) := .bind RB.clean_pre fun _ => .op
theorem refresh_pre {o : Op} : PR p (o.refresh c) ((o.pre p).refresh c) := .ite refreshNil_pre .op
theorem exitSearch_pre {o : Op} {b : Bool} : PR p (o.exitSearch c b) ((o.pre p).exitSearch c b) := .bind Search.exitSearchMode_pre fun _ => .op
theorem enterSearch_pre {o : Op} {b : Bool} : PR p (o.enterSearch c b) ((o.pre p).enterSearch c b) := .bind Search.searchMode_pre fun _ => .pure
theorem searchChar_pre {o : Op} {r : Rune} : PR p (o.searchChar c r) ((o.pre p).searchChar c r) := .bind Search.searchChar_pre fun _ => .op
theorem searchBackspace_pre {o : Op} : PR p (o.searchBackspace c) ((o.pre p).searchBackspace c) := .bind Search.searchBackspace_pre fun _ => .op
theorem onComplete_pre {o : Op} : PR p (o.onComplete c) ((o.pre p).onComplete c) := .bind Comp.onComplete_pre fun _ => .pure
theorem completeRefresh_pre {o : Op} : PR p (o.completeRefresh c) ((o.pre p).completeRefresh c) := .bind Comp.completeRefresh_pre fun _ => .op

theorem vimMovement_pre {o : Op} {r : Rune} : PR p (o.vimMovement c r) ((o.pre p).vimMovement c r) := by
  have ed : ∀ (k : Cmd) (o : Op), PR p (do let o ← o.edit c k; .ok (some (0, o)) : R (Option (Rune × Op))) (do let o ← (o.pre p).edit c k; .ok (some (0, o))) :=
    fun k o => .bind edit_pre fun _ => .pure
  unfold vimMovement
  dsimp only
  refine .ite .pure (.ite .pure (.ite .pure (.ite .pure (.ite (ed _ _) (.ite (ed _ _) (.ite (.bind edit_pre fun _ => .ite (ed _ _) .pure)
    (.ite (.bind readRune_pre fun _ => ed _ _) (.ite (.bind readRune_pre fun _ => ?_) (.ite (ed _ _) (.ite (ed _ _) (.ite (ed _ _) (.ite (ed _ _)
    (.ite (.bind readRune_pre fun _ => .ite .pure (ed _ _)) .pure)))))))))))))
  exact .ite (ed _ _) (.ite (ed _ _) (.ite (ed _ _) (.ite (ed _ _) .pure)))

theorem vimEnterInsert_pre {o : Op} {r : Rune} : PR p (o.vimEnterInsert c r) ((o.pre p).vimEnterInsert c r) := by
  have ed : ∀ (k : Cmd) (o : Op), PR p (do let o ← o.edit c k; .ok (some (0, { o with vimNormal := false })) : R (Option (Rune × Op)))
      (do let o ← (o.pre p).edit c k; .ok (some (0, { o with vimNormal := false }))) :=
    fun k o => .bind edit_pre fun _ => .pure
  unfold vimEnterInsert
  dsimp only
  refine .ite .pure (.ite (ed _ _) (.ite (ed _ _) (.ite (ed _ _) (.ite (ed _ _) (.ite (ed _ _) (.ite (.bind readRune_pre fun _ => ?_) .pure))))))
  exact .ite (ed _ _) (.ite (ed _ _) (.ite (ed _ _) (.ite (ed _ _) .pure)))

theorem vimNormalKey_pre {o : Op} {r : Rune} : PR p (o.vimNormalKey c r) ((o.pre p).vimNormalKey c r) := by
  unfold vimNormalKey
  refine .ite .pure (.bind vimMovement_pre fun x => ?_)
  cases x with
  | some x => exact .pure
  | none =>
    refine .bind vimEnterInsert_pre fun x => ?_
    cases x with
    | some x => exact .pure
    | none => exact ⟨congrArg Except.ok (congrArg (Prod.mk _) bell_pre)⟩

theorem handleVim_pre {o : Op} {r : Rune} : PR p (o.handleVim c r) ((o.pre p).handleVim c r) := .ite vimNormalKey_pre (.ite .pure .pure)

/-- The bell as a result of the key switch. -/
theorem keyRes_bell {o : Op} : PR p (.ok { op := o.bell } : R KeyRes) (.ok { op := (o.pre p).bell }) := by
  rw [bell_pre]; exact .key

theorem keyBell_pre {o : Op} : PR p (o.keyBell c) ((o.pre p).keyBell c) := by
  unfold keyBell
  dsimp only
  have fin : ∀ o : Op, PR p (if o.comp.inComplete = true then (do let o ← refreshNil c { o with comp := o.comp.exitComplete }; .ok { op := o } : R KeyRes) else
      (do let o ← Except.ok o; .ok { op := o })) (if o.comp.inComplete = true then (do let o ← refreshNil c { o.pre p with comp := o.comp.exitComplete }; .ok { op := o }) else
      (do let o ← Except.ok (o.pre p); .ok { op := o })) :=
    fun o => .ite (.bind (refreshNil_pre (o := { o with comp := o.comp.exitComplete })) fun _ => .key) .key
  exact .ite (.bind exitSearch_pre fun _ => .bind refreshNil_pre fun _ => fin _) (fin _)

theorem keyTab_pre {o : Op} : PR p (o.keyTab c) ((o.pre p).keyTab c) := by
  unfold keyTab
  split
  · exact keyRes_bell
  · exact .bind onComplete_pre fun _ => .ite .key keyRes_bell

theorem keySearch_pre {o : Op} {b : Bool} : PR p (o.keySearch c b) ((o.pre p).keySearch c b) :=
  .bind enterSearch_pre fun _ => .ite .key keyRes_bell

theorem keyBackspace_pre {o : Op} : PR p (o.keyBackspace c) ((o.pre p).keyBackspace c) :=
  .ite (.bind searchBackspace_pre fun _ => .key) (.ite keyRes_bell (.bind edit_pre fun _ => .ite (.bind onComplete_pre fun _ => .key) .key))

theorem keyEnter_pre {o : Op} : PR p (o.keyEnter c) ((o.pre p).keyEnter c) := by
  unfold keyEnter
  dsimp only
  refine .ite (.bind exitSearch_pre fun _ => ?_) (.bind (x := .ok o) .op fun _ => ?_)
  all_goals
    refine .bind edit_pre fun _ => ?_
    refine .ite (.bind edit_pre fun _ => .ite .error ?_) (.bind clean_pre fun _ => ?_)
    all_goals exact .ite (.any fun _ => .key) .key

theorem keyPrev_pre {o : Op} : PR p (o.keyPrev c) ((o.pre p).keyPrev c) := by
  unfold keyPrev
  dsimp only
  split
  · next h _ => exact .bind (edit_pre (o := { o with hist := h })) fun _ => .key
  · next h _ => exact keyRes_bell (o := { o with hist := h })

theorem keyNext_pre {o : Op} : PR p (o.keyNext c) ((o.pre p).keyNext c) := by
  unfold keyNext
  dsimp only
  split
  · next h _ => exact .bind (edit_pre (o := { o with hist := h })) fun _ => .key
  · next h _ => exact keyRes_bell (o := { o with hist := h })

theorem keyDelete_pre {o : Op} : PR p (o.keyDelete c) ((o.pre p).keyDelete c) := by
  unfold keyDelete
  refine .ite ?_ ?_
  · refine .bind (α := Bool × RB) RB.refreshV_pre fun x => ?_
    exact .ite .key (keyRes_bell (o := { o.kickRead with rb := x.2 }))
  · dsimp only
    have fin : ∀ o : Op, PR p (if c.unique = true then (do let o ← clean c o; .ok { op := o, update := false } : R KeyRes) else
        (do let o ← Except.ok o; .ok { op := o, update := false })) (if c.unique = true then (do let o ← clean c (o.pre p); .ok { op := o, update := false }) else
        (do let o ← Except.ok (o.pre p); .ok { op := o, update := false })) :=
      fun o => .ite (.bind clean_pre fun _ => .key) .key
    refine .ite (.bind edit_pre fun o => ?_) (.bind (x := .ok o) .op fun o => ?_)
    all_goals exact fin { o with rb := { o.rb with buf := [], idx := 0 }, hist := o.hist.revert, events := o.events ++ [.eof] }

theorem keyInterrupt_pre {o : Op} : PR p (o.keyInterrupt c) ((o.pre p).keyInterrupt c) := by
  unfold keyInterrupt
  refine .ite (.bind (exitSearch_pre (o := o.kickRead)) fun _ => .key) (.ite (.bind (refreshNil_pre (o := { o.kickRead with comp := o.comp.exitComplete })) fun _ => .key) ?_)
  dsimp only
  refine .bind edit_pre fun _ => .bind refreshNil_pre fun o => ?_
  refine .ite (.bind edit_pre fun o => ?_) (.bind (x := .ok o) .op fun o => ?_)
  all_goals exact .ite (.any fun _ => .key) .key

theorem keyText_pre {o : Op} {r : Rune} : PR p (o.keyText c r) ((o.pre p).keyText c r) :=
  .ite (.bind searchChar_pre fun _ => .key) (.bind edit_pre fun _ => .ite (.bind onComplete_pre fun _ => .key) .key)

theorem key_pre {o : Op} {r : Rune} : PR p (o.key c r) ((o.pre p).key c r) := by
  unfold key
  split
  · exact .bind edit_pre fun _ => .key
  · refine .ite keyBell_pre (.ite keyTab_pre (.ite keySearch_pre (.ite keySearch_pre (.ite keyBackspace_pre (.ite (.bind clean_pre fun _ => .bind refresh_pre fun _ => .key)
      (.ite ?_ (.ite keyEnter_pre (.ite keyPrev_pre (.ite keyNext_pre (.ite keyDelete_pre (.ite keyInterrupt_pre keyText_pre)))))))))))
    refine .bind (α := Op) ?_ fun _ => .key
    rw [RB.write_pre]
    exact refresh_pre (o := { o with rb := o.rb.write [.home] })

theorem listen_pre {k : KeyRes} {r : Rune} : PR p (listen c r k) (listen c r (k.pre p)) := by
  unfold listen
  split
  · exact .key
  · dsimp only
    split
    · exact .key
    · exact .bind RB.refresh_pre fun _ => .key

theorem settle_pre {k : KeyRes} : PR p (settle c k) (settle c (k.pre p)) :=
  .ite (.bind exitSearch_pre fun _ => refreshNil_pre) (.ite (.ite (refresh_pre (o := { k.op with comp := k.op.comp.exitComplete }))
    (.bind refreshNil_pre fun _ => completeRefresh_pre)) .op)

theorem finish_pre {k : KeyRes} : PR p (finish c k) (finish c (k.pre p)) := .bind settle_pre fun _ => .ite .op .op

theorem dispatch_pre {o : Op} {r : Rune} : PR p (o.dispatch c r) ((o.pre p).dispatch c r) := .bind key_pre fun _ => .bind listen_pre fun _ => finish_pre

theorem viaVim_pre {o : Op} {r : Rune} : PR p (o.viaVim c r) ((o.pre p).viaVim c r) :=
  .ite (.bind handleVim_pre fun _ => .ite .op dispatch_pre) dispatch_pre

theorem viaMenu_pre {o : Op} {r : Rune} : PR p (o.viaMenu c r) ((o.pre p).viaMenu c r) := by
  unfold viaMenu
  refine .ite (.bind Comp.handleSelect_pre fun x => .ite .op (.bind (refreshNil_pre (o := { o with comp := x.2.1, rb := x.2.2 })) fun _ =>
    .ite .op (.ite .op (.ite .op viaVim_pre)))) viaVim_pre

theorem handle_pre {o : Op} {r : Rune} : PR p (o.handle c r) ((o.pre p).handle c r) :=
  .ite (.ite (.bind clean_pre fun _ => .op) viaMenu_pre) viaMenu_pre

theorem accept_pre {o : Op} {r : Rune} : PR p (o.accept c r) ((o.pre p).accept c r) := by
  unfold accept
  split
  · exact handle_pre
  · split
    · exact refreshNil_pre (o := o.kickRead)
    · exact handle_pre

/-- One iteration of the loop. -/
theorem iter_pre {o : Op} : PR p (o.iter c) ((o.pre p).iter c) := .bind readRune_pre fun _ => accept_pre

theorem await_pre : ∀ (n : Nat) {o : Op}, PR p (o.await c n) ((o.pre p).await c n) := by
  intro n
  induction n with
  | zero =>
    intro o
    unfold await
    dsimp only
    split
    · exact .pure
    · exact .error
  | succ n ih =>
    intro o
    unfold await
    dsimp only
    split
    · exact .pure
    · exact .ite .error (.bind iter_pre fun _ => ih)

/-- A call of `Readline`. -/
theorem readline_pre {fuel : Nat} {o : Op} : PR p (o.readline c fuel) ((o.pre p).readline c fuel) := by
  unfold readline
  exact .bind refreshNil_pre fun o => await_pre fuel (o := o.kickRead)

end Op
end RL
