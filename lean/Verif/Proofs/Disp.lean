import Verif.Proofs.Keys
/-! No key changes the prompt, the width of the window or whether the terminal is interactive (C79). -/

namespace RL
open Spec RB Ed

variable {U : UTables} {d : DCfg}

theorem RB.writeRunes_disp {r r' : RB} {s : List Rune} (h : r.writeRunes U d s = .ok r') : SameDisp r r' := (refresh_ok h).2

theorem Comp.doSelect_disp {c c' : Comp} {r r' : RB} (h : c.doSelect U d r = .ok (c', r')) : SameDisp r r' := by
  unfold Comp.doSelect at h
  split at h
  · obtain ⟨r1, e1, h⟩ := R.bind_inv h
    cases h; exact RB.writeRunes_disp e1
  · obtain ⟨c1, _, h⟩ := R.bind_inv h
    exact (Comp.completeRefresh_ok h).2.1

theorem Comp.onComplete_disp {auto : Option Completer} {c c' : Comp} {r r' : RB} {b : Bool}
    (h : Comp.onComplete U d auto c r = .ok (b, c', r')) : SameDisp r r' := by
  unfold Comp.onComplete at h
  split at h
  · cases h; exact .refl _
  · split at h
    · obtain ⟨⟨c1, r1⟩, e1, h⟩ := R.bind_inv h
      cases h; exact Comp.doSelect_disp e1
    · split at h
      · obtain ⟨⟨c1, r1⟩, e1, h⟩ := R.bind_inv h
        obtain ⟨⟨c2, r2⟩, e2, h⟩ := R.bind_inv h
        cases h; exact (Comp.completeRefresh_ok e1).2.1.trans (Comp.doSelect_disp e2)
      · dsimp only at h
        split at h
        · cases h
        · split at h
          · cases h; exact .refl _
          · split at h
            · split at h
              · obtain ⟨r1, e1, h⟩ := R.bind_inv h
                cases h; exact RB.writeRunes_disp e1
              · obtain ⟨⟨same, size, cands⟩, _, h⟩ := R.bind_inv h
                dsimp only at h
                split at h
                · obtain ⟨r1, e1, h⟩ := R.bind_inv h
                  cases h; exact RB.writeRunes_disp e1
                · obtain ⟨⟨c1, r1⟩, e1, h⟩ := R.bind_inv h
                  cases h; exact (Comp.completeRefresh_ok e1).2.1
            · obtain ⟨⟨c1, r1⟩, e1, h⟩ := R.bind_inv h
              cases h; exact (Comp.completeRefresh_ok e1).2.1

/-- Whenever `x` returns, its result satisfies `Q`. -/
def Oks {α} (Q : α → Prop) (x : R α) : Prop := ∀ a, x = .ok a → Q a

theorem Oks.ok {α} {Q : α → Prop} {a : α} (h : Q a) : Oks Q (.ok a) := fun _ e => by cases e; exact h
theorem Oks.error {α} {Q : α → Prop} {x : Fault} : Oks Q (.error x : R α) := fun _ e => by cases e
theorem Oks.ite {α} {Q : α → Prop} {p : Prop} [Decidable p] {x y : R α} (h : Oks Q x) (h' : Oks Q y) : Oks Q (if p then x else y) := by
  by_cases hp : p
  · rw [if_pos hp]; exact h
  · rw [if_neg hp]; exact h'
theorem Oks.bind {α β} {P : α → Prop} {Q : β → Prop} {x : R α} {f : α → R β} (h : Oks P x) (h' : ∀ a, P a → Oks Q (f a)) : Oks Q (x >>= f) := by
  intro b e
  obtain ⟨a, e1, e2⟩ := R.bind_inv e
  exact h' a (h a e1) b e2
theorem Oks.any {α} {x : R α} : Oks (fun _ => True) x := fun _ _ => trivial

theorem Comp.selectKey_disp {k : Rune} {c : Comp} {r : RB} : Oks (fun x => SameDisp r x.2.2) (c.selectKey U d k r) := by
  unfold Comp.selectKey
  refine .ite (.bind .any fun x _ => .bind (fun _ e => RB.writeRunes_disp e) fun r1 e1 => .ok e1) ?_
  refine .ite (.bind .any fun x _ => .bind .any fun _ _ => .ok (.refl _)) ?_
  refine .ite (.bind .any fun x _ => .ok (.refl _)) ?_
  refine .ite (.ok (.refl _)) ?_
  refine .ite (.bind (P := fun x => SameDisp r x.2) (fun x e => Comp.doSelect_disp (c' := x.1) e) fun x e => .ok e) ?_
  refine .ite (.ok (.refl _)) ?_
  refine .ite (.bind .any fun x _ => .ok (.refl _)) ?_
  refine .ite (.bind .any fun x _ => .ok (.refl _)) ?_
  exact .ite (.ite (.bind .any fun x _ => .ok (.refl _)) (.ok (.refl _))) (.ok (.refl _))

theorem Comp.handleSelect_disp {k : Rune} {c : Comp} {r : RB} : Oks (fun x => SameDisp r x.2.2) (c.handleSelect U d k r) := by
  unfold Comp.handleSelect
  refine .bind Comp.selectKey_disp fun x h1 => .ite ?_ (.ok h1)
  exact .bind (P := fun y => SameDisp x.2.2 y.2) (fun y e => (Comp.completeRefresh_ok (c' := y.1) e).2.1) fun y e => .ok (h1.trans e)

theorem Search.exitSearchMode_disp {b : Bool} {s : Search} {h : Hist} {r : RB} :
    Oks (fun x => SameDisp r x.2.2) (Search.exitSearchMode U d b s h r) := by
  unfold Search.exitSearchMode
  refine .ite ?_ (.bind (P := fun x => SameDisp r x.2) (.ok (.refl _)) fun x e => .ok e)
  split
  · exact .bind (P := fun x => SameDisp r x.2) .error fun x e => .ok e
  · exact .bind (P := fun x => SameDisp r x) (fun _ e => (refresh_ok e).2) fun x e => .bind (P := fun x => SameDisp r x.2) (.ok e) fun x e => .ok e

theorem Search.searchMode_disp {cfg : HCfg} {fwd : Bool} {s : Search} {h : Hist} {r : RB} :
    Oks (fun x => SameDisp r x.2.2.2) (Search.searchMode U d cfg fwd s h r) := by
  unfold Search.searchMode
  refine .ite (.ok (.refl _)) (.ite ?_ ?_)
  · exact .bind (P := fun x => SameDisp r x.2.2) (fun x e => (Search.search_ok (s' := x.1) (h' := x.2.1) e).2.2.2.2.1) fun x e => .ok e
  · exact .bind (P := fun x => SameDisp r x.2) (fun x e => (Search.searchRefresh_ok (s' := x.1) e).2.2) fun x e => .ok e

namespace Op
variable {c : OCfg}

/-- The same prompt, width and kind of terminal. -/
abbrev Same (o o' : Op) : Prop := SameDisp o.rb o'.rb

theorem edit_same {o : Op} {k : Cmd} : Oks (Same o) (o.edit c k) := by
  intro o' h; obtain ⟨r, rfl, _, e⟩ := edit_ok h; exact e

theorem refreshNil_same {o : Op} : Oks (Same o) (o.refreshNil c) := by
  intro o' h; obtain ⟨r, rfl, _, e⟩ := refreshNil_ok h; exact e

theorem clean_same {o : Op} : Oks (Same o) (o.clean c) := by
  intro o' h; obtain ⟨r, rfl, _, e⟩ := clean_ok' h; exact e

theorem refresh_same {o : Op} : Oks (Same o) (o.refresh c) := by
  intro o' h; obtain ⟨r, rfl, _, e⟩ := refresh_ok' h; exact e

theorem bell_same (o : Op) : Same o o.bell := (write_same _ _).2

theorem exitSearch_same {o : Op} {b : Bool} : Oks (Same o) (o.exitSearch c b) :=
  .bind Search.exitSearchMode_disp fun _ e => .ok e

theorem enterSearch_same {o : Op} {f : Bool} : Oks (fun x => Same o x.2) (o.enterSearch c f) :=
  .bind Search.searchMode_disp fun _ e => .ok e

theorem searchChar_same {o : Op} {r : Rune} : Oks (Same o) (o.searchChar c r) :=
  .bind (P := fun x => SameDisp o.rb x.2.2) (fun x e => (Search.search_ok (s' := x.1) (h' := x.2.1) e).2.2.2.2.1) fun _ e => .ok e

theorem searchBackspace_same {o : Op} : Oks (Same o) (o.searchBackspace c) :=
  .bind (P := fun x => SameDisp o.rb x.2.2)
    (.ite (fun x e => (Search.search_ok (s' := x.1) (h' := x.2.1) e).2.2.2.2.1) (.ok (.refl _))) fun _ e => .ok e

theorem onComplete_same {o : Op} : Oks (fun x => Same o x.2) (o.onComplete c) :=
  .bind (P := fun x => SameDisp o.rb x.2.2) (fun x e => Comp.onComplete_disp (b := x.1) (c' := x.2.1) e) fun _ e => .ok e

abbrev SameK (o : Op) (k : KeyRes) : Prop := Same o k.op

theorem keyBell_same {o : Op} : Oks (SameK o) (o.keyBell c) := by
  have h2 : ∀ o1 : Op, Same o o1 → Oks (SameK o) (if o1.comp.inComplete = true then do
      let o2 ← refreshNil c { o1 with comp := o1.comp.exitComplete }
      .ok { op := o2 } else do let o2 ← (.ok o1 : R Op); .ok { op := o2 }) := fun o1 h1 =>
    .ite (.bind (P := Same o) (fun o2 e => h1.trans (refreshNil_same (o := { o1 with comp := o1.comp.exitComplete }) o2 e)) fun _ e => .ok e)
      (.bind (P := Same o) (.ok h1) fun _ e => .ok e)
  unfold keyBell
  refine .ite (.bind (exitSearch_same (b := true)) fun o1 h1 => .bind refreshNil_same fun o2 h3 => h2 o2 (h1.trans h3)) (.bind (P := Same o) (.ok (.refl _)) h2)

theorem keyEnter_same {o : Op} : Oks (SameK o) (o.keyEnter c) := by
  have h3 : ∀ (x : List Rune × Op), Same o x.2 →
      Oks (SameK o) (if c.noSave = false then do
        let h ← ({ x.2 with events := x.2.events ++ [Event.line x.1] } : Op).hist.new c.h x.1
        .ok { op := { ({ x.2 with events := x.2.events ++ [Event.line x.1] } : Op) with hist := h } }
      else .ok { op := { x.2 with events := x.2.events ++ [Event.line x.1] }, update := false } : R KeyRes) := fun x h =>
    .ite (.bind .any fun _ _ => .ok h) (.ok h)
  have h2 : ∀ o1 : Op, Same o o1 → Oks (SameK o) (do
      let o2 ← o1.edit c .toEnd
      if c.unique = false then do
          let o3 ← o2.edit c (.insert [10])
          if o3.rb.reset.1.length = 0 then do
              let x ← (.error .panic : R (List Rune × Op))
              if c.noSave = false then do
                let h ← ({ x.2 with events := x.2.events ++ [Event.line x.1] } : Op).hist.new c.h x.1
                .ok { op := { ({ x.2 with events := x.2.events ++ [Event.line x.1] } : Op) with hist := h } }
              else .ok { op := { x.2 with events := x.2.events ++ [Event.line x.1] }, update := false }
            else do
              let x ← (.ok (o3.rb.reset.1.take (o3.rb.reset.1.length - 1), { o3 with rb := o3.rb.reset.2 }) : R (List Rune × Op))
              if c.noSave = false then do
                let h ← ({ x.2 with events := x.2.events ++ [Event.line x.1] } : Op).hist.new c.h x.1
                .ok { op := { ({ x.2 with events := x.2.events ++ [Event.line x.1] } : Op) with hist := h } }
              else .ok { op := { x.2 with events := x.2.events ++ [Event.line x.1] }, update := false }
        else do
          let o3 ← o2.clean c
          let x ← (.ok (o3.rb.reset.1, { o3 with rb := o3.rb.reset.2 }) : R (List Rune × Op))
          if c.noSave = false then do
            let h ← ({ x.2 with events := x.2.events ++ [Event.line x.1] } : Op).hist.new c.h x.1
            .ok { op := { ({ x.2 with events := x.2.events ++ [Event.line x.1] } : Op) with hist := h } }
          else .ok { op := { x.2 with events := x.2.events ++ [Event.line x.1] }, update := false }) := fun o1 h1 =>
    .bind edit_same fun o2 h4 => .ite
      (.bind edit_same fun o3 h5 => .ite (.bind (P := fun x => Same o x.2) .error h3)
        (.bind (P := fun x => Same o x.2) (.ok (h1.trans (h4.trans (h5.trans ⟨rfl, rfl, rfl⟩)))) h3))
      (.bind clean_same fun o3 h5 => .bind (P := fun x => Same o x.2) (.ok (h1.trans (h4.trans (h5.trans ⟨rfl, rfl, rfl⟩)))) h3)
  unfold keyEnter
  refine .ite (.bind exitSearch_same h2) (.bind (P := Same o) (.ok (.refl _)) h2)

theorem keyDelete_same {o : Op} : Oks (SameK o) (o.keyDelete c) := by
  unfold keyDelete
  refine .ite ?_ ?_
  · refine .bind (P := fun (x : Bool × RB) => SameDisp o.rb x.2) (fun x e => (refreshV_ok (a := x.1) e).2) fun x e => .ite (.ok e) (.ok (e.trans (write_same _ _).2))
  · have h2 : ∀ o1 : Op, Same o o1 → Oks (SameK o) (if c.unique = true then do
        let o2 ← clean c { o1 with rb := o1.rb.reset.2, hist := o1.hist.revert, events := o1.events ++ [.eof] }
        .ok { op := o2, update := false }
      else do
        let o2 ← (.ok { o1 with rb := o1.rb.reset.2, hist := o1.hist.revert, events := o1.events ++ [.eof] } : R Op)
        .ok { op := o2, update := false }) := fun o1 h1 =>
      .ite (.bind clean_same fun o2 h3 => .ok (h1.trans (SameDisp.trans (b := o1.rb.reset.2) ⟨rfl, rfl, rfl⟩ h3)))
        (.bind (P := Same o) (.ok (h1.trans ⟨rfl, rfl, rfl⟩)) fun o2 h3 => .ok h3)
    refine .ite (.bind edit_same h2) (.bind (P := Same o) (.ok (.refl _)) h2)

theorem keyInterrupt_same {o : Op} : Oks (SameK o) (o.keyInterrupt c) := by
  unfold keyInterrupt
  refine .ite (.bind (exitSearch_same (o := o.kickRead)) fun o1 e => .ok e) (.ite (.bind (refreshNil_same (o := { o.kickRead with comp := o.comp.exitComplete })) fun o1 e => .ok e) ?_)
  refine .bind edit_same fun o1 h1 => .bind refreshNil_same fun o2 h2 => ?_
  have h12 := SameDisp.trans h1 h2
  refine .ite (.bind edit_same fun o3 h3 => ?_) (.bind (P := Same o) (.ok h12) fun o3 h3 => ?_)
  · have h13 := SameDisp.trans h12 h3
    refine .ite (.bind .any fun x _ => .ok (h13.trans (⟨rfl, rfl, rfl⟩ : SameDisp o3.rb o3.rb.reset.2)))
      (.bind .any fun x _ => .ok (h13.trans (⟨rfl, rfl, rfl⟩ : SameDisp o3.rb o3.rb.reset.2)))
  · refine .ite (.bind .any fun x _ => .ok (h3.trans (⟨rfl, rfl, rfl⟩ : SameDisp o3.rb o3.rb.reset.2)))
      (.bind .any fun x _ => .ok (h3.trans (⟨rfl, rfl, rfl⟩ : SameDisp o3.rb o3.rb.reset.2)))

theorem keySearch_same {o : Op} {f : Bool} : Oks (SameK o) (o.keySearch c f) := by
  unfold keySearch
  exact .bind enterSearch_same fun x e => .ite (.ok e) (.ok (e.trans (bell_same _)))

theorem keyTab_same {o : Op} : Oks (SameK o) (o.keyTab c) := by
  unfold keyTab
  split
  · exact .ok (bell_same o)
  · exact .bind onComplete_same fun x e => .ite (.ok e) (.ok (e.trans (bell_same _)))

theorem keyBackspace_same {o : Op} : Oks (SameK o) (o.keyBackspace c) := by
  unfold keyBackspace
  refine .ite (.bind searchBackspace_same fun _ e => .ok e) (.ite (.ok (bell_same o)) (.bind edit_same fun o1 h1 => .ite ?_ (.ok h1)))
  exact .bind onComplete_same fun x e => .ok (SameDisp.trans h1 e)

theorem keyText_same {o : Op} {r : Rune} : Oks (SameK o) (o.keyText c r) := by
  unfold keyText
  refine .ite (.bind searchChar_same fun _ e => .ok e) (.bind edit_same fun o1 h1 => .ite ?_ (.ok h1))
  exact .bind onComplete_same fun x e => .ok (SameDisp.trans h1 e)

theorem keyPrev_same {o : Op} : Oks (SameK o) (o.keyPrev c) := by
  unfold keyPrev
  split
  · next h _ => exact .bind (edit_same (o := { o with hist := h })) fun o1 e => .ok e
  · exact .ok (write_same _ _).2

theorem keyNext_same {o : Op} : Oks (SameK o) (o.keyNext c) := by
  unfold keyNext
  split
  · next h _ => exact .bind (edit_same (o := { o with hist := h })) fun o1 e => .ok e
  · exact .ok (write_same _ _).2

/-- The key switch. -/
theorem key_same {o : Op} {r : Rune} : Oks (SameK o) (o.key c r) := by
  unfold key
  split
  · exact .bind edit_same fun o1 e => .ok e
  · refine .ite keyBell_same (.ite keyTab_same (.ite keySearch_same (.ite keySearch_same (.ite keyBackspace_same (.ite ?_ (.ite ?_
      (.ite keyEnter_same (.ite keyPrev_same (.ite keyNext_same (.ite keyDelete_same (.ite keyInterrupt_same keyText_same)))))))))))
    · exact .bind clean_same fun o1 h1 => .bind refresh_same fun o2 h2 => .ok (SameDisp.trans h1 h2)
    · exact .bind (refresh_same (o := { o with rb := o.rb.write [.home] })) fun o1 e => .ok (SameDisp.trans (write_same _ _).2 e)

theorem listen_same {r : Rune} {k : KeyRes} : Oks (SameK k.op) (listen c r k) := by
  unfold listen
  split
  · exact .ok (.refl _)
  · split
    · exact .ok (.refl _)
    · exact .bind (P := fun x => SameDisp k.op.rb x) (fun _ e => (refresh_ok e).2) fun x e => .ok e

theorem dispatch_same {o : Op} {r : Rune} : Oks (Same o) (o.dispatch c r) := by
  refine .bind key_same fun k e1 => .bind listen_same fun k2 e2 => fun o' h => ?_
  exact e1.trans (SameDisp.trans e2 (finish_ok h).disp)

theorem readRune_same {o : Op} : Oks (fun x => Same o x.2) o.readRune := by
  unfold readRune
  refine .ite .error ?_
  dsimp only
  split <;> exact .ok (.refl _)

/-- The result of a vim command. -/
abbrev SameV (o : Op) (x : Option (Rune × Op)) : Prop := ∀ y, x = some y → Same o y.2

theorem SameV.mk {o : Op} {y : Rune × Op} (h : Same o y.2) : SameV o (some y) := fun _ e => by cases e; exact h

theorem vimMovement_same {o : Op} {r : Rune} : Oks (SameV o) (vimMovement c r o) := by
  have hed : ∀ {k : Cmd} {o1 : Op}, Same o o1 → Oks (SameV o) (do let o ← o1.edit c k; .ok (some ((0 : Rune), o)) : R (Option (Rune × Op))) :=
    fun h => .bind edit_same fun o2 e => .ok (.mk (SameDisp.trans h e))
  have h0 : Same o o := .refl _
  unfold vimMovement
  refine .ite (.ok (.mk h0)) (.ite (.ok (.mk h0)) (.ite (.ok (.mk h0)) (.ite (.ok (.mk h0)) (.ite (hed h0) (.ite (hed h0) (.ite ?_ (.ite ?_ (.ite ?_
    (.ite (hed h0) (.ite (hed h0) (.ite (hed h0) (.ite (hed h0) (.ite ?_ (.ok fun _ e => by cases e))))))))))))))
  · exact .bind edit_same fun o1 e => .ite (hed e) (.ok (.mk e))
  · exact .bind readRune_same fun x e => hed e
  · exact .bind readRune_same fun x e => .ite (hed e) (.ite (hed e) (.ite (hed e) (.ite (hed e) (.ok (.mk e)))))
  · exact .bind readRune_same fun x e => .ite (.ok (.mk e)) (hed e)

theorem vimEnterInsert_same {o : Op} {r : Rune} : Oks (SameV o) (vimEnterInsert c r o) := by
  have hed : ∀ {k : Cmd} {o1 : Op}, Same o o1 →
      Oks (SameV o) (do let o ← o1.edit c k; .ok (some ((0 : Rune), { o with vimNormal := false })) : R (Option (Rune × Op))) :=
    fun h => .bind edit_same fun o2 e => .ok (.mk (SameDisp.trans h e))
  have h0 : Same o o := .refl _
  unfold vimEnterInsert
  refine .ite (.ok (.mk h0)) (.ite (hed h0) (.ite (hed h0) (.ite (hed h0) (.ite (hed h0) (.ite (hed h0) (.ite ?_ (.ok fun _ e => by cases e)))))))
  exact .bind readRune_same fun x e => .ite (hed e) (.ite (hed e) (.ite (hed e) (.ite (hed e) (.ok (.mk e)))))

theorem handleVim_same {o : Op} {r : Rune} : Oks (fun x => Same o x.2) (o.handleVim c r) := by
  unfold handleVim
  refine .ite ?_ (.ite (.ok (.refl _)) (.ok (.refl _)))
  unfold vimNormalKey
  refine .ite (.ok (.refl _)) (.bind vimMovement_same fun x e => ?_)
  cases x with
  | some y => exact .ok (e y rfl)
  | none =>
    refine .bind vimEnterInsert_same fun x e => ?_
    cases x with
    | some y => exact .ok (e y rfl)
    | none => exact .ok (bell_same o)

theorem viaVim_same {o : Op} {r : Rune} : Oks (Same o) (o.viaVim c r) := by
  unfold viaVim
  refine .ite (.bind handleVim_same fun x e => .ite (.ok e) fun o' h => ?_) dispatch_same
  exact SameDisp.trans e (dispatch_same o' h)

theorem viaMenu_same {o : Op} {r : Rune} : Oks (Same o) (o.viaMenu c r) := by
  unfold viaMenu
  refine .ite (.bind Comp.handleSelect_disp fun x e => .ite (.ok e) ?_) viaVim_same
  refine .bind (refreshNil_same (o := { o with comp := x.2.1, rb := x.2.2 })) fun o1 h1 => ?_
  have h2 : Same o o1 := SameDisp.trans e h1
  exact .ite (.ok h2) (.ite (.ok h2) (.ite (.ok h2) fun o' h => SameDisp.trans h2 (viaVim_same o' h)))

/-- No key changes the prompt, the width or the kind of terminal. -/
theorem iter_same {o : Op} : Oks (Same o) (o.iter c) := by
  refine .bind readRune_same fun x h1 => ?_
  have hh : ∀ r, Oks (Same o) (x.2.handle c r) := fun r => by
    unfold handle
    exact .ite (.ite (.bind clean_same fun o2 e => .ok (SameDisp.trans h1 e)) fun o' h => SameDisp.trans h1 (viaMenu_same o' h))
      fun o' h => SameDisp.trans h1 (viaMenu_same o' h)
  show Oks _ (x.2.accept c x.1)
  unfold accept
  split
  · exact hh _
  · split
    · exact fun o' h => SameDisp.trans h1 (refreshNil_same (o := x.2.kickRead) o' h)
    · exact hh _

end Op
end RL
