import Verif.Props.Browse
import Verif.Model.Operation
/-! The editing loop leaves the file handle of the history alone. -/

namespace RL

/-- Every result satisfies `P`. -/
def RPost {α : Type} (x : R α) (P : α → Prop) : Prop := ∀ v, x = .ok v → P v

theorem RPost.ok {α : Type} {P : α → Prop} {v : α} (h : P v) : RPost (.ok v) P := by
  intro w e
  cases e
  exact h

theorem RPost.err {α : Type} {P : α → Prop} {f : Fault} : RPost (.error f) P := by
  intro w e
  cases e

theorem RPost.bind {α β : Type} {x : R α} {g : α → R β} {Q : α → Prop} {P : β → Prop} (h : RPost x Q) (k : ∀ v, Q v → RPost (g v) P) :
    RPost (x >>= g) P := by
  intro w e
  obtain ⟨v, e1, e2⟩ := R.bind_inv e
  exact k v (h v e1) w e2

theorem RPost.ite {α : Type} {P : α → Prop} {q : Prop} [Decidable q] {x y : R α} (hx : RPost x P) (hy : RPost y P) :
    RPost (if q then x else y) P := by
  split
  · exact hx
  · exact hy

theorem RPost.any {α : Type} (x : R α) : RPost x fun _ => True := fun _ _ => trivial

namespace Op

/-- The file handle is `f`. -/
def Fdl (f : Fd) (o : Op) : Prop := o.hist.fd = f

variable {c : OCfg} {f : Fd}

theorem fd_edit {k : Cmd} {o : Op} (h : Fdl f o) : RPost (o.edit c k) (Fdl f) := RPost.bind (RPost.any _) fun _ _ => RPost.ok h
theorem fd_refreshNil {o : Op} (h : Fdl f o) : RPost (o.refreshNil c) (Fdl f) := RPost.bind (RPost.any _) fun _ _ => RPost.ok h
theorem fd_clean {o : Op} (h : Fdl f o) : RPost (o.clean c) (Fdl f) := RPost.bind (RPost.any _) fun _ _ => RPost.ok h
theorem fd_refresh {o : Op} (h : Fdl f o) : RPost (o.refresh c) (Fdl f) := by
  unfold refresh
  split
  · exact fd_refreshNil h
  · exact RPost.ok h
theorem fd_onComplete {o : Op} (h : Fdl f o) : RPost (o.onComplete c) (fun p => Fdl f p.2) := RPost.bind (RPost.any _) fun _ _ => RPost.ok h
theorem fd_completeRefresh {o : Op} (h : Fdl f o) : RPost (o.completeRefresh c) (Fdl f) := RPost.bind (RPost.any _) fun _ _ => RPost.ok h
theorem fd_readRune {o : Op} (h : Fdl f o) : RPost o.readRune (fun p => Fdl f p.2) := by
  unfold readRune
  split
  · exact RPost.err
  · dsimp only
    split <;> exact RPost.ok h


theorem fd_searchRun {s : Search} {h : Hist} {r : RB} {b : Bool} (hf : h.fd = f) :
    RPost (Search.search c.U c.d c.h b s h r) (fun p => p.2.1.fd = f) := by
  unfold Search.search
  split
  · exact RPost.bind (RPost.any _) fun _ _ => RPost.ok hf
  · refine RPost.bind (RPost.any _) fun v _ => ?_
    split
    · exact RPost.bind (RPost.any _) fun _ _ => RPost.ok hf
    · exact RPost.bind (RPost.any _) fun _ _ => RPost.bind (RPost.any _) fun _ _ => RPost.ok hf

theorem fd_exitSearch {b : Bool} {o : Op} (h : Fdl f o) : RPost (o.exitSearch c b) (Fdl f) := by
  refine RPost.bind (Q := fun p : Search × Hist × RB => p.2.1.fd = f) ?_ fun v hv => RPost.ok hv
  unfold Search.exitSearchMode
  refine RPost.ite ?_ (RPost.bind (RPost.ok (P := fun p : Hist × RB => p.1.fd = f) h) fun v hv => RPost.ok hv)
  cases o.search.source with
  | none => exact RPost.bind (Q := fun p : Hist × RB => p.1.fd = f) RPost.err fun v hv => RPost.ok hv
  | some e => exact RPost.bind (RPost.any _) fun _ _ => RPost.bind (RPost.ok (P := fun p : Hist × RB => p.1.fd = f) h) fun v hv => RPost.ok hv

theorem fd_enterSearch {b : Bool} {o : Op} (h : Fdl f o) : RPost (o.enterSearch c b) (fun p => Fdl f p.2) := by
  refine RPost.bind (Q := fun p : Bool × Search × Hist × RB => p.2.2.1.fd = f) ?_ fun v hv => RPost.ok hv
  unfold Search.searchMode
  split
  · exact RPost.ok h
  · dsimp only
    split
    · exact RPost.bind (fd_searchRun h) fun _ hv => RPost.ok hv
    · exact RPost.bind (RPost.any _) fun _ _ => RPost.ok h

theorem fd_searchChar {r : Rune} {o : Op} (h : Fdl f o) : RPost (o.searchChar c r) (Fdl f) :=
  RPost.bind (Q := fun p : Search × Hist × RB => p.2.1.fd = f) (fd_searchRun h) fun _ hv => RPost.ok hv

theorem fd_searchBackspace {o : Op} (h : Fdl f o) : RPost (o.searchBackspace c) (Fdl f) := by
  refine RPost.bind (Q := fun p : Search × Hist × RB => p.2.1.fd = f) ?_ fun v hv => RPost.ok hv
  unfold Search.searchBackspace
  split
  · exact fd_searchRun h
  · exact RPost.ok h

theorem fd_compact (cfg : HCfg) (h : Hist) : (h.compact cfg).fd = h.fd := by
  unfold Hist.compact
  rfl

theorem fd_updateHistory {o : Op} (h : Fdl f o) : Fdl f (o.updateHistory c) := by
  show (Hist.update c.h o.rb.buf false o.hist).fd = f
  unfold Hist.update
  split
  · rw [fd_compact]; exact h
  · dsimp only
    rw [fd_compact]; exact h

/-- The vim commands. -/
theorem fd_vimMovement {r : Rune} {o : Op} (h : Fdl f o) : RPost (vimMovement c r o) (fun x => ∀ p, x = some p → Fdl f p.2) := by
  have some' : ∀ {r : Rune} {o : Op}, Fdl f o → RPost (.ok (some (r, o))) (fun x => ∀ p, x = some p → Fdl f p.2) := by
    intro r o h
    refine RPost.ok fun p e => ?_
    cases e
    exact h
  have ed : ∀ {k : Cmd} {o : Op}, Fdl f o →
      RPost (o.edit c k >>= fun o => .ok (some (0, o))) (fun x => ∀ p : Rune × Op, x = some p → Fdl f p.2) :=
    fun h => RPost.bind (fd_edit h) fun _ hv => some' hv
  unfold vimMovement
  dsimp only
  repeat' apply RPost.ite
  all_goals first
    | exact some' h
    | exact ed h
    | exact RPost.ok fun p e => nomatch e
    | (refine RPost.bind (fd_edit h) fun v hv => ?_
       split
       · exact ed hv
       · exact some' hv)
    | (refine RPost.bind (fd_readRune h) fun v hv => ?_
       obtain ⟨n, o'⟩ := v
       repeat' apply RPost.ite
       all_goals first
         | exact ed hv
         | exact some' hv)

theorem fd_vimEnterInsert {r : Rune} {o : Op} (h : Fdl f o) : RPost (vimEnterInsert c r o) (fun x => ∀ p, x = some p → Fdl f p.2) := by
  have some' : ∀ {r : Rune} {o : Op}, Fdl f o → RPost (.ok (some (r, { o with vimNormal := false }))) (fun x => ∀ p, x = some p → Fdl f p.2) := by
    intro r o h
    refine RPost.ok fun p e => ?_
    cases e
    exact h
  have ed : ∀ {k : Cmd} {o : Op}, Fdl f o →
      RPost (o.edit c k >>= fun o => .ok (some (0, { o with vimNormal := false }))) (fun x => ∀ p : Rune × Op, x = some p → Fdl f p.2) :=
    fun h => RPost.bind (fd_edit h) fun _ hv => some' hv
  unfold vimEnterInsert
  dsimp only
  repeat' apply RPost.ite
  all_goals first
    | exact some' h
    | exact ed h
    | exact RPost.ok fun p e => nomatch e
    | (refine RPost.bind (fd_readRune h) fun v hv => ?_
       obtain ⟨n, o'⟩ := v
       repeat' apply RPost.ite
       all_goals first
         | exact ed hv
         | exact some' hv)

theorem fd_handleVim {r : Rune} {o : Op} (h : Fdl f o) : RPost (o.handleVim c r) (fun p => Fdl f p.2) := by
  unfold handleVim
  split
  · unfold vimNormalKey
    split
    · exact RPost.ok h
    · refine RPost.bind (fd_vimMovement h) fun v hv => ?_
      split
      · exact RPost.ok (hv _ rfl)
      · refine RPost.bind (fd_vimEnterInsert h) fun w hw => ?_
        split
        · exact RPost.ok (hw _ rfl)
        · exact RPost.ok h
  · split <;> exact RPost.ok h

/-- The file handle after a key. -/
def Fdk (f : Fd) (k : KeyRes) : Prop := Fdl f k.op

theorem fd_key {r : Rune} {o : Op} (h : Fdl f o) : RPost (o.key c r) (Fdk f) := by
  unfold key
  split
  · exact RPost.bind (fd_edit h) fun _ hv => RPost.ok hv
  · refine RPost.ite ?bell (RPost.ite ?tab (RPost.ite ?bck (RPost.ite ?fwd (RPost.ite ?bs (RPost.ite ?z (RPost.ite ?l (RPost.ite ?enter
      (RPost.ite ?prev (RPost.ite ?next (RPost.ite ?del (RPost.ite ?int ?text)))))))))))
    case bell =>
      have j : ∀ o : Op, Fdl f o → RPost (if o.comp.inComplete then refreshNil c { o with comp := o.comp.exitComplete } >>= fun o =>
          .ok { op := o } else (.ok o : R Op) >>= fun o => .ok { op := o }) (Fdk f) := fun o h =>
        RPost.ite (RPost.bind (fd_refreshNil (o := { o with comp := o.comp.exitComplete }) h) fun _ hv => RPost.ok hv)
          (RPost.bind (RPost.ok (P := Fdl f) h) fun _ hv => RPost.ok hv)
      unfold keyBell
      exact RPost.ite (RPost.bind (fd_exitSearch h) fun _ hv => RPost.bind (fd_refreshNil hv) fun _ hv => j _ hv)
        (RPost.bind (RPost.ok (P := Fdl f) h) fun _ hv => j _ hv)
    case tab =>
      unfold keyTab
      split
      · exact RPost.ok h
      · exact RPost.bind (fd_onComplete h) fun _ hv => RPost.ite (RPost.ok hv) (RPost.ok hv)
    case bck => exact RPost.bind (fd_enterSearch h) fun _ hv => RPost.ite (RPost.ok hv) (RPost.ok hv)
    case fwd => exact RPost.bind (fd_enterSearch h) fun _ hv => RPost.ite (RPost.ok hv) (RPost.ok hv)
    case bs =>
      unfold keyBackspace
      refine RPost.ite (RPost.bind (fd_searchBackspace h) fun _ hv => RPost.ok hv) (RPost.ite (RPost.ok h) ?_)
      exact RPost.bind (fd_edit h) fun _ hv => RPost.ite (RPost.bind (fd_onComplete hv) fun _ hw => RPost.ok hw) (RPost.ok hv)
    case z => exact RPost.bind (fd_clean h) fun _ hv => RPost.bind (fd_refresh hv) fun _ hw => RPost.ok hw
    case l => exact RPost.bind (fd_refresh (o := { o with rb := _ }) h) fun _ hw => RPost.ok hw
    case enter =>
      have j2 : ∀ p : List Rune × Op, Fdl f p.2 → RPost (if c.noSave = false then p.2.hist.new c.h p.1 >>= fun h =>
          .ok { op := { p.2 with events := p.2.events ++ [.line p.1], hist := h } }
          else .ok { op := { p.2 with events := p.2.events ++ [.line p.1] }, update := false }) (Fdk f) := fun p hp =>
        RPost.ite (RPost.bind (Q := fun h' : Hist => h'.fd = f) (fun w e => (new_fd e).trans hp) fun w hw => RPost.ok hw) (RPost.ok hp)
      unfold keyEnter
      have e : ∀ (x : R Op), RPost x (Fdl f) → ∀ (g : Op → R KeyRes), (∀ o, Fdl f o → RPost (g o) (Fdk f)) → RPost (x >>= g) (Fdk f) :=
        fun x hx g hg => RPost.bind hx hg
      refine RPost.ite (e _ (fd_exitSearch h) _ fun o h => ?_) (e _ (RPost.ok h) _ fun o h => ?_)
      all_goals
        refine RPost.bind (fd_edit h) fun o h => ?_
        refine RPost.ite (RPost.bind (fd_edit h) fun o h => ?_) (RPost.bind (fd_clean h) fun o h => ?_)
        · refine RPost.ite (RPost.bind (Q := fun p : List Rune × Op => Fdl f p.2) RPost.err fun p hp => j2 p hp) ?_
          exact RPost.bind (RPost.ok (P := fun p : List Rune × Op => Fdl f p.2) h) fun p hp => j2 p hp
        · exact RPost.bind (RPost.ok (P := fun p : List Rune × Op => Fdl f p.2) h) fun p hp => j2 p hp
    case prev =>
      have hp : o.hist.prev.2.fd = f := by
        unfold Hist.prev
        split
        · exact h
        · split <;> exact h
      unfold keyPrev
      split
      · next e => exact RPost.bind (fd_edit (o := { o with hist := _ }) (by rw [e] at hp; exact hp)) fun _ hv => RPost.ok hv
      · next e => exact RPost.ok (by rw [e] at hp; exact hp)
    case next =>
      have hp : o.hist.nextLine.2.fd = f := by
        unfold Hist.nextLine
        split
        · exact h
        · split <;> exact h
      unfold keyNext
      split
      · next e => exact RPost.bind (fd_edit (o := { o with hist := _ }) (by rw [e] at hp; exact hp)) fun _ hv => RPost.ok hv
      · next e => exact RPost.ok (by rw [e] at hp; exact hp)
    case del =>
      unfold keyDelete
      refine RPost.ite (RPost.bind (RPost.any _) fun _ _ => RPost.ite (RPost.ok h) (RPost.ok h)) ?_
      refine RPost.ite (RPost.bind (fd_edit h) fun o h => ?_) (RPost.bind (RPost.ok (P := Fdl f) h) fun o h => ?_)
      all_goals
        exact RPost.ite (RPost.bind (fd_clean (o := { o with rb := _, hist := o.hist.revert, events := _ }) h) fun _ hv => RPost.ok hv)
          (RPost.bind (RPost.ok (P := Fdl f) (v := { o with rb := _, hist := o.hist.revert, events := _ }) h) fun _ hv => RPost.ok hv)
    case int =>
      unfold keyInterrupt
      refine RPost.ite (RPost.bind (fd_exitSearch h) fun _ hv => RPost.ok hv) (RPost.ite ?_ ?_)
      · exact RPost.bind (fd_refreshNil h) fun _ hv => RPost.ok hv
      · refine RPost.bind (fd_edit h) fun v hv => RPost.bind (fd_refreshNil hv) fun v hv => ?_
        refine RPost.ite (RPost.bind (fd_edit hv) fun v hv => ?_) (RPost.bind (RPost.ok (P := Fdl f) hv) fun v hv => ?_)
        all_goals
          refine RPost.ite ?_ ?_
          all_goals exact RPost.bind (RPost.any _) fun _ _ => RPost.ok hv
    case text =>
      unfold keyText
      refine RPost.ite (RPost.bind (fd_searchChar h) fun _ hv => RPost.ok hv) ?_
      exact RPost.bind (fd_edit h) fun _ hv => RPost.ite (RPost.bind (fd_onComplete hv) fun _ hw => RPost.ok hw) (RPost.ok hv)

theorem fd_dispatch {r : Rune} {o : Op} (h : Fdl f o) : RPost (o.dispatch c r) (Fdl f) := by
  refine RPost.bind (fd_key h) fun k hk => RPost.bind (Q := Fdk f) ?_ fun k hk => ?_
  · unfold listen
    split
    · exact RPost.ok hk
    · split
      · exact RPost.ok hk
      · exact RPost.bind (RPost.any _) fun _ _ => RPost.ok hk
  · refine RPost.bind (Q := Fdl f) ?_ fun o ho => RPost.ite (RPost.ok (fd_updateHistory ho)) (RPost.ok ho)
    unfold settle
    refine RPost.ite (RPost.bind (fd_exitSearch hk) fun _ hv => fd_refreshNil hv) (RPost.ite (RPost.ite (fd_refresh hk) ?_) (RPost.ok hk))
    exact RPost.bind (fd_refreshNil hk) fun _ hv => fd_completeRefresh hv

theorem fd_viaVim {r : Rune} {o : Op} (h : Fdl f o) : RPost (o.viaVim c r) (Fdl f) :=
  RPost.ite (RPost.bind (fd_handleVim h) fun _ hv => RPost.ite (RPost.ok hv) (fd_dispatch hv)) (fd_dispatch h)

theorem fd_viaMenu {r : Rune} {o : Op} (h : Fdl f o) : RPost (o.viaMenu c r) (Fdl f) := by
  unfold viaMenu
  refine RPost.ite (RPost.bind (RPost.any _) fun _ _ => RPost.ite (RPost.ok h) ?_) (fd_viaVim h)
  refine RPost.bind (fd_refreshNil h) fun v hv => ?_
  exact RPost.ite (RPost.ok (fd_updateHistory hv)) (RPost.ite (RPost.ok hv) (RPost.ite (RPost.ok hv) (fd_viaVim hv)))

theorem fd_iter {o : Op} (h : Fdl f o) : RPost (o.iter c) (Fdl f) := by
  have hh : ∀ {r : Rune} {o : Op}, Fdl f o → RPost (o.handle c r) (Fdl f) := by
    intro r o h
    exact RPost.ite (RPost.ite (RPost.bind (fd_clean h) fun _ hv => RPost.ok hv) (fd_viaMenu h)) (fd_viaMenu h)
  refine RPost.bind (fd_readRune h) fun v hv => ?_
  show RPost (accept c v.1 v.2) _
  unfold accept
  split
  · exact hh hv
  · split
    · exact fd_refreshNil hv
    · exact hh hv

theorem fd_await : ∀ (n : Nat) {o : Op}, Fdl f o → RPost (await c n o) (fun p => Fdl f p.2)
  | 0, o, h => by
    unfold await
    split
    · exact RPost.ok h
    · exact RPost.err
  | n + 1, o, h => by
    unfold await
    split
    · exact RPost.ok h
    · exact RPost.ite RPost.err (RPost.bind (fd_iter h) fun _ hv => fd_await n hv)

/-- A call of `Readline`, whatever is typed, leaves the file handle of the history alone. -/
theorem fd_readline {fuel : Nat} {o o' : Op} {e : Event} (h : o.readline c fuel = .ok (e, o')) : o'.hist.fd = o.hist.fd := by
  have : RPost (o.readline c fuel) (fun p => Fdl o.hist.fd p.2) :=
    RPost.bind (fd_refreshNil (f := o.hist.fd) (o := o) rfl) fun v hv => fd_await fuel (o := v.kickRead) hv
  exact this _ h

end Op
end RL
