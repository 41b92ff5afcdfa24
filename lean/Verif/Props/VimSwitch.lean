import Verif.Spec.VimSwitch
import Verif.Props.Decode
import Verif.Props.Vim
/-! # C107: switching vim mode while the program runs -/

namespace RL
open VSw

/-- The pointers after any actions. -/
private theorem vsw_ptrs : ∀ (as : List Act) (s : St), s.inst = s.term →
    (s.acts as).ov = s.ov ∧ (s.acts as).inst = Spec.vimLast s.inst as ∧ (s.acts as).term = Spec.vimLast s.inst as
  | [], s, h => ⟨rfl, rfl, h.symm⟩
  | a :: as, s, h => by
    have keep : ∀ s' : St, s'.inst = s'.term → s'.ov = s.ov → (s'.acts as).ov = s.ov ∧
        (s'.acts as).inst = Spec.vimLast s'.inst as ∧ (s'.acts as).term = Spec.vimLast s'.inst as :=
      fun s' h1 h2 => ⟨(vsw_ptrs as s' h1).1.trans h2, (vsw_ptrs as s' h1).2⟩
    cases a with
    | setVim on => exact keep _ h rfl
    | assign c on => exact keep _ h rfl
    | enter c => exact keep _ h rfl
    | leave => exact keep _ h rfl
    | keys n =>
      show ((s.act (.keys n)).acts as).ov = _ ∧ ((s.act (.keys n)).acts as).inst = Spec.vimLast s.inst as ∧
        ((s.act (.keys n)).acts as).term = Spec.vimLast s.inst as
      unfold St.act
      dsimp only
      split
      · exact keep { s with normal := n } h rfl
      · exact keep s h rfl
    | setConfig c =>
      show ((s.setConfig c).acts as).ov = _ ∧ ((s.setConfig c).acts as).inst = Spec.vimLast c as ∧
        ((s.setConfig c).acts as).term = Spec.vimLast c as
      unfold St.setConfig
      split
      · rename_i hc
        subst hc
        exact keep s h rfl
      · exact keep { s with inst := c, op := c, term := c } rfl rfl

/-- The `opVim` keeps its configuration. -/
private theorem vsw_step (s : St) (a : Act) : (s.act a).ov = s.ov := by
  cases a with
  | keys n => unfold St.act; dsimp only; split <;> rfl
  | setConfig c => show (s.setConfig c).ov = _; unfold St.setConfig; split <;> rfl
  | _ => rfl

/-- The fields after any actions. -/
private theorem vsw_fields (k : Nat) : ∀ (as : List Act) (s : St),
    (k = s.ov → (s.acts as).vim k = Spec.vimWritten (s.vim k) k as) ∧
    (k ≠ s.ov → (s.acts as).vim k = Spec.vimWritten (s.vim k) k (as.filter fun a => match a with | .setVim _ => false | _ => true))
  | [], s => ⟨fun _ => rfl, fun _ => rfl⟩
  | a :: as, s => by
    cases a with
    | setVim on =>
      have ih := vsw_fields k as (s.setVim on)
      refine ⟨fun h => ?_, fun h => ?_⟩
      · refine (ih.1 h).trans ?_
        show Spec.vimWritten (if k = s.ov then on else s.vim k) k as = _
        rw [if_pos h]; rfl
      · refine (ih.2 h).trans ?_
        show Spec.vimWritten (if k = s.ov then on else s.vim k) k _ = _
        rw [if_neg h]; rfl
    | assign c on =>
      have ih := vsw_fields k as (s.act (.assign c on))
      have e : (if k = c then on else s.vim k) = if c = k then on else s.vim k := by
        by_cases h : k = c
        · rw [if_pos h, if_pos h.symm]
        · rw [if_neg h, if_neg (Ne.symm h)]
      refine ⟨fun h => ?_, fun h => ?_⟩
      · refine (ih.1 h).trans ?_
        show Spec.vimWritten (if k = c then on else s.vim k) k as = _
        rw [e]; rfl
      · refine (ih.2 h).trans ?_
        show Spec.vimWritten (if k = c then on else s.vim k) k _ = _
        rw [e]; rfl
    | enter c => exact vsw_fields k as (s.enter c)
    | leave => exact vsw_fields k as (s.act .leave)
    | keys n =>
      show (_ → ((s.act (.keys n)).acts as).vim k = _) ∧ (_ → ((s.act (.keys n)).acts as).vim k = _)
      unfold St.act
      dsimp only
      split
      · exact vsw_fields k as { s with normal := n }
      · exact vsw_fields k as s
    | setConfig c =>
      show (_ → ((s.setConfig c).acts as).vim k = _) ∧ (_ → ((s.setConfig c).acts as).vim k = _)
      unfold St.setConfig
      split
      · exact vsw_fields k as s
      · exact vsw_fields k as { s with inst := c, op := c, term := c }

/-- **C107.**  What the editor does is decided by the configuration the instance was made with, whatever configuration is set
later: the last `SetVimMode`, or the last assignment to the field of that first configuration.  `IsVimMode` reports this. -/
theorem C107_editor (vim : Nat → Bool) (c : Nat) (as : List Act) :
    ((new vim c).acts as).editor = Spec.vimWritten (vim c) c as := by
  unfold St.editor
  rw [(vsw_ptrs as (new vim c) rfl).1]
  exact (vsw_fields c as (new vim c)).1 rfl

/-- **C107.**  What the decoder does is decided by the configuration set last; `SetVimMode` reaches it only when that is the
first one. -/
theorem C107_decoder (vim : Nat → Bool) (c : Nat) (as : List Act) :
    ((new vim c).acts as).decoder = if Spec.vimLast c as = c then Spec.vimWritten (vim c) c as
      else Spec.vimWritten (vim (Spec.vimLast c as)) (Spec.vimLast c as)
        (as.filter fun a => match a with | .setVim _ => false | _ => true) := by
  unfold St.decoder
  rw [(vsw_ptrs as (new vim c) rfl).2.2]
  show ((new vim c).acts as).vim (Spec.vimLast c as) = _
  split
  · rename_i h
    rw [h]
    exact (vsw_fields c as (new vim c)).1 rfl
  · rename_i h
    exact (vsw_fields _ as (new vim c)).2 h

private theorem vimState_one (c : Nat) : ∀ (as : List Act) (vim : Nat → Bool), (∀ d, .setConfig d ∈ as → d = c) →
    (Spec.vimState vim c as).2 = c ∧ (Spec.vimState vim c as).1 c = Spec.vimWritten (vim c) c as
  | [], vim, _ => ⟨rfl, rfl⟩
  | a :: as, vim, h => by
    have h' : ∀ d, .setConfig d ∈ as → d = c := fun d hd => h d (List.mem_cons_of_mem _ hd)
    cases a with
    | setVim on =>
      obtain ⟨h1, h2⟩ := vimState_one c as (fun k => if k = c then on else vim k) h'
      exact ⟨h1, h2.trans (by rw [if_pos rfl]; rfl)⟩
    | assign d on =>
      obtain ⟨h1, h2⟩ := vimState_one c as (fun k => if k = d then on else vim k) h'
      refine ⟨h1, h2.trans ?_⟩
      show _ = Spec.vimWritten (if d = c then on else vim c) c as
      by_cases hd : c = d
      · rw [if_pos hd, if_pos hd.symm]
      · rw [if_neg hd, if_neg (Ne.symm hd)]
    | enter d => exact vimState_one c as vim h'
    | leave => exact vimState_one c as vim h'
    | keys n => exact vimState_one c as vim h'
    | setConfig d =>
      have := h d (List.mem_cons_self ..)
      subst this
      exact vimState_one d as vim h'

/-- **C107 (partial).**  As long as the program keeps its first configuration, also while passwords are read, editor and decoder
agree, and do what the program has asked for last. -/
theorem C107_agree_partial (vim : Nat → Bool) (c : Nat) {as : List Act} (h : ∀ d, .setConfig d ∈ as → d = c) :
    ((new vim c).acts as).editor = Spec.vimWanted vim c as ∧ ((new vim c).acts as).decoder = Spec.vimWanted vim c as := by
  obtain ⟨h1, h2⟩ := vimState_one c as vim h
  have hl : ∀ (as : List Act), (∀ d, .setConfig d ∈ as → d = c) → Spec.vimLast c as = c := by
    intro as
    induction as with
    | nil => intro _; rfl
    | cons a as ih =>
      intro h
      have h' : ∀ d, .setConfig d ∈ as → d = c := fun d hd => h d (List.mem_cons_of_mem _ hd)
      cases a with
      | setConfig d =>
        have := h d (List.mem_cons_self ..)
        subst this
        exact ih h'
      | _ => exact ih h'
  unfold Spec.vimWanted
  rw [h1, h2, C107_editor, C107_decoder, if_pos (hl as h)]
  exact ⟨rfl, rfl⟩

/-- Non-trivial case: vim mode on, a password read meanwhile, keys, off, on again through the field. -/
example : let as := [Act.setVim true, .enter 7, .keys true, .leave, .setVim false, .assign 3 true]
    (∀ d, .setConfig d ∈ as → d = 3) ∧ ((new (fun _ => false) 3).acts as).editor = true ∧
      ((new (fun _ => false) 3).acts as).normal = false ∧ ((new (fun _ => false) 3).acts (as.take 4)).normal = true := by
  refine ⟨?_, by decide, by decide, by decide⟩
  intro d hd
  simp at hd

/-- **C107.**  Setting the first configuration again repairs any disagreement. -/
theorem C107_repaired (vim : Nat → Bool) (c : Nat) (as : List Act) :
    ((new vim c).acts (as ++ [.setConfig c])).editor = ((new vim c).acts (as ++ [.setConfig c])).decoder := by
  have hl : ∀ (as : List Act) (d : Nat), Spec.vimLast d (as ++ [.setConfig c]) = c := by
    intro as
    induction as with
    | nil => intro d; rfl
    | cons a as ih => intro d; cases a <;> exact ih _
  rw [C107_editor, C107_decoder, if_pos (hl as c)]

/-- **C107.**  `SetVimMode` starts in insert mode. -/
theorem C107_insert (s : St) (on : Bool) : (s.act (.setVim on)).normal = false ∧ (s.act (.setVim on)).editor = on :=
  ⟨rfl, if_pos rfl⟩

/-- **C107 (partial).**  The editor is in normal mode only while vim mode is on, unless the program writes to the field `VimMode` of the
first configuration itself. -/
theorem C107_normal_partial (vim : Nat → Bool) (c : Nat) {as : List Act} (h : ∀ on, .assign c on ∉ as)
    (hn : ((new vim c).acts as).normal = true) : ((new vim c).acts as).editor = true := by
  have main : ∀ (as : List Act) (s : St), s.ov = c → (∀ on, .assign c on ∉ as) → (s.normal = true → s.editor = true) →
      (s.acts as).normal = true → (s.acts as).editor = true := by
    intro as
    induction as with
    | nil => intro s _ _ h; exact h
    | cons a as ih =>
      intro s hc ha hs
      have ha' : ∀ on, .assign c on ∉ as := fun on hm => ha on (List.mem_cons_of_mem _ hm)
      refine ih (s.act a) ?_ ha' ?_
      · have := vsw_step s a
        rw [this, hc]
      · cases a with
        | setVim on => intro h; cases h
        | assign d on =>
          intro h
          have hd : s.ov ≠ d := by
            intro he
            exact ha on (by rw [← hc, he]; exact List.mem_cons_self ..)
          show (if s.ov = d then on else s.vim s.ov) = true
          rw [if_neg hd]
          exact hs h
        | enter d => exact hs
        | leave => exact hs
        | keys n =>
          unfold St.act
          dsimp only
          split
          · rename_i hv; intro _; exact hv
          · exact hs
        | setConfig d =>
          show (s.setConfig d).normal = true → (s.setConfig d).editor = true
          unfold St.setConfig
          split
          · exact hs
          · exact hs
  exact main as (new vim c) rfl h (fun h => nomatch h) hn

/-- Non-trivial case: on, normal mode, another configuration; and off again. -/
example : ((new (fun _ => false) 3).acts [.setVim true, .keys true, .setConfig 4]).normal = true ∧
    ((new (fun _ => false) 3).acts [.setVim true, .keys true, .setConfig 4, .setVim false]).normal = false := by decide

/-- **C107 is false for the field.**  A program that switches vim mode off and on by writing to the field finds the user in normal mode,
where `SetVimMode` would have started in insert mode. -/
theorem C107_false_field : ((new (fun _ => true) 0).acts [.keys true, .assign 0 false, .keys false, .assign 0 true]).normal = true ∧
    ((new (fun _ => true) 0).acts [.keys true, .setVim false, .keys false, .setVim true]).normal = false := by decide

/-! ### What follows from a disagreement -/

private theorem emit_no_esc (d : Dec) (r : Rune) : 27 ∉ keysOf (d.emit false r).1 := by
  unfold Dec.emit
  split
  · exact fun h => nomatch h
  · rename_i h
    have hk : 27 ∉ keysOf [.key r] := by
      intro hm
      rcases List.mem_cons.mp hm with h' | h'
      · exact h h'.symm
      · cases h'
    split
    · exact hk
    · exact hk

private theorem onRune_no_esc (U : UTables) (d : Dec) (r : Rune) (s : List TIn) : 27 ∉ keysOf (d.onRune U false r s).1 := by
  have hn : 27 ∉ keysOf ([] : List TEv) := fun h => nomatch h
  unfold Dec.onRune
  split
  · dsimp only
    split
    · exact hn
    · split
      · exact hn
      · exact emit_no_esc _ _
  · split
    · dsimp only
      split
      · dsimp only
        split
        · exact hn
        · exact hn
      · split
        · exact hn
        · exact emit_no_esc _ _
    · split
      · dsimp only
        split
        · exact hn
        · exact emit_no_esc _ _
      · exact emit_no_esc _ _

/-- **C107.**  While the decoder is not in vim mode, no input whatever makes it deliver Escape. -/
theorem C107_deaf_keys (U : UTables) (s : List TIn) : 27 ∉ termKeys U false s := by
  have run : ∀ (n : Nat) (d : Dec) (s : List TIn), 27 ∉ keysOf (Dec.run U false n d s) := by
    intro n
    induction n with
    | zero => intro d s h; cases h
    | succ n ih =>
      intro d s
      have hw : keysOf (if d.expectNextChar then ([] : List TEv) else [TEv.wait]) = [] := by split <;> rfl
      unfold Dec.run Dec.iter
      cases s with
      | nil => dsimp only; rw [hw]; exact fun h => nomatch h
      | cons x s =>
        cases x with
        | eintr =>
          dsimp only
          rw [keysOf_append, hw]
          exact ih _ _
        | rune r =>
          dsimp only
          rw [keysOf_append, keysOf_append, hw]
          intro hm
          rcases List.mem_append.mp hm with h | h
          · exact onRune_no_esc _ _ _ _ h
          · exact ih _ _ h
  exact run _ _ _

private theorem await_keep {c : OCfg} : ∀ (n : Nat) (o o' : Op) (e : Event), o.vimNormal = false →
    (∀ r ∈ 0 :: o.inp, Op.filtered c r ≠ some 27) → o.await c n = .ok (e, o') →
    o'.vimNormal = false ∧ ∀ r ∈ 0 :: o'.inp, Op.filtered c r ≠ some 27
  | n, o, o', e, h, hr, ha => by
    unfold Op.await at ha
    split at ha
    · cases ha
      exact ⟨h, hr⟩
    · cases n with
      | zero => cases ha
      | succ n =>
        dsimp only at ha
        split at ha
        · cases ha
        · obtain ⟨o1, h1, ha⟩ := R.bind_inv ha
          have hd : Op.filtered c (o.inp.headD 0) ≠ some CharEsc := by
            cases hi : o.inp with
            | nil => exact hr 0 (List.mem_cons_self ..)
            | cons x xs => exact hr x (by rw [hi]; exact List.mem_cons_of_mem _ (List.mem_cons_self ..))
          obtain ⟨h2, h3⟩ := (Op.iter_insert h hd).2 o1 h1
          refine await_keep n o1 o' e h2 (fun r hm => ?_) ha
          rw [h3] at hm
          rcases List.mem_cons.mp hm with h' | h'
          · exact hr r (h' ▸ List.mem_cons_self ..)
          · exact hr r (List.mem_cons_of_mem _ (List.mem_of_mem_tail h'))

/-- **C107 is false after `SetConfig`, 1.**  When `SetVimMode(true)` reaches the editor but not the decoder, vim mode has no
effect at all: whatever is typed, every call of `Readline` in the session returns what it returns in emacs mode.  Normal mode
cannot be entered. -/
theorem C107_deaf {c : OCfg} (hf : ∀ r, r ≠ 27 → Op.filtered c r ≠ some 27) (s : List TIn) (fuel n : Nat) {o : Op}
    (hm : o.vimNormal = false) (hi : o.inp = termKeys c.U false s) : calls c fuel n o = calls { c with vim := false } fuel n o := by
  have main : ∀ (n : Nat) (o : Op), o.vimNormal = false → (∀ r ∈ 0 :: o.inp, Op.filtered c r ≠ some 27) →
      calls c fuel n o = calls { c with vim := false } fuel n o := by
    intro n
    induction n with
    | zero => intro o _ _; rfl
    | succ n ih =>
      intro o hm hk
      show (o.readline c fuel >>= _) = (o.readline { c with vim := false } fuel >>= _)
      rw [← C41_insert hm hk fuel]
      refine R.bind_congr' fun x hx => ?_
      obtain ⟨e, o'⟩ := x
      obtain ⟨o1, h1, hx⟩ := R.bind_inv hx
      obtain ⟨_, _, _, _, rfl⟩ := Op.refreshNil_inner h1
      have hk' := fun a b => await_keep fuel _ o' e a b hx
      obtain ⟨h2, h3⟩ := hk' hm hk
      show (calls c fuel n o' >>= _) = (calls { c with vim := false } fuel n o' >>= _)
      rw [ih o' h2 h3]
  refine main n o hm fun r hr => hf r ?_
  rcases List.mem_cons.mp hr with rfl | h
  · decide
  · exact fun he => C107_deaf_keys c.U s (he ▸ hi ▸ h)

/-- The situation of `C107_deaf`: the program sets another configuration and then asks for vim mode; `IsVimMode` says yes, the
decoder does not know.  "ab", Escape, "0x", Enter is then "ab0x" and not "b". -/
theorem C107_false_on : let s := (new (fun _ => false) 0).acts [.setConfig 1, .setVim true]
    s.editor = true ∧ s.decoder = false ∧
    firstResult { c0 with vim := s.editor } (o0 (termKeys U0 s.decoder (([97, 98, 27, 48, 120, 13] : List Rune).map .rune))) =
      .ok (.line [97, 98, 48, 120]) ∧
    firstResult { c0 with vim := true } (o0 (termKeys U0 true (([97, 98, 27, 48, 120, 13] : List Rune).map .rune))) =
      .ok (.line [98]) := by decide

/-- **C107 is false after `SetConfig`, 2.**  A configuration with `VimMode` set through `SetConfig` switches the decoder only: the
editor has no normal mode, and Escape sequences are typed into the line: "a", Up, Enter submits "a", Escape, "[A". -/
theorem C107_false_config : let s := (new (fun k => k == 1) 0).acts [.setConfig 1]
    s.editor = false ∧ s.decoder = true ∧
    firstResult { c0 with vim := s.editor } (o0 (termKeys U0 s.decoder (([97, 27, 91, 65, 13] : List Rune).map .rune))) =
      .ok (.line [97, 27, 91, 65]) := by decide

/-- **C107 is false after `SetConfig`, 3.**  A program that started in vim mode does not get rid of it by setting a configuration
without it, and a user who was in normal mode stays there: `IsVimMode` goes on saying yes, "x" goes on deleting, and Escape no
longer arrives. -/
theorem C107_false_off : let s := (new (fun k => k == 0) 0).acts [.keys true, .setConfig 1]
    s.editor = true ∧ s.normal = true ∧ s.decoder = false ∧ Spec.vimWanted (fun k => k == 0) 0 [.keys true, .setConfig 1] = false := by
  decide

end RL
