import Verif.Proofs.Mask
import Verif.Proofs.Keys
import Verif.Proofs.Keys
/-! Lemmas for C97: the editing loop with the mask on, run with two sequences of keys that differ only in what is typed. -/

namespace RL
open Spec RB Ed

variable {U : UTables} {d : DCfg}

theorem All2.mono {α β : Type} {P Q : α → β → Prop} (h : ∀ a b, P a b → Q a b) {a : List α} {b : List β} (hab : All2 P a b) : All2 Q a b := by
  induction hab with
  | nil => exact .nil
  | cons h1 _ ih => exact .cons (h _ _ h1) ih

theorem All2.refl {α : Type} {P : α → α → Prop} (h : ∀ a, P a a) : ∀ l : List α, All2 P l l
  | [] => .nil
  | a :: l => .cons (h a) (All2.refl h l)

theorem Spec.LooksLike.refl (a : Rune) : LooksLike U a a := ⟨⟨rfl, Iff.rfl⟩, rfl⟩
theorem Spec.Like.refl (s : List Rune) : Like U s s := All2.refl LooksLike.refl s
theorem Spec.Like.shape {s t : List Rune} (h : Like U s t) : SameShape U s t := All2.mono (fun _ _ h => h.1) h
theorem Spec.Like.length {s t : List Rune} (h : Like U s t) : s.length = t.length := forall2_length h

namespace RRel

theorem ok {α β} {P : α → β → Prop} {a : α} {b : β} (h : P a b) : RRel P (.ok a) (.ok b) := h
theorem err {α β} {P : α → β → Prop} {e : Fault} : RRel P (.error e : R α) (.error e : R β) := rfl

theorem mono {α β} {P Q : α → β → Prop} {x : R α} {y : R β} (h : RRel P x y) (hpq : ∀ a b, P a b → Q a b) : RRel Q x y := by
  cases x with
  | error => cases y with
    | error => exact h
    | ok => exact h.elim
  | ok a => cases y with
    | error => exact h.elim
    | ok b => exact hpq a b h

theorem ite {α β} {P : α → β → Prop} {c : Prop} [Decidable c] {x x' : R α} {y y' : R β} (h : c → RRel P x y) (h' : ¬ c → RRel P x' y') :
    RRel P (if c then x else x') (if c then y else y') := by
  by_cases hc : c
  · rw [if_pos hc, if_pos hc]; exact h hc
  · rw [if_neg hc, if_neg hc]; exact h' hc

end RRel

/-- The editing fields. -/
structure EVeil (U : UTables) (e e' : Ed) : Prop where
  buf : Like U e.buf e'.buf
  kill : Like U e.lastKill e'.lastKill
  idx : e.idx = e'.idx

/-- Two buffers that look the same and will go on looking the same. -/
structure Veil (U : UTables) (r s : RB) : Prop where
  ed : EVeil U r.toEd s.toEd
  prompt : r.prompt = s.prompt
  hadClean : r.hadClean = s.hadClean
  interactive : r.interactive = s.interactive
  width : r.width = s.width
  out : r.out = s.out

theorem Veil.alike {r s : RB} (h : Veil U r s) : Alike U r s :=
  ⟨h.ed.buf.shape, h.ed.kill.shape, h.ed.idx, h.prompt, h.hadClean, h.interactive, h.width, h.out⟩

theorem Veil.of {r s : RB} (h : Alike U r s) (he : EVeil U r.toEd s.toEd) : Veil U r s :=
  ⟨he, h.prompt, h.hadClean, h.interactive, h.width, h.out⟩

theorem Veil.clean {r s : RB} (h : Veil U r s) : RRel (Veil U) (r.clean U) (s.clean U) := by
  have := h.alike.clean
  cases hr : r.clean U with
  | error => cases hs : s.clean U with
    | error => rw [hr, hs] at this; exact this
    | ok => rw [hr, hs] at this; exact this.elim
  | ok r1 => cases hs : s.clean U with
    | error => rw [hr, hs] at this; exact this.elim
    | ok s1 =>
      rw [hr, hs] at this
      refine Veil.of this ?_
      rw [(clean_ok hr).1, (clean_ok hs).1]
      exact h.ed

theorem Veil.print {r s : RB} (hm : d.enableMask = true) (h : Veil U r s) : RRel (Veil U) (r.print U d) (s.print U d) := by
  unfold RB.print
  rw [h.alike.output hm]
  cases s.output U d with
  | error => rfl
  | ok o => exact { h with hadClean := rfl, out := by simp [RB.write, h.out] }

theorem Veil.write {r s : RB} (h : Veil U r s) (ts : List Tok) : Veil U (r.write ts) (s.write ts) :=
  { h with out := by simp [RB.write, h.out] }

theorem Veil.refreshV {α} {r s : RB} (hm : d.enableMask = true) (h : Veil U r s) {f g : Ed → R (α × Ed)}
    (hfg : ∀ e e' : Ed, EVeil U e e' → RRel (fun p q => p.1 = q.1 ∧ EVeil U p.2 q.2) (f e) (g e')) :
    RRel (fun p q => p.1 = q.1 ∧ Veil U p.2 q.2) (r.refreshV U d f) (s.refreshV U d g) := by
  unfold RB.refreshV
  rw [h.interactive]
  refine .ite (fun _ => (hfg _ _ h.ed).bind fun a b hab => ⟨hab.1, ⟨hab.2, h.prompt, h.hadClean, rfl, h.width, h.out⟩⟩) (fun _ => h.clean.bind fun r1 s1 h1 => ?_)
  refine (hfg _ _ h1.ed).bind fun a b hab => ?_
  refine (Veil.print hm (r := { r1 with toEd := a.2 }) (s := { s1 with toEd := b.2 }) { h1 with ed := hab.2 }).bind fun r2 s2 h2 => ?_
  exact ⟨hab.1, h2⟩

theorem Veil.refresh {r s : RB} (hm : d.enableMask = true) (h : Veil U r s) {f g : Ed → R Ed}
    (hfg : ∀ e e' : Ed, EVeil U e e' → RRel (EVeil U) (f e) (g e')) : RRel (Veil U) (r.refresh U d f) (s.refresh U d g) := by
  rw [refresh_eq_refreshV, refresh_eq_refreshV]
  refine RRel.map (P := fun p q => p.1 = q.1 ∧ Veil U p.2 q.2) (h.refreshV hm fun e e' he => ?_) fun a b hab => hab.2
  exact RRel.map (hfg e e' he) fun a b hab => ⟨rfl, hab⟩

theorem sliceTo_like {s t : List Rune} (h : Like U s t) (n : Nat) : RRel (Like U) (sliceTo s n) (sliceTo t n) := by
  unfold sliceTo
  rw [h.length]
  exact .ite (fun _ => All2.take n h) (fun _ => rfl)

theorem sliceFrom_like {s t : List Rune} (h : Like U s t) (n : Nat) : RRel (Like U) (sliceFrom s n) (sliceFrom t n) := by
  unfold sliceFrom
  rw [h.length]
  exact .ite (fun _ => All2.drop n h) (fun _ => rfl)

theorem slice_like {s t : List Rune} (h : Like U s t) (n m : Nat) : RRel (Like U) (slice s n m) (slice t n m) := by
  unfold slice
  rw [h.length]
  exact .ite (fun _ => All2.drop n (All2.take m h)) (fun _ => rfl)

theorem getR_like {s t : List Rune} (h : Like U s t) (n : Nat) : RRel (LooksLike U) (getR s n) (getR t n) := by
  unfold Like at h
  induction h generalizing n with
  | nil => rfl
  | cons h1 _ ih =>
    cases n with
    | zero => exact h1
    | succ n => exact ih n

theorem getD_like {s t : List Rune} (h : Like U s t) (n : Nat) : isWordBreak (s.getD n 0) = isWordBreak (t.getD n 0) := by
  unfold Like at h
  induction h generalizing n with
  | nil => rfl
  | cons h1 _ ih =>
    cases n with
    | zero => exact h1.2
    | succ n => simpa using ih n

theorem Spec.Like.set {s t : List Rune} (h : Like U s t) {a b : Rune} (hab : LooksLike U a b) (n : Nat) : Like U (s.set n a) (t.set n b) := by
  unfold Like at h
  induction h generalizing n with
  | nil => exact .nil
  | cons h1 h2 ih =>
    cases n with
    | zero => exact .cons hab h2
    | succ n => exact .cons h1 (ih n)

theorem scanDown_like {s t : List Rune} (h : Like U s t) : ∀ n, scanDown s n = scanDown t n
  | 0 => rfl
  | n + 1 => by
    unfold scanDown
    have h1 := getR_like h (n + 1)
    have h2 := getR_like h n
    cases e1 : getR s (n + 1) with
    | error => cases e2 : getR t (n + 1) with
      | error => rw [e1, e2] at h1; cases h1; rfl
      | ok => rw [e1, e2] at h1; exact h1.elim
    | ok a => cases e2 : getR t (n + 1) with
      | error => rw [e1, e2] at h1; exact h1.elim
      | ok b =>
        rw [e1, e2] at h1
        cases e3 : getR s n with
        | error => cases e4 : getR t n with
          | error => rw [e3, e4] at h2; cases h2; rfl
          | ok => rw [e3, e4] at h2; exact h2.elim
        | ok a' => cases e4 : getR t n with
          | error => rw [e3, e4] at h2; exact h2.elim
          | ok b' =>
            rw [e3, e4] at h2
            simp only [R.bind_ok, h1.2, h2.2, scanDown_like h n]

theorem wordStart_like {s t : List Rune} (h : Like U s t) : wordStartAt s = wordStartAt t := by
  funext i
  unfold wordStartAt
  rw [getD_like h, getD_like h]

theorem skipBreaks_like {s t : List Rune} (h : Like U s t) (i : Nat) : skipBreaks i s = skipBreaks i t := by
  unfold Like at h
  induction h generalizing i with
  | nil => rfl
  | cons h1 _ ih => simp only [skipBreaks, h1.2, ih]

/-- Two commands that differ at most in the text they insert. -/
inductive CmdLike (U : UTables) : Cmd → Cmd → Prop
  | insert {s t} : Like U s t → CmdLike U (.insert s) (.insert t)
  | set {s t} : Like U s t → CmdLike U (.set s) (.set t)
  | same {k} : k ∈ [Cmd.backspace, .left, .right, .home, .toEnd, .kill, .killFront, .yank, .deleteWord, .backEscapeWord, .prevWord, .nextWord, .transpose] →
      CmdLike U k k

theorem kill_like {e e' : Ed} (he : EVeil U e e') : RRel (EVeil U) (killC e) (killC e') := by
  unfold killC
  rw [he.idx]
  refine (sliceFrom_like he.buf _).bind fun x y hxy => (sliceTo_like he.buf _).bind fun u v huv => ?_
  exact ⟨huv, hxy, rfl⟩

theorem Veil.delete {r s : RB} (hm : d.enableMask = true) (h : Veil U r s) :
    RRel (fun p q => p.1 = q.1 ∧ Veil U p.2 q.2) (r.delete U d) (s.delete U d) := by
  refine h.refreshV hm fun e e' he => ?_
  unfold deleteC
  rw [he.idx, he.buf.length]
  refine .ite (fun _ => ⟨rfl, he⟩) fun _ => ?_
  exact (slice_like he.buf _ _).bind fun k k' hk => (sliceTo_like he.buf _).bind fun x y hxy =>
    (sliceFrom_like he.buf _).bind fun u v huv => ⟨rfl, All2.append hxy huv, hk, rfl⟩

theorem cmd_like {r s : RB} {k k' : Cmd} (hm : d.enableMask = true) (h : Veil U r s) (hk : CmdLike U k k') :
    RRel (Veil U) (k.apply U d r) (k'.apply U d s) := by
  cases hk with
  | insert hab =>
    refine h.refresh hm fun e e' he => ?_
    unfold writeRunesC
    rw [he.idx]
    refine (sliceFrom_like he.buf _).bind fun x y hxy => (sliceTo_like he.buf _).bind fun u v huv => ?_
    exact ⟨All2.append huv (All2.append hab hxy), he.kill, by simp [he.idx, hab.length]⟩
  | set hab => exact h.refresh hm fun e e' he => ⟨hab, he.kill, hab.length⟩
  | @same k hk =>
    simp only [List.mem_cons, List.not_mem_nil, or_false] at hk
    rcases hk with rfl | rfl | rfl | rfl | rfl | rfl | rfl | rfl | rfl | rfl | rfl | rfl | rfl
    · refine h.refresh hm fun e e' he => ?_
      unfold backspaceC
      rw [he.idx]
      refine .ite (fun _ => he) fun _ => ?_
      exact (sliceTo_like he.buf _).bind fun x y hxy => (sliceFrom_like he.buf _).bind fun u v huv => ⟨All2.append hxy huv, he.kill, rfl⟩
    · refine h.refresh hm fun e e' he => ?_
      unfold moveBackwardC
      rw [he.idx]
      exact .ite (fun _ => he) fun _ => ⟨he.buf, he.kill, rfl⟩
    · refine h.refresh hm fun e e' he => ?_
      unfold moveForwardC
      rw [he.idx, he.buf.length]
      exact .ite (fun _ => he) fun _ => ⟨he.buf, he.kill, rfl⟩
    · exact h.refresh hm fun e e' he => ⟨he.buf, he.kill, rfl⟩
    · exact h.refresh hm fun e e' he => ⟨he.buf, he.kill, he.buf.length⟩
    · exact h.refresh hm fun e e' he => kill_like he
    · refine h.refresh hm fun e e' he => ?_
      unfold killFrontC
      rw [he.idx]
      refine .ite (fun _ => he) fun _ => ?_
      exact (sliceTo_like he.buf _).bind fun x y hxy => (sliceFrom_like he.buf _).bind fun u v huv => ⟨huv, hxy, rfl⟩
    · show RRel _ (r.yank U d) (s.yank U d)
      unfold RB.yank
      rw [h.ed.kill.length]
      refine .ite (fun _ => h) fun _ => h.refresh hm fun e e' he => ?_
      unfold yankC
      rw [he.idx]
      refine (sliceTo_like he.buf _).bind fun x y hxy => (sliceFrom_like he.buf _).bind fun u v huv => ?_
      exact ⟨All2.append (All2.append hxy he.kill) huv, he.kill, by simp [he.idx, he.kill.length]⟩
    · show RRel _ (r.deleteWord U d) (s.deleteWord U d)
      unfold RB.deleteWord
      rw [h.ed.buf.length, h.ed.idx]
      refine .ite (fun _ => h) fun _ => ?_
      dsimp only
      rw [skipBreaks_like (All2.drop s.idx h.ed.buf), wordStart_like h.ed.buf]
      split
      · refine (slice_like h.ed.buf _ _).bind fun k k' hk => ?_
        refine Veil.refresh hm (r := { r with toEd := r.toEd.pushKill k }) (s := { s with toEd := s.toEd.pushKill k' })
          { h with ed := ⟨h.ed.buf, hk, h.ed.idx⟩ } fun e e' he => ?_
        unfold deleteWordC
        rw [he.idx]
        exact (sliceTo_like he.buf _).bind fun x y hxy => (sliceFrom_like he.buf _).bind fun u v huv => ⟨All2.append hxy huv, he.kill, rfl⟩
      · exact h.refresh hm fun e e' he => kill_like he
    · refine h.refresh hm fun e e' he => ?_
      unfold backEscapeWordC
      rw [he.idx]
      refine .ite (fun _ => he) fun _ => ?_
      rw [scanDown_like he.buf]
      refine RRel.bind (P := fun a b => a = b) ?_ fun a b hab => ?_
      · cases scanDown e'.buf (e'.idx - 1) <;> rfl
      · subst hab
        cases a with
        | none => exact ⟨.nil, he.kill, rfl⟩
        | some i =>
          exact (slice_like he.buf _ _).bind fun k k' hk => (sliceTo_like he.buf _).bind fun x y hxy =>
            (sliceFrom_like he.buf _).bind fun u v huv => ⟨All2.append hxy huv, hk, rfl⟩
    · refine h.refresh hm fun e e' he => ?_
      unfold moveToPrevWordC
      rw [he.idx]
      refine .ite (fun _ => he) fun _ => ?_
      rw [scanDown_like he.buf]
      refine RRel.bind (P := fun a b => a = b) ?_ fun a b hab => ?_
      · cases scanDown e'.buf (e'.idx - 1) <;> rfl
      · subst hab
        cases a with
        | none => exact ⟨he.buf, he.kill, rfl⟩
        | some i => exact ⟨he.buf, he.kill, rfl⟩
    · refine h.refresh hm fun e e' he => ?_
      unfold moveToNextWordC
      rw [he.idx, he.buf.length, wordStart_like he.buf]
      split
      · exact ⟨he.buf, he.kill, rfl⟩
      · exact ⟨he.buf, he.kill, rfl⟩
    · refine h.refresh hm fun e e' he => ?_
      have key : ∀ a b : Ed, EVeil U a b → RRel (EVeil U)
          (do let x ← getR a.buf a.idx; let y ← getR a.buf (a.idx - 1); .ok { a with buf := (a.buf.set a.idx y).set (a.idx - 1) x, idx := a.idx + 1 })
          (do let x ← getR b.buf b.idx; let y ← getR b.buf (b.idx - 1); .ok { b with buf := (b.buf.set b.idx y).set (b.idx - 1) x, idx := b.idx + 1 }) := by
        intro a b hab
        rw [hab.idx]
        exact (getR_like hab.buf _).bind fun x x' hx => (getR_like hab.buf _).bind fun y y' hy => ⟨(hab.buf.set hy _).set hx _, hab.kill, rfl⟩
      unfold transposeC
      dsimp only
      obtain ⟨q1, q2, q3⟩ := he
      obtain ⟨b, i, l, k⟩ := e
      obtain ⟨b', i', l', k'⟩ := e'
      dsimp only at q1 q2 q3 ⊢
      subst q3
      rw [q1.length]
      by_cases h1 : b'.length = 1
      · simp only [h1, if_true]
        rw [if_pos (by rw [q1.length]; omega), if_pos (by omega)]
        exact ⟨q1, q2, rfl⟩
      · simp only [h1, if_false, q1.length]
        refine .ite (fun _ => ⟨q1, q2, rfl⟩) fun _ => ?_
        by_cases h2 : i = 0
        · simp only [h2, if_true]
          exact key ⟨b, 1, l, k⟩ ⟨b', 1, l', k'⟩ ⟨q1, q2, rfl⟩
        · simp only [h2, if_false]
          by_cases h3 : i ≥ b'.length
          · simp only [h3, if_true]
            exact key ⟨b, b'.length - 1, l, k⟩ ⟨b', b'.length - 1, l', k'⟩ ⟨q1, q2, rfl⟩
          · simp only [h3, if_false]
            exact key ⟨b, i, l, k⟩ ⟨b', i, l', k'⟩ ⟨q1, q2, rfl⟩

/-! ### The history -/

/-- Two histories whose entries differ only in the text. -/
structure HVeil (U : UTables) (h h' : Hist) : Prop where
  elems : ∀ i, (h.elems i).version = (h'.elems i).version ∧ Like U (h.elems i).source (h'.elems i).source ∧ Like U (h.elems i).tmp (h'.elems i).tmp
  next : h.next = h'.next
  order : h.order = h'.order
  ver : h.ver = h'.ver
  current : h.current = h'.current
  enable : h.enable = h'.enable
  fd : h.fd = h'.fd

/-- What is recorded does not depend on whether a line repeats the one before: nothing is recorded. -/
def Unrecorded (c : OCfg) (h : Hist) : Prop := c.noSave = true ∨ h.enable = false ∨ (c.h.limit ≤ 0 ∧ h.order.length ≤ 1)

namespace HVeil
variable {h h' : Hist}

theorem setItem (hh : HVeil U h h') (k : Nat) {it it' : Item} (h1 : it.version = it'.version) (h2 : Like U it.source it'.source) (h3 : Like U it.tmp it'.tmp) :
    HVeil U (h.setItem k it) (h'.setItem k it') := by
  refine { hh with elems := fun i => ?_ }
  unfold Hist.setItem
  dsimp only
  split
  · exact ⟨h1, h2, h3⟩
  · exact hh.elems i

theorem push (hh : HVeil U h h') {s t : List Rune} (hs : Like U s t) : HVeil U (h.push s) (h'.push t) := by
  have := hh.setItem h.next (it := ⟨s, 0, []⟩) (it' := ⟨t, 0, []⟩) rfl hs .nil
  unfold Hist.push
  rw [← hh.next]
  exact { this with next := rfl, order := by rw [hh.order], current := rfl }

theorem showItem (hh : HVeil U h h') (i : Nat) : Like U (h.showItem i) (h'.showItem i) := by
  unfold Hist.showItem
  rw [(hh.elems i).1, hh.ver]
  split
  · exact (hh.elems i).2.2
  · exact (hh.elems i).2.1

theorem compact (hh : HVeil U h h') (g : HCfg) : HVeil U (h.compact g) (h'.compact g) :=
  { hh with order := by unfold Hist.compact; rw [hh.order] }

theorem update (hh : HVeil U h h') (g : HCfg) {s t : List Rune} (hs : Like U s t) (b : Bool) : HVeil U (h.update g s b) (h'.update g t b) := by
  unfold Hist.update
  rw [← hh.current]
  split
  · exact (hh.push hs).compact g
  · next k _ =>
    cases b with
    | false => exact (hh.setItem k (it := ⟨(h.elems k).source, h.ver, s⟩) (it' := ⟨(h'.elems k).source, h'.ver, t⟩) hh.ver (hh.elems k).2.1 hs).compact g
    | true =>
      have := hh.setItem k (it := ⟨s, h.ver, (h.elems k).tmp⟩) (it' := ⟨t, h'.ver, (h'.elems k).tmp⟩) hh.ver hs (hh.elems k).2.2
      simp only [if_true]
      refine HVeil.compact ?_ g
      rw [show (Hist.setItem h k ⟨s, h.ver, (h.elems k).tmp⟩).fd = h.fd from rfl, show (Hist.setItem h' k ⟨t, h'.ver, (h'.elems k).tmp⟩).fd = h'.fd from rfl, hh.fd]
      split
      · exact { this with fd := rfl }
      · exact { this with fd := by first | rfl | exact hh.fd }

theorem revert (hh : HVeil U h h') : HVeil U h.revert h'.revert :=
  { hh with ver := by simp [Hist.revert, hh.ver], current := by simp [Hist.revert, Hist.back, hh.order] }

theorem cleanBack (hh : HVeil U h h') (b : Nat) : HVeil U (h.cleanBack b) (h'.cleanBack b) := by
  have h1 : HVeil U { h with current := some b } { h' with current := some b } := { hh with current := rfl }
  have := h1.setItem b (it := (h.elems b).clean) (it' := (h'.elems b).clean) (hh.elems b).1 .nil .nil
  exact { this with ver := by simp [Hist.cleanBack, hh.ver] }

theorem commit (hh : HVeil U h h') (g : HCfg) {s t : List Rune} (hs : Like U s t) : RRel (HVeil U) (h.commit g s) (h'.commit g t) := by
  have fin : ∀ {s t : List Rune} {h h' : Hist}, Like U s t → HVeil U h h' → HVeil U (Hist.push [] { h.update g s true with ver := (h.update g s true).ver + 1 })
      (Hist.push [] { h'.update g t true with ver := (h'.update g t true).ver + 1 }) := by
    intro s t h h' hs hh
    have := hh.update g hs true
    exact HVeil.push (h := { h.update g s true with ver := (h.update g s true).ver + 1 }) (h' := { h'.update g t true with ver := (h'.update g t true).ver + 1 })
      { this with ver := by simp [this.ver] } .nil
  unfold Hist.commit
  dsimp only
  rw [hh.current, show h.back = h'.back by unfold Hist.back; rw [hh.order]]
  split
  · split
    · rfl
    · next k _ =>
      exact fin (h := { h with current := h'.back }) (h' := { h' with current := h'.back }) (hh.elems k).2.2 { hh with current := rfl }
  · exact fin hs hh

theorem new (hh : HVeil U h h') {c : OCfg} (hq : Unrecorded c h) (hn : c.noSave = false) {s t : List Rune} (hs : Like U s t) :
    RRel (HVeil U) (h.new c.h s) (h'.new c.h t) := by
  have hen := hh.enable
  unfold Hist.new
  by_cases he : h.enable = false
  · rw [if_pos he, if_pos (c := h'.enable = false) (hen ▸ he)]; exact hh
  rw [if_neg he, if_neg (c := h'.enable = false) (hen ▸ he)]
  rcases hq with hq | hq | ⟨_, hq⟩
  · rw [hn] at hq; cases hq
  · exact (he hq).elim
  rw [show h.back = h'.back by unfold Hist.back; rw [hh.order], hs.length]
  split
  · by_cases ht : t.length = 0
    · rw [if_pos ht, if_pos ht]
      exact HVeil.commit (h := { h with current := none }) (h' := { h' with current := none }) { hh with current := rfl } c.h hs
    · rw [if_neg ht, if_neg ht]
      exact hh.commit c.h hs
  · next b _ =>
    have hr : ∀ (g : Hist) (x : List Rune), g.order.length ≤ 1 → g.repeatsNewest b x = false := by
      intro g x hg
      unfold Hist.repeatsNewest Hist.elemPrev
      match ho : g.order, hg with
      | [], _ => rfl
      | [a], _ =>
        have : (Hist.backChain b [a] []).head? = none := by
          unfold Hist.backChain
          split
          · rfl
          · rfl
        rw [this]
    rw [hr h s hq, hr h' t (by rw [← hh.order]; exact hq), if_neg Bool.false_ne_true, if_neg Bool.false_ne_true]
    exact .ite (fun _ => .ok (hh.cleanBack b)) fun _ => hh.commit c.h hs

end HVeil

theorem compactList_nil {limit : Int} (h : limit ≤ 0) : ∀ l : List Nat, Hist.compactList limit l = []
  | [] => rfl
  | a :: l => by
    unfold Hist.compactList
    rw [if_pos (by simp; omega)]
    exact compactList_nil h l

namespace Unrecorded
variable {c : OCfg} {h : Hist}

theorem update (hq : Unrecorded c h) (s : List Rune) (b : Bool) : Unrecorded c (h.update c.h s b) := by
  rcases hq with hq | hq | ⟨hq, _⟩
  · exact .inl hq
  · refine .inr (.inl ?_)
    unfold Hist.update
    split
    · exact hq
    · cases b with
      | false => exact hq
      | true => simp only [if_true]; split <;> exact hq
  · refine .inr (.inr ⟨hq, ?_⟩)
    unfold Hist.update
    split
    · simp [Hist.compact, compactList_nil hq]
    · simp [Hist.compact, compactList_nil hq]

theorem new (hq : Unrecorded c h) (hn : c.noSave = false) {s : List Rune} {h' : Hist} (e : h.new c.h s = .ok h') : Unrecorded c h' := by
  unfold Hist.new at e
  rcases hq with hq | hq | ⟨hq, ho⟩
  · rw [hn] at hq; cases hq
  · rw [if_pos hq] at e; cases e; exact .inr (.inl hq)
  have com : ∀ {g : Hist} {s : List Rune} {h' : Hist}, g.commit c.h s = .ok h' → Unrecorded c h' := by
    intro g s h' e
    have fin : ∀ (g : Hist) (s : List Rune), Unrecorded c (Hist.push [] { g.update c.h s true with ver := (g.update c.h s true).ver + 1 }) := by
      intro g s
      refine .inr (.inr ⟨hq, ?_⟩)
      have : (g.update c.h s true).order = [] := by
        unfold Hist.update
        split <;> simp [Hist.compact, compactList_nil hq]
      simp [Hist.push, this]
    unfold Hist.commit at e
    dsimp only at e
    split at e
    · split at e
      · cases e
      · cases e; exact fin _ _
    · cases e; exact fin _ _
  split at e
  · cases e; exact .inr (.inr ⟨hq, ho⟩)
  · split at e
    · exact com e
    · split at e
      · cases e; exact .inr (.inr ⟨hq, ho⟩)
      · split at e
        · cases e; exact .inr (.inr ⟨hq, ho⟩)
        · exact com e

end Unrecorded

/-! ### The loop -/

/-- Two keys that differ at most in the rune that is typed, and do not start a search. -/
def KeyLike (U : UTables) (k k' : Rune) : Prop := SameKey U k k' ∧ k ≠ CharBckSearch ∧ k ≠ CharFwdSearch

/-- Two states that look the same and will go on looking the same. -/
structure OVeil (c : OCfg) (o o' : Op) : Prop where
  rb : Veil c.U o.rb o'.rb
  hist : HVeil c.U o.hist o'.hist
  quiet : Unrecorded c o.hist
  smode : o.search.inMode = false ∧ o'.search.inMode = false
  cmode : o.comp.inComplete = false ∧ o'.comp.inComplete = false
  sel : o.comp.inSelect = false ∧ o'.comp.inSelect = false
  inp : All2 (KeyLike c.U) o.inp o'.inp
  gate : o.gate = o'.gate
  kick : o.kick = o'.kick
  events : All2 (SameEvent c.U) o.events o'.events
  stopped : o.stopped = o'.stopped

structure KVeil (c : OCfg) (k k' : Op.KeyRes) : Prop where
  op : OVeil c k.op k'.op
  update : k.update = k'.update

/-- What C97 assumes of the configuration: the mask is on, there is no completer, no vim mode, no filter, and the listener only observes. -/
structure Masked (c : OCfg) : Prop where
  mask : c.d.enableMask = true
  auto : c.auto = none
  vim : c.vim = false
  filter : c.filter = none
  observer : Op.Observer c

namespace Op
variable {c : OCfg} {o o' : Op}

theorem bell_veil (h : OVeil c o o') : OVeil c o.bell o'.bell := { h with rb := h.rb.write _ }
theorem kick_veil (h : OVeil c o o') : OVeil c o.kickRead o'.kickRead := { h with kick := rfl }
theorem event_veil (h : OVeil c o o') {e e' : Event} (he : SameEvent c.U e e') : OVeil c { o with events := o.events ++ [e] } { o' with events := o'.events ++ [e'] } :=
  { h with events := All2.append h.events (.cons he .nil) }

theorem edit_veil (hm : Masked c) (h : OVeil c o o') {k k' : Cmd} (hk : CmdLike c.U k k') : RRel (OVeil c) (o.edit c k) (o'.edit c k') :=
  (cmd_like hm.mask h.rb hk).bind fun _ _ hr => { h with rb := hr }

theorem refreshNil_veil (hm : Masked c) (h : OVeil c o o') : RRel (OVeil c) (o.refreshNil c) (o'.refreshNil c) :=
  RRel.bind (h.rb.refresh hm.mask fun _ _ he => he) fun _ _ hr => { h with rb := hr }

theorem clean_veil (h : OVeil c o o') : RRel (OVeil c) (o.clean c) (o'.clean c) :=
  RRel.bind h.rb.clean fun _ _ hr => { h with rb := hr }

theorem refresh_veil (hm : Masked c) (h : OVeil c o o') : RRel (OVeil c) (o.refresh c) (o'.refresh c) := by
  unfold refresh isReading
  rw [h.gate]
  exact .ite (fun _ => refreshNil_veil hm h) fun _ => h

theorem reset_veil (h : OVeil c o o') : OVeil c { o with rb := o.rb.reset.2 } { o' with rb := o'.rb.reset.2 } :=
  { h with rb := { h.rb with ed := ⟨.nil, h.rb.ed.kill, rfl⟩ } }

theorem updateHistory_veil (h : OVeil c o o') : OVeil c (o.updateHistory c) (o'.updateHistory c) :=
  { h with hist := h.hist.update c.h h.rb.ed.buf false, quiet := h.quiet.update _ _ }

theorem enter_tail {c : OCfg} {o o' : Op} {d d' : List Rune} (h : OVeil c o o') (hd : Like c.U d d') :
    RRel (KVeil c)
      (if c.noSave = false then (do
          let h ← Hist.new c.h d o.hist
          Except.ok { op := { o with events := o.events ++ [.line d], hist := h } })
        else Except.ok { op := { o with events := o.events ++ [.line d] }, update := false })
      (if c.noSave = false then (do
          let h ← Hist.new c.h d' o'.hist
          Except.ok { op := { o' with events := o'.events ++ [.line d'], hist := h } })
        else Except.ok { op := { o' with events := o'.events ++ [.line d'] }, update := false }) := by
  have h3 := event_veil h (.line hd)
  refine .ite (fun hn => ?_) fun _ => .ok ⟨h3, rfl⟩
  have hnew := h.hist.new h.quiet hn hd
  cases e1 : Hist.new c.h d o.hist with
  | error =>
    cases e2 : Hist.new c.h d' o'.hist with
    | error => rw [e1, e2] at hnew; exact hnew
    | ok => rw [e1, e2] at hnew; exact hnew.elim
  | ok a =>
    cases e2 : Hist.new c.h d' o'.hist with
    | error => rw [e1, e2] at hnew; exact hnew.elim
    | ok b =>
      rw [e1, e2] at hnew
      exact ⟨{ h3 with hist := hnew, quiet := h.quiet.new hn e1 }, rfl⟩

theorem keyEnter_veil (hm : Masked c) (h : OVeil c o o') : RRel (KVeil c) (o.keyEnter c) (o'.keyEnter c) := by
  unfold keyEnter
  rw [h.smode.1, h.smode.2, if_neg Bool.false_ne_true, if_neg Bool.false_ne_true]
  refine (edit_veil hm h (.same (by simp))).bind fun o1 o1' h1 => ?_
  dsimp only
  refine .ite (fun _ => ?_) fun _ => ?_
  · refine (edit_veil hm h1 (.insert (.refl _))).bind fun o2 o2' h2 => ?_
    have hl : o2.rb.reset.1.length = o2'.rb.reset.1.length := h2.rb.ed.buf.length
    rw [hl]
    exact .ite (fun _ => .err) fun _ => enter_tail (reset_veil h2) (All2.take _ h2.rb.ed.buf)
  · exact (clean_veil h1).bind fun o2 o2' h2 => enter_tail (reset_veil h2) h2.rb.ed.buf

theorem keyPrev_veil (hm : Masked c) (h : OVeil c o o') : RRel (KVeil c) (o.keyPrev c) (o'.keyPrev c) := by
  have hp : (o.hist.prev = (none, o.hist) ∧ o'.hist.prev = (none, o'.hist)) ∨ ∃ p, o.hist.prev = (some (o.hist.showItem p), { o.hist with current := some p }) ∧
      o'.hist.prev = (some (o'.hist.showItem p), { o'.hist with current := some p }) := by
    have hc := h.hist.current
    unfold Hist.prev Hist.elemPrev
    cases e : o.hist.current with
    | none => rw [← hc, e]; exact .inl ⟨rfl, rfl⟩
    | some k =>
      rw [← hc, e]
      dsimp only
      rw [← h.hist.order]
      cases e1 : (Hist.backChain k o.hist.order []).head? with
      | none => exact .inl ⟨rfl, rfl⟩
      | some p => exact .inr ⟨p, rfl, rfl⟩
  unfold keyPrev
  rcases hp with ⟨e1, e2⟩ | ⟨p, e1, e2⟩
  · rw [e1, e2]
    exact ⟨bell_veil h, rfl⟩
  · rw [e1, e2]
    refine (edit_veil hm (o := { o with hist := { o.hist with current := some p } }) (o' := { o' with hist := { o'.hist with current := some p } })
      { h with hist := { h.hist with current := rfl } } (.set (h.hist.showItem p))).bind fun _ _ h1 => ?_
    exact ⟨h1, rfl⟩

theorem keyNext_veil (hm : Masked c) (h : OVeil c o o') : RRel (KVeil c) (o.keyNext c) (o'.keyNext c) := by
  have hp : (o.hist.nextLine = (none, o.hist) ∧ o'.hist.nextLine = (none, o'.hist)) ∨ ∃ p, o.hist.nextLine = (some (o.hist.showItem p), { o.hist with current := some p }) ∧
      o'.hist.nextLine = (some (o'.hist.showItem p), { o'.hist with current := some p }) := by
    have hc := h.hist.current
    unfold Hist.nextLine Hist.elemNext
    cases e : o.hist.current with
    | none => rw [← hc, e]; exact .inl ⟨rfl, rfl⟩
    | some k =>
      rw [← hc, e]
      dsimp only
      rw [← h.hist.order]
      cases e1 : (Hist.fwdChain k o.hist.order).head? with
      | none => exact .inl ⟨rfl, rfl⟩
      | some p => exact .inr ⟨p, rfl, rfl⟩
  unfold keyNext
  rcases hp with ⟨e1, e2⟩ | ⟨p, e1, e2⟩
  · rw [e1, e2]
    exact ⟨bell_veil h, rfl⟩
  · rw [e1, e2]
    refine (edit_veil hm (o := { o with hist := { o.hist with current := some p } }) (o' := { o' with hist := { o'.hist with current := some p } })
      { h with hist := { h.hist with current := rfl } } (.set (h.hist.showItem p))).bind fun _ _ h1 => ?_
    exact ⟨h1, rfl⟩

theorem keyDelete_veil (hm : Masked c) (h : OVeil c o o') : RRel (KVeil c) (o.keyDelete c) (o'.keyDelete c) := by
  unfold keyDelete isNormalMode
  rw [h.rb.ed.buf.length, h.smode.1, h.smode.2, h.cmode.1, h.cmode.2]
  refine .ite (fun _ => ?_) fun _ => ?_
  · refine RRel.bind (h.rb.delete hm.mask) fun p q hpq => ?_
    have h1 : OVeil c { o.kickRead with rb := p.2 } { o'.kickRead with rb := q.2 } := { kick_veil h with rb := hpq.2 }
    dsimp only
    rw [hpq.1]
    exact .ite (fun _ => ⟨h1, rfl⟩) fun _ => ⟨bell_veil h1, rfl⟩
  · have tail : ∀ {o1 o1' : Op}, OVeil c o1 o1' → OVeil c { o1 with rb := o1.rb.reset.2, hist := o1.hist.revert, events := o1.events ++ [.eof] }
        { o1' with rb := o1'.rb.reset.2, hist := o1'.hist.revert, events := o1'.events ++ [.eof] } := fun h1 =>
      { event_veil (reset_veil h1) .eof with hist := h1.hist.revert, quiet := h1.quiet }
    by_cases hu : c.unique = false
    · rw [if_pos hu, if_pos hu]
      refine (edit_veil hm h (.insert (.refl _))).bind fun o1 o1' h1 => ?_
      simp only [hu, Bool.false_eq_true, if_false]
      exact ⟨tail h1, rfl⟩
    · rw [if_neg hu, if_neg hu]
      dsimp only
      simp only [Bool.not_eq_false] at hu
      simp only [hu, if_true]
      exact (clean_veil (tail h)).bind fun _ _ h3 => ⟨h3, rfl⟩

theorem keyInterrupt_veil (hm : Masked c) (h : OVeil c o o') : RRel (KVeil c) (o.keyInterrupt c) (o'.keyInterrupt c) := by
  unfold keyInterrupt
  rw [h.smode.1, h.smode.2, h.cmode.1, h.cmode.2, if_neg Bool.false_ne_true, if_neg Bool.false_ne_true, if_neg Bool.false_ne_true, if_neg Bool.false_ne_true]
  refine (edit_veil hm h (.same (by simp))).bind fun o1 o1' h1 => (refreshNil_veil hm h1).bind fun o2 o2' h2 => ?_
  have tail : ∀ {o3 o3' : Op} {l l' : List Rune}, OVeil c o3 o3' → Like c.U l l' →
      OVeil c { o3 with rb := o3.rb.reset.2, hist := o3.hist.revert, events := o3.events ++ [.interrupt l] }
        { o3' with rb := o3'.rb.reset.2, hist := o3'.hist.revert, events := o3'.events ++ [.interrupt l'] } := fun h3 hl =>
    { event_veil (reset_veil h3) (.interrupt hl) with hist := h3.hist.revert, quiet := h3.quiet }
  by_cases hu : c.unique = false
  · simp only [hu, if_true]
    refine (edit_veil hm h2 (.insert (.refl _))).bind fun o3 o3' h3 => ?_
    have hl : o3.rb.reset.1.length = o3'.rb.reset.1.length := h3.rb.ed.buf.length
    rw [hl]
    refine RRel.bind (P := Like c.U) (.ite (fun _ => .err) fun _ => .ok (All2.take _ h3.rb.ed.buf)) fun _ _ hx => ⟨tail h3 hx, rfl⟩
  · simp only [hu, if_false]
    exact ⟨tail h2 h2.rb.ed.buf, rfl⟩

theorem keyText_veil (hm : Masked c) (h : OVeil c o o') {r r' : Rune} (hr : LooksLike c.U r r') : RRel (KVeil c) (o.keyText c r) (o'.keyText c r') := by
  unfold keyText
  rw [h.smode.1, h.smode.2, if_neg Bool.false_ne_true, if_neg Bool.false_ne_true]
  refine (edit_veil hm h (.insert (.cons hr .nil))).bind fun o1 o1' h1 => ?_
  rw [h1.cmode.1, h1.cmode.2]
  exact ⟨h1, rfl⟩

theorem simpleKey_like {r : Rune} {k : Cmd} (h : simpleKey r = some k) : CmdLike U k k := by
  unfold simpleKey at h
  have pick : ∀ {p : Prop} [Decidable p] {x : Cmd} {y : Option Cmd}, (if p then some x else y) = some k → x = k ∨ y = some k := by
    intro p _ x y e
    split at e
    · exact .inl (Option.some.inj e)
    · exact .inr e
  iterate 12
    rcases pick h with rfl | h
    · exact .same (by simp)
  cases h

theorem key_veil (hm : Masked c) (h : OVeil c o o') {r r' : Rune} (hr : KeyLike c.U r r') : RRel (KVeil c) (o.key c r) (o'.key c r') := by
  obtain ⟨hr | ⟨t1, t2, hr⟩, n1, n2⟩ := hr
  · subst hr
    unfold key
    split
    · next k hk => exact (edit_veil hm h (simpleKey_like hk)).bind fun _ _ h1 => ⟨h1, rfl⟩
    · refine .ite (fun _ => ?_) fun _ => .ite (fun _ => ?_) fun _ => ?_
      · unfold keyBell
        simp only [h.smode.1, h.smode.2, h.cmode.1, h.cmode.2, Bool.false_eq_true, if_false, R.bind_ok]
        exact ⟨h, rfl⟩
      · unfold keyTab
        rw [hm.auto]
        exact ⟨bell_veil h, rfl⟩
      rw [if_neg n1, if_neg n2, if_neg n1, if_neg n2]
      refine .ite (fun _ => ?_) fun _ => .ite (fun _ => ?_) fun _ => .ite (fun _ => ?_) fun _ => .ite (fun _ => keyEnter_veil hm h) fun _ =>
        .ite (fun _ => keyPrev_veil hm h) fun _ => .ite (fun _ => keyNext_veil hm h) fun _ => .ite (fun _ => keyDelete_veil hm h) fun _ =>
        .ite (fun _ => keyInterrupt_veil hm h) fun _ => keyText_veil hm h (LooksLike.refl _)
      · unfold keyBackspace
        rw [h.smode.1, h.smode.2, h.rb.ed.buf.length, if_neg Bool.false_ne_true, if_neg Bool.false_ne_true]
        refine .ite (fun _ => ⟨bell_veil h, rfl⟩) fun _ => (edit_veil hm h (.same (by simp))).bind fun o1 o1' h1 => ?_
        rw [h1.cmode.1, h1.cmode.2]
        exact ⟨h1, rfl⟩
      · exact (clean_veil h).bind fun _ _ h1 => (refresh_veil hm h1).bind fun _ _ h2 => ⟨h2, rfl⟩
      · exact (refresh_veil hm (o := { o with rb := o.rb.write [.home] }) (o' := { o' with rb := o'.rb.write [.home] }) { h with rb := h.rb.write _ }).bind
          fun _ _ h2 => ⟨h2, rfl⟩
  · rw [key_text t1.1 t1.2, key_text t2.1 t2.2]
    exact keyText_veil hm h hr

theorem dispatch_veil (hm : Masked c) (h : OVeil c o o') {r r' : Rune} (hr : KeyLike c.U r r') : RRel (OVeil c) (o.dispatch c r) (o'.dispatch c r') := by
  unfold dispatch
  refine (key_veil hm h hr).bind fun k k' hk => ?_
  rw [listen_observer hm.observer, listen_observer hm.observer]
  simp only [R.bind_ok]
  unfold finish settle
  rw [hk.op.smode.1, hk.op.smode.2, hk.op.cmode.1, hk.op.cmode.2, if_neg (by simp), if_neg (by simp), if_neg (by simp), if_neg (by simp)]
  simp only [R.bind_ok]
  rw [hk.op.smode.1, hk.op.smode.2, hk.update]
  exact .ite (fun _ => updateHistory_veil hk.op) fun _ => hk.op

theorem viaMenu_veil (hm : Masked c) (h : OVeil c o o') {r r' : Rune} (hr : KeyLike c.U r r') : RRel (OVeil c) (o.viaMenu c r) (o'.viaMenu c r') := by
  unfold viaMenu viaVim
  rw [h.sel.1, h.sel.2, hm.vim]
  exact dispatch_veil hm h hr

theorem handle_veil (hm : Masked c) (h : OVeil c o o') {r r' : Rune} (hr : KeyLike c.U r r') : RRel (OVeil c) (o.handle c r) (o'.handle c r') := by
  unfold handle
  have h0 : (r = 0) = (r' = 0) := by
    rcases hr.1 with e | ⟨t1, t2, _⟩
    · rw [e]
    · unfold TypedKey at t1 t2
      exact propext ⟨fun _ => by omega, fun _ => by omega⟩
  simp only [h0]
  refine .ite (fun _ => ?_) fun _ => viaMenu_veil hm h hr
  rw [h.rb.ed.buf.length]
  refine .ite (fun _ => (clean_veil h).bind fun _ _ h1 => ?_) fun _ => viaMenu_veil hm h ⟨.inl rfl, by decide, by decide⟩
  exact { event_veil h1 .eof with stopped := rfl }

theorem iter_veil (hm : Masked c) (h : OVeil c o o') : RRel (OVeil c) (o.iter c) (o'.iter c) := by
  unfold iter
  refine RRel.bind (P := fun p q => KeyLike c.U p.1 q.1 ∧ OVeil c p.2 q.2) ?_ fun p q hpq => ?_
  · unfold readRune
    rw [h.gate, h.kick]
    refine .ite (fun _ => .err) fun _ => ?_
    have hi := h.inp
    dsimp only
    cases e : o.inp with
    | nil =>
      rw [e] at hi
      cases e' : o'.inp with
      | nil =>
        have h0 : (0 : Rune) ≠ CharBckSearch ∧ (0 : Rune) ≠ CharFwdSearch := ⟨by decide, by decide⟩
        exact ⟨⟨.inl rfl, h0.1, h0.2⟩, { h with gate := rfl, kick := rfl, inp := .nil }⟩
      | cons => rw [e'] at hi; cases hi
    | cons a l =>
      rw [e] at hi
      cases e' : o'.inp with
      | nil => rw [e'] at hi; cases hi
      | cons b m =>
        rw [e'] at hi
        cases hi with
        | cons hab hl =>
          refine ⟨hab, { h with inp := hl, kick := rfl, gate := ?_ }⟩
          show stopKey a = stopKey b
          rcases hab.1 with rfl | ⟨t1, t2, _⟩
          · rfl
          · have st : ∀ x, TypedKey x → stopKey x = false := by
              intro x hx
              unfold TypedKey at hx
              simp only [stopKey, CharInterrupt, CharEnter, CharCtrlJ, CharDelete, Bool.or_eq_false_iff, beq_eq_false_iff_ne, ne_eq]
              omega
            rw [st a t1, st b t2]
  · unfold accept
    rw [hm.filter]
    exact handle_veil hm hpq.2 hpq.1

theorem iters_veil (hm : Masked c) : ∀ (n : Nat) {o o' : Op}, OVeil c o o' → RRel (OVeil c) (o.iters c n) (o'.iters c n)
  | 0, _, _, h => h
  | n + 1, o, o', h => by
    unfold iters
    rw [h.stopped]
    exact .ite (fun _ => h) fun _ => (iter_veil hm h).bind fun _ _ h1 => iters_veil hm n h1

theorem await_veil (hm : Masked c) : ∀ (n : Nat) {o o' : Op}, OVeil c o o' →
    RRel (fun p q => SameEvent c.U p.1 q.1 ∧ OVeil c p.2 q.2) (o.await c n) (o'.await c n) := by
  intro n
  induction n with
  | zero =>
    intro o o' h
    unfold await
    have he := h.events
    cases e : o.events with
    | nil =>
      cases e' : o'.events with
      | nil => rfl
      | cons => rw [e, e'] at he; cases he
    | cons a l =>
      cases e' : o'.events with
      | nil => rw [e, e'] at he; cases he
      | cons b m =>
        rw [e, e'] at he
        cases he with
        | cons hab hl => exact ⟨hab, { h with events := hl }⟩
  | succ n ih =>
    intro o o' h
    unfold await
    have he := h.events
    cases e : o.events with
    | nil =>
      cases e' : o'.events with
      | nil =>
        dsimp only
        rw [h.stopped]
        exact .ite (fun _ => .err) fun _ => (iter_veil hm h).bind fun _ _ h1 => ih h1
      | cons => rw [e, e'] at he; cases he
    | cons a l =>
      cases e' : o'.events with
      | nil => rw [e, e'] at he; cases he
      | cons b m =>
        rw [e, e'] at he
        cases he with
        | cons hab hl => exact ⟨hab, { h with events := hl }⟩

theorem readline_veil (hm : Masked c) (fuel : Nat) (h : OVeil c o o') :
    RRel (fun p q => SameEvent c.U p.1 q.1 ∧ OVeil c p.2 q.2) (o.readline c fuel) (o'.readline c fuel) :=
  (refreshNil_veil hm h).bind fun _ _ h1 => await_veil hm fuel (kick_veil h1)

end Op
end RL
