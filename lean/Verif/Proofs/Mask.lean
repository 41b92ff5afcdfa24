import Verif.Spec.Mask
import Verif.Proofs.Edit
/-! Lemmas for C18. -/

namespace RL
open Spec RB Ed

section All2
variable {α β : Type} {P : α → β → Prop}

theorem All2.append {a a' : List α} {b b' : List β} (h : All2 P a b) (h' : All2 P a' b') : All2 P (a ++ a') (b ++ b') := by
  induction h with
  | nil => exact h'
  | cons h1 _ ih => exact .cons h1 ih

theorem All2.take {a : List α} {b : List β} (n : Nat) (h : All2 P a b) : All2 P (a.take n) (b.take n) := by
  induction h generalizing n with
  | nil => simp; exact .nil
  | cons h1 _ ih =>
    cases n with
    | zero => exact .nil
    | succ n => exact .cons h1 (ih n)

theorem All2.drop {a : List α} {b : List β} (n : Nat) (h : All2 P a b) : All2 P (a.drop n) (b.drop n) := by
  induction h generalizing n with
  | nil => simp; exact .nil
  | cons h1 h2 ih =>
    cases n with
    | zero => exact .cons h1 h2
    | succ n => exact ih n

theorem All2.getElem {a : List α} {b : List β} (h : All2 P a b) (i : Nat) (ha : i < a.length) (hb : i < b.length) :
    P a[i] b[i] := by
  induction h generalizing i with
  | nil => simp at ha
  | cons h1 _ ih =>
    cases i with
    | zero => exact h1
    | succ i => exact ih i (by simpa using ha) (by simpa using hb)

end All2

variable {U : UTables} {d : DCfg}

theorem SameShape.width {s t : List Rune} (h : SameShape U s t) : widthAll U s = widthAll U t := by
  unfold SameShape at h
  induction h with
  | nil => rfl
  | cons h1 _ ih => simp [widthAll, h1.1, ih]

theorem splitGo_shape (width cur : Int) {acc acc' s t : List Rune} (ha : SameShape U acc acc') (h : SameShape U s t) :
    All2 (SameShape U) (splitGo U width cur acc s) (splitGo U width cur acc' t) := by
  unfold SameShape at h
  induction h generalizing cur acc acc' with
  | nil => exact .cons ha .nil
  | cons h1 _ ih =>
    simp only [splitGo, h1.1]
    split
    · exact .cons (All2.append ha (.cons h1 .nil)) (ih _ .nil)
    · exact ih _ (All2.append ha (.cons h1 .nil))

theorem All2.getLast {α β : Type} {P : α → β → Prop} {a : List α} {b : List β} (h : All2 P a b) :
    (a.getLast? = none ∧ b.getLast? = none) ∨ ∃ x y, a.getLast? = some x ∧ b.getLast? = some y ∧ P x y := by
  induction h with
  | nil => exact .inl ⟨rfl, rfl⟩
  | @cons x y as bs h1 h2 ih =>
    cases h2 with
    | nil => exact .inr ⟨x, y, rfl, rfl, h1⟩
    | cons h3 h4 =>
      rcases ih with ⟨h5, _⟩ | ⟨u, v, h5, h6, h7⟩
      · simp at h5
      · exact .inr ⟨u, v, by simpa using h5, by simpa using h6, h7⟩

/-- Two buffers that must look the same. -/
structure Alike (U : UTables) (r s : RB) : Prop where
  buf : SameShape U r.buf s.buf
  kill : SameShape U r.lastKill s.lastKill
  idx : r.idx = s.idx
  prompt : r.prompt = s.prompt
  hadClean : r.hadClean = s.hadClean
  interactive : r.interactive = s.interactive
  width : r.width = s.width
  out : r.out = s.out

theorem Alike.promptLen {r s : RB} (h : Alike U r s) : r.promptLen U = s.promptLen U := by
  unfold RB.promptLen; rw [h.prompt]

theorem Alike.bsSeq {r s : RB} (h : Alike U r s) : r.getBackspaceSequence U = s.getBackspaceSequence U := by
  have hl := forall2_length h.buf
  simp only [getBackspaceSequence, h.promptLen, SameShape.width h.buf, h.width, h.idx, hl]

theorem Alike.edge {r s : RB} (h : Alike U r s) {b : Bool} : r.isInLineEdge U b = s.isInLineEdge U b := by
  unfold isInLineEdge getSplitByLine
  split
  · rfl
  rw [h.promptLen, h.width]
  cases hp : s.promptLen U with
  | error => rfl
  | ok p =>
    simp only [R.bind_ok]
    rcases All2.getLast (splitGo_shape (U := U) s.width p (acc := []) (acc' := []) .nil h.buf) with ⟨h1, h2⟩ | ⟨x, y, h1, h2, h3⟩
    · rw [show splitByLine U p s.width r.buf = splitGo U s.width p [] r.buf from rfl,
        show splitByLine U p s.width s.buf = splitGo U s.width p [] s.buf from rfl, h1, h2]
    · rw [show splitByLine U p s.width r.buf = splitGo U s.width p [] r.buf from rfl,
        show splitByLine U p s.width s.buf = splitGo U s.width p [] s.buf from rfl, h1, h2]
      simp [forall2_length h3]

theorem Alike.output {r s : RB} (hm : d.enableMask = true) (h : Alike U r s) : r.output U d = s.output U d := by
  have hl := forall2_length h.buf
  unfold RB.output
  rw [h.prompt, h.bsSeq, h.idx, hl, h.edge]
  by_cases h0 : s.buf.length > 0
  · have h1 : s.buf.length - 1 < r.buf.length := by omega
    have h2 : s.buf.length - 1 < s.buf.length := by omega
    have h3 := (All2.getElem h.buf _ h1 h2).2
    simp only [hm, h0, and_self, if_true, getR_ok h1, getR_ok h2, R.bind_ok, h3]
  · have e1 : s.buf = [] := by simpa using h0
    have e2 : r.buf = [] := by
      rw [e1] at hl; simpa using hl
    rw [e1, e2]

theorem Alike.idxLine {r s : RB} (h : Alike U r s) (w : Int) : r.idxLine U w = s.idxLine U w := by
  have hl := forall2_length h.buf
  unfold RB.idxLine getSplitByLine
  split
  · rfl
  · unfold sliceTo
    rw [hl, h.idx]
    split
    · simp only [R.bind_ok]
      have hsp : ∀ p : Nat, (splitByLine U p r.width (r.buf.take s.idx)).length =
          (splitByLine U p s.width (s.buf.take s.idx)).length := by
        intro p
        rw [h.width]
        exact forall2_length (splitGo_shape (U := U) s.width p (acc := []) (acc' := []) .nil (All2.take _ h.buf))
      have e1 : RB.promptLen U r = RB.promptLen U s := h.promptLen
      rw [e1]
      cases RB.promptLen U s with
      | error => rfl
      | ok p => simp [hsp p]
    · rfl

theorem Alike.cleanOutput {r s : RB} (h : Alike U r s) (l : Int) : r.cleanOutput U l = s.cleanOutput U l := by
  have hl := forall2_length h.buf
  unfold RB.cleanOutput
  rw [h.width, h.promptLen, hl]

/-- Both computations fail in the same way or return related values. -/
def RRel {α β} (P : α → β → Prop) : R α → R β → Prop
  | .ok a, .ok b => P a b
  | .error e, .error e' => e = e'
  | _, _ => False

theorem Alike.clean {r s : RB} (h : Alike U r s) : RRel (Alike U) (r.clean U) (s.clean U) := by
  have h1 := h.idxLine s.width
  obtain ⟨re, rp, rh, ri, rw', ro⟩ := r
  obtain ⟨se, sp, sh, si, sw, so⟩ := s
  obtain ⟨hb, hk, hi, e1, e2, e3, e4, e5⟩ := h
  dsimp only at e1 e2 e3 e4 e5 hb hk hi h1
  subst e1 e2 e3 e4 e5
  unfold RB.clean
  dsimp only
  rw [h1]
  cases RB.idxLine U { toEd := se, prompt := rp, hadClean := rh, interactive := ri, width := rw', out := ro } rw' with
  | error => rfl
  | ok l =>
    simp only [R.bind_ok]
    have h' : Alike U { toEd := re, prompt := rp, hadClean := true, interactive := ri, width := rw', out := ro }
      { toEd := se, prompt := rp, hadClean := true, interactive := ri, width := rw', out := ro } :=
        ⟨hb, hk, hi, rfl, rfl, rfl, rfl, rfl⟩
    split
    · exact ⟨hb, hk, hi, rfl, rfl, rfl, rfl, rfl⟩
    · rw [h'.cleanOutput]
      cases RB.cleanOutput U { toEd := se, prompt := rp, hadClean := true, interactive := ri, width := rw', out := ro } l with
      | error => rfl
      | ok o => exact ⟨hb, hk, hi, rfl, rfl, rfl, rfl, rfl⟩

theorem Alike.print {r s : RB} (hm : d.enableMask = true) (h : Alike U r s) : RRel (Alike U) (r.print U d) (s.print U d) := by
  unfold RB.print
  rw [h.output hm]
  cases s.output U d with
  | error => rfl
  | ok o => exact { h with hadClean := rfl, out := by simp [RB.write, h.out] }

/-- Editing fields of the same shape. -/
structure EAlike (U : UTables) (e e' : Ed) : Prop where
  buf : SameShape U e.buf e'.buf
  kill : SameShape U e.lastKill e'.lastKill
  idx : e.idx = e'.idx

theorem Alike.refresh {r s : RB} (hm : d.enableMask = true) (h : Alike U r s) {f g : Ed → R Ed}
    (hfg : ∀ e e' : Ed, EAlike U e e' → RRel (EAlike U) (f e) (g e')) :
    RRel (Alike U) (r.refresh U d f) (s.refresh U d g) := by
  unfold RB.refresh
  by_cases hint : s.interactive = true
  rotate_left
  · have hint' : ¬ r.interactive = true := by rw [h.interactive]; exact hint
    rw [if_pos hint, if_pos hint']
    have := hfg r.toEd s.toEd ⟨h.buf, h.kill, h.idx⟩
    cases hf : f r.toEd with
    | error =>
      cases hg : g s.toEd with
      | error => rw [hf, hg] at this; exact this
      | ok => rw [hf, hg] at this; exact this.elim
    | ok e =>
      cases hg : g s.toEd with
      | error => rw [hf, hg] at this; exact this.elim
      | ok e' =>
        rw [hf, hg] at this
        exact { h with buf := this.buf, kill := this.kill, idx := this.idx }
  · have hint' : r.interactive = true := by rw [h.interactive]; exact hint
    rw [if_neg (not_not_intro hint), if_neg (not_not_intro hint')]
    have hc := h.clean
    cases hr : r.clean U with
    | error =>
      cases hs : s.clean U with
      | error => rw [hr, hs] at hc; exact hc
      | ok => rw [hr, hs] at hc; exact hc.elim
    | ok r1 =>
      cases hs : s.clean U with
      | error => rw [hr, hs] at hc; exact hc.elim
      | ok s1 =>
        rw [hr, hs] at hc
        have h1 : Alike U r1 s1 := hc
        simp only [R.bind_ok]
        have := hfg r1.toEd s1.toEd ⟨h1.buf, h1.kill, h1.idx⟩
        cases hf : f r1.toEd with
        | error =>
          cases hg : g s1.toEd with
          | error => rw [hf, hg] at this; exact this
          | ok => rw [hf, hg] at this; exact this.elim
        | ok e =>
          cases hg : g s1.toEd with
          | error => rw [hf, hg] at this; exact this.elim
          | ok e' =>
            rw [hf, hg] at this
            exact Alike.print hm { h1 with buf := this.buf, kill := this.kill, idx := this.idx }

theorem refreshV_snd (r : RB) (f : Ed → R (Bool × Ed)) :
    (·.2) <$> r.refreshV U d f = r.refresh U d (fun e => (·.2) <$> f e) := by
  unfold RB.refreshV RB.refresh
  split
  · dsimp only
    cases f r.toEd <;> rfl
  · cases r.clean U with
    | error => rfl
    | ok r1 =>
      simp only [R.bind_ok]
      cases f r1.toEd with
      | error => rfl
      | ok v =>
        obtain ⟨a, e⟩ := v
        simp only [R.bind_ok, R.map_ok]
        cases RB.print U d { r1 with toEd := e } <;> rfl

theorem sliceTo_rel {s t : List Rune} (h : SameShape U s t) (n : Nat) : RRel (SameShape U) (sliceTo s n) (sliceTo t n) := by
  unfold sliceTo
  rw [forall2_length h]
  split
  · exact All2.take n h
  · rfl

theorem sliceFrom_rel {s t : List Rune} (h : SameShape U s t) (n : Nat) :
    RRel (SameShape U) (sliceFrom s n) (sliceFrom t n) := by
  unfold sliceFrom
  rw [forall2_length h]
  split
  · exact All2.drop n h
  · rfl

theorem slice_rel {s t : List Rune} (h : SameShape U s t) (n m : Nat) :
    RRel (SameShape U) (slice s n m) (slice t n m) := by
  unfold slice
  rw [forall2_length h]
  split
  · exact All2.drop n (All2.take m h)
  · rfl

theorem RRel.bind {α β γ δ} {P : α → β → Prop} {Q : γ → δ → Prop} {x : R α} {y : R β} {f : α → R γ} {g : β → R δ}
    (h : RRel P x y) (hfg : ∀ a b, P a b → RRel Q (f a) (g b)) : RRel Q (x >>= f) (y >>= g) := by
  cases x with
  | error =>
    cases y with
    | error => exact h
    | ok => exact h.elim
  | ok a =>
    cases y with
    | error => exact h.elim
    | ok b => exact hfg a b h

theorem RRel.map {α β γ δ} {P : α → β → Prop} {Q : γ → δ → Prop} {x : R α} {y : R β} {f : α → γ} {g : β → δ}
    (h : RRel P x y) (hfg : ∀ a b, P a b → Q (f a) (g b)) : RRel Q (f <$> x) (g <$> y) := by
  cases x with
  | error =>
    cases y with
    | error => exact h
    | ok => exact h.elim
  | ok a =>
    cases y with
    | error => exact h.elim
    | ok b => exact hfg a b h

theorem sameKind_apply {r s : RB} {c c' : Cmd} (hm : d.enableMask = true) (h : Alike U r s) (hc : SameKind U c c') :
    RRel (Alike U) (c.apply U d r) (c'.apply U d s) := by
  cases hc <;> simp only [Cmd.apply]
  case insert a b hab =>
    refine h.refresh hm fun e e' he => ?_
    unfold writeRunesC
    rw [he.idx]
    refine (sliceFrom_rel he.buf _).bind fun x y hxy => (sliceTo_rel he.buf _).bind fun u v huv => ?_
    exact ⟨All2.append huv (All2.append hab hxy), he.kill, by simp [he.idx, forall2_length hab]⟩
  case set a b hab =>
    refine h.refresh hm fun e e' he => ?_
    exact ⟨hab, he.kill, forall2_length hab⟩
  case backspace =>
    refine h.refresh hm fun e e' he => ?_
    unfold backspaceC
    rw [he.idx]
    split
    · exact he
    · refine (sliceTo_rel he.buf _).bind fun x y hxy => (sliceFrom_rel he.buf _).bind fun u v huv => ?_
      exact ⟨All2.append hxy huv, he.kill, rfl⟩
  case delete =>
    unfold RB.delete
    rw [refreshV_snd, refreshV_snd]
    refine h.refresh hm fun e e' he => ?_
    refine RRel.map (P := fun p q => EAlike U p.2 q.2) ?_ fun a b hab => hab
    unfold deleteC
    rw [he.idx, forall2_length he.buf]
    split
    · exact he
    · exact (slice_rel he.buf _ _).bind fun k k' hk => (sliceTo_rel he.buf _).bind fun x y hxy =>
        (sliceFrom_rel he.buf _).bind fun u v huv => ⟨All2.append hxy huv, hk, rfl⟩
  case left =>
    refine h.refresh hm fun e e' he => ?_
    unfold moveBackwardC
    rw [he.idx]
    split
    · exact he
    · exact ⟨he.buf, he.kill, rfl⟩
  case right =>
    refine h.refresh hm fun e e' he => ?_
    unfold moveForwardC
    rw [he.idx, forall2_length he.buf]
    split
    · exact he
    · exact ⟨he.buf, he.kill, rfl⟩
  case home => exact h.refresh hm fun e e' he => ⟨he.buf, he.kill, rfl⟩
  case toEnd => exact h.refresh hm fun e e' he => ⟨he.buf, he.kill, forall2_length he.buf⟩
  case kill =>
    refine h.refresh hm fun e e' he => ?_
    unfold killC
    rw [he.idx]
    refine (sliceFrom_rel he.buf _).bind fun x y hxy => (sliceTo_rel he.buf _).bind fun u v huv => ?_
    exact ⟨huv, hxy, rfl⟩
  case killFront =>
    refine h.refresh hm fun e e' he => ?_
    unfold killFrontC
    rw [he.idx]
    split
    · exact he
    · refine (sliceTo_rel he.buf _).bind fun x y hxy => (sliceFrom_rel he.buf _).bind fun u v huv => ?_
      exact ⟨huv, hxy, rfl⟩
  case erase => exact h.refresh hm fun e e' he => ⟨.nil, he.buf, rfl⟩
  case yank =>
    unfold RB.yank
    rw [forall2_length h.kill]
    split
    · exact h
    · refine h.refresh hm fun e e' he => ?_
      unfold yankC
      rw [he.idx]
      refine (sliceTo_rel he.buf _).bind fun x y hxy => (sliceFrom_rel he.buf _).bind fun u v huv => ?_
      exact ⟨All2.append (All2.append hxy he.kill) huv, he.kill, by simp [he.idx, forall2_length he.kill]⟩

end RL
