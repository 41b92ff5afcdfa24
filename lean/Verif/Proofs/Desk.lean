import Verif.Spec.Desk
import Verif.Proofs.Menu
import Verif.Proofs.Disp
import Verif.Props.Browse
/-! Sessions with completion (C80). -/

namespace RL
open Spec RB Ed

theorem lcp_unique {p q : List Rune} {cs : List (List Rune)} (h : LongestCommonPrefix p cs) (h' : LongestCommonPrefix q cs) : p = q :=
  (h'.2 p h.1).eq_of_length (Nat.le_antisymm (h'.2 p h.1).length_le (h.2 q h'.1).length_le)

/-- Asking for a completion has one outcome. -/
theorem Completes.unique {f : Answers} {z z1 z2 : Line} {m m1 m2 : Choices} (h1 : Completes f z m z1 m1) (h2 : Completes f z m z2 m2) :
    z1 = z2 ∧ m1 = m2 := by
  cases h1 with
  | select a =>
    cases h2 with
    | select => exact ⟨rfl, rfl⟩
    | only => simp at a
    | again b => exact (b rfl).elim
    | gone b => exact (b rfl).elim
  | only =>
    cases h2 with
    | select b => simp at b
    | only => exact ⟨rfl, rfl⟩
    | again b => exact (b rfl).elim
    | gone b => exact (b rfl).elim
  | nothing a =>
    cases h2 with
    | nothing => exact ⟨rfl, rfl⟩
    | single b => rw [a] at b; injection b with b; cases b
    | common b c => rw [a] at b; injection b with b; rw [← b] at c; simp at c
    | first b c => rw [a] at b; injection b with b; rw [← b] at c; simp at c
  | single a =>
    cases h2 with
    | nothing b => rw [a] at b; injection b with b; cases b
    | single b => rw [a] at b; injection b with b; cases b; exact ⟨rfl, rfl⟩
    | common b c => rw [a] at b; injection b with b; rw [← b] at c; simp at c
    | first b c => rw [a] at b; injection b with b; rw [← b] at c; simp at c
  | common a d e g =>
    cases h2 with
    | nothing b => rw [a] at b; injection b with b; rw [b] at d; simp at d
    | single b => rw [a] at b; injection b with b; rw [b] at d; simp at d
    | common b c' e' => rw [a] at b; injection b with b; rw [← b] at e'; rw [lcp_unique e e']; exact ⟨rfl, rfl⟩
    | first b c' e' => rw [a] at b; injection b with b; rw [← b] at e'; exact (g (lcp_unique e e')).elim
  | first a d e =>
    cases h2 with
    | nothing b => rw [a] at b; injection b with b; rw [b] at d; simp at d
    | single b => rw [a] at b; injection b with b; rw [b] at d; simp at d
    | common b c' e' g' => rw [a] at b; injection b with b; rw [← b] at e'; exact (g' (lcp_unique e' e)).elim
    | first b c' e' => rw [a] at b; injection b with b b'; rw [b, b']; exact ⟨rfl, rfl⟩
  | again a b d =>
    cases h2 with
    | select => exact (a rfl).elim
    | only => exact (a rfl).elim
    | again a' b' => rw [b] at b'; injection b' with b' b''; rw [b', b'']; exact ⟨rfl, rfl⟩
    | gone a' b' => rw [b] at b'; injection b' with b'; exact (d b').elim
  | gone a b =>
    cases h2 with
    | select => exact (a rfl).elim
    | only => exact (a rfl).elim
    | again a' b' d' => rw [b] at b'; injection b' with b'; exact (d' b'.symm).elim
    | gone => exact ⟨rfl, rfl⟩

namespace Comp
variable {U : UTables} {d : DCfg}

/-- The list of candidates, as the library keeps it. -/
def Shows (c : Comp) : Choices → Prop
  | .closed => c.inComplete = false ∧ c.inSelect = false
  | .listed s cs off => c.inComplete = true ∧ c.inSelect = false ∧ c.source = s ∧ (s ≠ none → c.candidate = cs ∧ c.off = off)
  | .chosen cs off i => c.inComplete = true ∧ c.inSelect = true ∧ c.candidate = cs ∧ c.off = off ∧ c.choise = (i : Int)

theorem Shows.colNum {c : Comp} {m : Choices} (h : c.Shows m) (n : Int) : ({ c with colNum := n } : Comp).Shows m := by
  cases m <;> exact h

theorem exitComplete_shows (c : Comp) : c.exitComplete.Shows .closed := ⟨rfl, rfl⟩

/-- `OnComplete` does what the specification says. -/
theorem onComplete_completes {f : Completer} {c c' : Comp} {r r' : RB} {b : Bool} (hw : c.width ≠ 0) (hs : c.inSelect = false)
    (hne : c.inComplete = true → c.source = some r.buf → c.candidate ≠ [])
    (h : c.onComplete U d (some f) r = .ok (b, c', r')) (hi : r.toEd.CursorIn) {m : Choices} (hm : c.Shows m) :
    b = true ∧ ∃ m', Completes f r.toEd.line m r'.toEd.line m' ∧ c'.Shows m' := by
  have hins : ∀ {x} {r0 r1 : RB}, r0.toEd = r.toEd → r0.writeRunes U d x = .ok r1 → r1.toEd.line = r.toEd.line.insert x := by
    intro x r0 r1 h0 h1
    have h1 : Cmd.apply U d (.insert x) r0 = .ok r1 := h1
    obtain ⟨e', g1, _, g3⟩ := core_basic (c := .insert x) rfl (e := r0.toEd) (by rw [h0]; exact hi)
    rw [(apply_ok h1).1, Except.ok.injEq] at g1
    rw [g1, ← h0]; exact g3
  have htext : r.toEd.line.text = r.buf := Ed.line_text _
  have hlen : r.toEd.line.left.length = r.idx := by
    simp only [Ed.line, List.length_take]; exact Nat.min_eq_left hi
  have ans : ∀ {x}, f r.buf r.idx = x → f r.toEd.line.text r.toEd.line.left.length = x := by
    intro x hx; rw [htext, hlen]; exact hx
  unfold onComplete at h
  rw [if_neg hw, hs] at h
  simp only [Bool.false_eq_true, if_false] at h
  split at h
  · next hc =>
    obtain ⟨hin, hsrc⟩ := hc
    have hsrc : c.source = some r.buf := by
      unfold sameSource at hsrc
      split at hsrc
      · next s hss => rw [hss, (runesEqual_iff _ _).1 hsrc]
      · cases hsrc
    obtain ⟨s, cs, off, rfl⟩ : ∃ s cs off, m = .listed s cs off := by
      cases m with
      | closed => rw [hm.1] at hin; cases hin
      | listed s cs off => exact ⟨s, cs, off, rfl⟩
      | chosen => rw [hm.2.1] at hs; cases hs
    obtain ⟨_, _, m3, m4⟩ := hm
    rw [hsrc] at m3
    subst m3
    obtain ⟨rfl, rfl⟩ := m4 (by simp)
    rw [← htext]
    obtain ⟨⟨c1, r1⟩, e1, h⟩ := R.bind_inv h
    obtain ⟨⟨c2, r2⟩, e2, h⟩ := R.bind_inv h
    cases h
    refine ⟨rfl, ?_⟩
    obtain ⟨g1, _, g3⟩ := completeRefresh_ok e1
    unfold doSelect at e2
    have hcand : c1.candidate = c.candidate := by rw [g3]
    have hoff : c1.off = c.off := by rw [g3]
    split at e2
    · next x hx =>
      obtain ⟨r3, f1, f2⟩ := R.bind_inv e2
      cases f2
      rw [hins g1 f1]
      rw [← hcand, show c1.candidate = [x] from hx]
      exact ⟨_, .only, exitComplete_shows _⟩
    · next hx =>
      have hx : ∀ x, c1.candidate ≠ [x] := hx
      obtain ⟨c3, f1, f2⟩ := R.bind_inv e2
      obtain ⟨m1, _, m3⟩ := completeRefresh_ok f2
      have hc1 : c1.choise = -1 := by rw [g3]
      have hsel : c1.inSelect = true := by rw [g3]
      have hinc : c1.inComplete = true := by rw [g3]; exact hin
      have hl : 2 ≤ c1.candidate.length := by
        match hh : c1.candidate with
        | [] => exact (hne hin hsrc (hcand.symm.trans hh)).elim
        | [x] => exact (hx x hh).elim
        | _ :: _ :: _ => simp
      unfold nextCandidate modR at f1
      rw [if_neg (show ¬ (c1.candidate.length : Int) = 0 by omega), R.bind_ok, hc1] at f1
      have f1 := Except.ok.inj f1
      rw [show (-1 + 1 : Int) = 0 from rfl, Int.zero_tmod, if_neg (by decide)] at f1
      rw [m1, g1]
      refine ⟨_, .select (by rw [← hcand]; exact hl), ?_⟩
      rw [m3, ← f1]
      exact ⟨hinc, hsel, hcand, hoff, rfl⟩
  · next hc =>
    have hopen : ∀ {off cs c1 r1}, enterComplete U off cs { c.exitSelect with source := some r.buf } r = .ok (c1, r1) →
        r1.toEd.line = r.toEd.line ∧ c1.Shows (.listed (some r.toEd.line.text) cs off) := by
      intro off cs c1 r1 e1
      obtain ⟨g1, _, g3⟩ := completeRefresh_ok e1
      refine ⟨by rw [g1], ?_⟩
      rw [htext, g3]
      exact ⟨rfl, rfl, rfl, fun _ => ⟨rfl, rfl⟩⟩
    have hsrc : c.inComplete = true → c.source ≠ some r.toEd.line.text := by
      rw [htext]
      intro a b
      apply hc
      refine ⟨a, ?_⟩
      unfold sameSource
      rw [b]
      exact (runesEqual_iff _ _).2 rfl
    split at h
    · next off hf =>
      cases h
      refine ⟨rfl, .closed, ?_, exitComplete_shows _⟩
      cases m with
      | closed => exact .nothing (ans hf)
      | listed s cs off => exact .gone (by rw [← hm.2.2.1]; exact hsrc hm.1) (ans hf)
      | chosen => rw [hm.2.1] at hs; cases hs
    · next n ns off hf =>
      by_cases hin : c.inComplete = false
      · rw [if_pos (show c.exitSelect.inComplete = false from hin)] at h
        have hmc : m = .closed := by
          cases m with
          | closed => rfl
          | listed => rw [hm.1] at hin; cases hin
          | chosen => rw [hm.2.1] at hs; cases hs
        subst hmc
        split at h
        · next hl =>
          obtain ⟨r3, f1, f2⟩ := R.bind_inv h
          cases f2
          have : ns = [] := List.eq_nil_of_length_eq_zero hl
          subst this
          rw [hins rfl f1]
          exact ⟨rfl, _, .single (ans hf), exitComplete_shows _⟩
        · next hl =>
          obtain ⟨⟨same, size, cands⟩, f1, f2⟩ := R.bind_inv h
          obtain ⟨same', size', rest, g1, g2, g3, g4⟩ := C04_aggregate (n :: ns) (by simp)
          rw [f1, Except.ok.injEq] at g1
          cases g1
          have hl2 : 2 ≤ (n :: ns).length := by simp; omega
          dsimp only at f2
          split at f2
          · next hsz =>
            obtain ⟨r3, k1, k2⟩ := R.bind_inv f2
            cases k2
            rw [hins rfl k1]
            refine ⟨rfl, _, .common (ans hf) hl2 g2 ?_, exitComplete_shows _⟩
            rintro rfl
            simp at g3; omega
          · next hsz =>
            obtain ⟨⟨c3, r3⟩, k1, k2⟩ := R.bind_inv f2
            cases k2
            have hs0 : same = [] := List.eq_nil_of_length_eq_zero (by omega)
            subst hs0
            have : cands = n :: ns := by rw [← g4]; simp
            subst this
            obtain ⟨l1, l2⟩ := hopen k1
            rw [l1]
            exact ⟨rfl, _, .first (ans hf) hl2 g2, l2⟩
      · rw [if_neg (show ¬ c.exitSelect.inComplete = false from hin)] at h
        obtain ⟨⟨c3, r3⟩, k1, k2⟩ := R.bind_inv h
        cases k2
        obtain ⟨l1, l2⟩ := hopen k1
        rw [l1]
        refine ⟨rfl, _, ?_, l2⟩
        cases m with
        | closed => exact (hin hm.1).elim
        | listed s cs off => exact .again (by rw [← hm.2.2.1]; exact hsrc hm.1) (ans hf) (by simp)
        | chosen => rw [hm.2.1] at hs; cases hs

theorem maxWidth_eq (cs : List (List Rune)) (m : Nat) : maxWidth U cs m = (cs.map (widthAll U)).foldl max m := by
  induction cs generalizing m with
  | nil => rfl
  | cons x cs ih =>
    unfold maxWidth
    rw [ih, List.map_cons, List.foldl_cons]
    congr 1
    split <;> omega

theorem cols_eq {c : Comp} {w : Nat} (hw : c.width = w) (h0 : 0 < w) (ho : 0 ≤ c.off) :
    c.cols U = (listColumns w (c.candidate.map (widthAll U)) c.off.toNat : Nat) := by
  unfold cols listColumns
  rw [maxWidth_eq, hw]
  obtain ⟨n, hn⟩ := Int.eq_ofNat_of_zero_le ho
  rw [hn]
  have e1 : ((w : Int) - 1) = ((w - 1 : Nat) : Int) := by omega
  rw [e1]
  exact tdiv_nat (w - 1) (List.foldl max 0 (List.map (widthAll U) c.candidate) + n + 1)

end Comp

namespace Op
variable {c : OCfg}

/-- Noting the line, for any state of the list. -/
theorem Shows.note' (hl : 0 < c.h.limit) {o : Op} (w : o.hist.WF) {b : Book} (hs : o.hist.Shows b) (hline : o.rb.toEd.line = b.line)
    (hen : o.hist.enable = true) (hk : b.pages.length - c.h.limit.toNat ≤ b.pos) {o' : Op} (h1 : o'.hist = o.hist.update c.h o.rb.buf false)
    (h2 : o'.rb.toEd = o.rb.toEd) : Shows c o' (b.note c.h.limit) := by
  obtain ⟨n1, n2, n3⟩ := hs.note hl w hk
  have ht : o.rb.buf = b.line.text := by rw [← hline, Ed.line_text]
  rw [ht] at h1
  refine ⟨by rw [h1]; exact n1, by rw [Book.note_line, h2]; exact hline, fun _ => ?_, by rw [h1, update_enable]; exact hen, .inl n3⟩
  rw [h1, Book.note_line]
  exact Hist.update_noted hl _ _

/-- What one key does to the state that the specification does not mention. -/
structure Step (c : OCfg) (o o' : Op) (r : Rune) (d : Desk) : Prop where
  inv : Inv c o'
  smode : o'.search.inMode = false
  menu : o'.comp.Shows d.menu
  book : Shows c o' d.book
  gate : o'.gate = o.gate
  kick : stopKey r = true → o'.kick = true
  inp : o'.inp = o.inp
  events : o'.events = o.events
  stopped : o'.stopped = o.stopped
  vimNormal : o'.vimNormal = o.vimNormal
  file : o'.hist.file = o.hist.file

/-- The end of the loop body after a key that edits the line to `z`. -/
theorem step_write (hob : Observer c) (hl : 0 < c.h.limit) {o o' : Op} (hw : o.hist.WF) {b : Book} (hs : Opened c o b) {r : Rune} {k : KeyRes}
    (hsm : o.search.inMode = false)
    (hk : o.key c r = .ok k) (hd : o.dispatch c r = .ok o') (hi : Inv c o') {m : Choices} {z : Line}
    (h1 : k.op.rb.toEd.line = z) (h2 : k.op.hist = o.hist) (h3 : k.op.search = o.search) (h4 : k.keepSearch = false) (h5 : k.update = true)
    (h6 : k.op.inp = o.inp) (h7 : k.op.gate = o.gate) (h8 : stopKey r = true → k.op.kick = true) (h9 : k.op.events = o.events)
    (h10 : k.op.stopped = o.stopped) (h11 : k.op.vimNormal = o.vimNormal)
    (h12 : k.keepComplete = true → k.op.comp.Shows m) (h13 : k.keepComplete = false → m = .closed) :
    Step c o o' r ⟨b.write c.h.limit z, m⟩ := by
  unfold dispatch at hd
  rw [hk, R.bind_ok, listen_observer hob, R.bind_ok] at hd
  have hfin := finish_ok hd
  have hs' : o'.search.inMode = false := by
    cases hh : o'.search.inMode with
    | false => rfl
    | true => have := (hfin.smode.1 hh).2; rw [h4] at this; cases this
  have hhist : o'.hist = k.op.hist.update c.h k.op.rb.buf false := by rw [hfin.hist, if_pos ⟨h5, hs'⟩]
  refine ⟨hi, hs', ?_, ?_, hfin.gate.trans h7, fun a => hfin.kick.trans (h8 a), hfin.inp.trans h6, hfin.events.trans h9,
    hfin.stopped.trans h10, hfin.vimNormal.trans h11, ?_⟩
  · obtain ⟨o1, g1, g2⟩ := R.bind_inv hd
    have hc : o'.comp = o1.comp := by split at g2 <;> (cases g2; rfl)
    cases hkc : k.keepComplete with
    | true =>
      rw [hc, settle_comp hkc g1]
      exact (h12 hkc).colNum _
    | false =>
      have hm := h13 hkc
      subst hm
      have : o'.comp.inComplete = false := by
        rw [hc]
        unfold settle at g1
        rw [if_neg (by rw [h3, hsm]; simp)] at g1
        split at g1
        · obtain ⟨r1, rfl, _⟩ := refresh_ok' g1
          rfl
        · next hx => cases g1; simpa using hx
      refine ⟨this, ?_⟩
      cases hh : o'.comp.inSelect with
      | false => rfl
      | true => rw [(hi.comp.sel hh).1] at this; cases this
  · refine Shows.note' (o := k.op) (b := { b with line := z }) hl (by rw [h2]; exact hw) ?_ h1 (by rw [h2]; exact hs.enable) hs.fits.pos
      hhist hfin.line
    rw [h2]
    exact ⟨hs.hist.stored, hs.hist.length, hs.hist.pages, hs.hist.pos, hs.hist.empty, hs.hist.rest⟩
  · rw [hhist, update_file, h2]

/-- A key whose case in the switch does not look at the list. -/
def Blind (c : OCfg) (r : Rune) : Prop := ∀ (o : Op) (cm : Comp) (k : KeyRes), ({ o with comp := cm } : Op).key c r = .ok k →
  o.key c r = .ok { k with op := { k.op with comp := o.comp } }

theorem blind_edit {o : Op} {cm : Comp} {k : Cmd} {o1 : Op} (h : edit c k { o with comp := cm } = .ok o1) :
    o.edit c k = .ok { o1 with comp := o.comp } := by
  unfold edit at *
  obtain ⟨rb, e1, h⟩ := R.bind_inv h
  cases h
  have e1 : k.apply c.U c.d o.rb = .ok rb := e1
  rw [e1]; rfl

theorem blind_simple {r : Rune} {k : Cmd} (h : simpleKey r = some k) : Blind c r := by
  intro o cm kr hk
  rw [key_simple h] at *
  obtain ⟨o1, e1, hk⟩ := R.bind_inv hk
  cases hk
  rw [blind_edit e1, R.bind_ok]

theorem blind_prev : Blind c 16 := by
  intro o cm kr hk
  have hk : keyPrev c { o with comp := cm } = .ok kr := hk
  show keyPrev c o = _
  unfold keyPrev at *
  dsimp only at hk
  split at hk
  · next h' e =>
    obtain ⟨o1, e1, hk⟩ := R.bind_inv hk
    cases hk
    have := blind_edit (o := { o with hist := h' }) e1
    dsimp only
    rw [this]; rfl
  · next h' e =>
    cases hk
    rfl

theorem blind_next : Blind c 14 := by
  intro o cm kr hk
  have hk : keyNext c { o with comp := cm } = .ok kr := hk
  show keyNext c o = _
  unfold keyNext at *
  dsimp only at hk
  split at hk
  · next h' e =>
    obtain ⟨o1, e1, hk⟩ := R.bind_inv hk
    cases hk
    have := blind_edit (o := { o with hist := h' }) e1
    dsimp only
    rw [this]; rfl
  · next h' e =>
    cases hk
    rfl

/-- The keys that close the list. -/
theorem closing {limit : Int} {r : Rune} {b b' : Book} (h : BookKey limit r b b') (h1 : r < 32) (h2 : r ≠ 8) (h3 : r ≠ 4) :
    Blind c r ∧ ((∃ k, simpleKey r = some k) ∨ r = 16 ∨ r = 14) := by
  have blind_simple : ∀ {k}, simpleKey r = some k → Blind c r ∧ ((∃ k, simpleKey r = some k) ∨ r = 16 ∨ r = 14) :=
    fun a => ⟨Op.blind_simple a, .inl ⟨_, a⟩⟩
  cases h with
  | older => exact ⟨blind_prev, .inr (.inl rfl)⟩
  | newer => exact ⟨blind_next, .inr (.inr rfl)⟩
  | edit he =>
    rcases he with he | ⟨rfl, _⟩ | ⟨rfl, _⟩ | ⟨rfl | rfl, _⟩ | ⟨rfl, _⟩ | ⟨rfl, _⟩
    · unfold editKey at he
      split at he
      · next hr => subst hr; exact blind_simple (k := .home) rfl
      split at he
      · next hr => subst hr; exact blind_simple (k := .left) rfl
      split at he
      · next hr => subst hr; exact blind_simple (k := .toEnd) rfl
      split at he
      · next hr => subst hr; exact blind_simple (k := .right) rfl
      split at he
      · next hr => omega
      split at he
      · next hr => subst hr; exact blind_simple (k := .kill) rfl
      split at he
      · next hr => subst hr; exact blind_simple (k := .killFront) rfl
      split at he
      · next hr => subst hr; exact blind_simple (k := .yank) rfl
      split at he
      · next hr => omega
      · cases he
    · exact blind_simple (k := .prevWord) rfl
    · exact blind_simple (k := .nextWord) rfl
    · exact blind_simple (k := .backEscapeWord) rfl
    · exact blind_simple (k := .backEscapeWord) rfl
    · exact blind_simple (k := .deleteWord) rfl
    · exact blind_simple (k := .transpose) rfl

/-- Two runs of the key switch that differ only in the list. -/
theorem dispatch_blind (hob : Observer c) {o q o' : Op} {cm : Comp} {r : Rune} (hb : Blind c r) (hsm : o.search.inMode = false)
    (e1 : ({ o with comp := cm } : Op).dispatch c r = .ok q) (e2 : o.dispatch c r = .ok o') :
    ∃ k, o.key c r = .ok k ∧ o'.rb.toEd = q.rb.toEd ∧ o'.hist = q.hist ∧ o'.gate = q.gate ∧ o'.kick = q.kick ∧ o'.inp = q.inp ∧ o'.events = q.events ∧
      o'.stopped = q.stopped ∧ o'.vimNormal = q.vimNormal ∧ (q.search.inMode = false → o'.search.inMode = false) := by
  obtain ⟨k1, f1, f2⟩ := dispatch_ok hob e1
  obtain ⟨k2, g1, g2⟩ := dispatch_ok hob e2
  have := hb o cm k1 f1
  rw [g1, Except.ok.injEq] at this
  subst this
  have hsm' : o'.search.inMode = true ↔ q.search.inMode = true := by rw [g2.smode, f2.smode]
  have hsm2 : o'.search.inMode = q.search.inMode := by
    cases h1 : o'.search.inMode <;> cases h2 : q.search.inMode <;> simp [h1, h2] at hsm' ⊢
  refine ⟨_, g1, g2.line.trans f2.line.symm, ?_, g2.gate.trans f2.gate.symm, g2.kick.trans f2.kick.symm, g2.inp.trans f2.inp.symm,
    g2.events.trans f2.events.symm, g2.stopped.trans f2.stopped.symm, g2.vimNormal.trans f2.vimNormal.symm, fun a => hsm2.trans a⟩
  rw [g2.hist, f2.hist, hsm2]

/-- The list put away. -/
theorem Mid.quiet {o : Op} (h : Mid c o) (hs : o.search.inMode = false) : Quiet c { o with comp := o.comp.exitComplete } :=
  ⟨⟨h.base.rb, h.base.hist, h.base.sw, h.base.cw, h.base.col⟩, hs, h.soff hs, rfl, rfl⟩

theorem Inv.quiet {o : Op} (h : Inv c o) (hs : o.search.inMode = false) (hc : o.comp.Shows .closed) : Quiet c o :=
  ⟨h.base, hs, h.soff hs, hc.1, hc.2⟩

theorem transpose_ok {z z' : Line} (h : Edits 20 z z') : 2 ≤ z.text.length := by
  rcases h with h | ⟨h, _⟩ | ⟨h, _⟩ | ⟨h, _⟩ | ⟨h, _⟩ | ⟨_, pre, a, b, post, h, _⟩
  · exact absurd h (by simp [editKey])
  · exact absurd h (by decide)
  · exact absurd h (by decide)
  · exact absurd h (by decide)
  · exact absurd h (by decide)
  · rw [h]; simp; omega

/-- A key of the book that does not look at the list. -/
theorem dispatch_closing (hf : Friendly c) (hp : Plain c) (hl : 0 < c.h.limit) {o : Op} (h : Mid c o) (hsm : o.search.inMode = false)
    (hem : Emacs c o) {b b' : Book} (hs : Opened c o b) {r : Rune} (hb : BookKey c.h.limit r b b') (hbl : Blind c r)
    (hbell : r ≠ CharBell ∧ r ≠ CharInterrupt) (hkill : r ≠ CharKill) :
    ∃ o' k, o.dispatch c r = .ok o' ∧ o.key c r = .ok k ∧ Inv c o' ∧ Shows c o' b' ∧
      o'.gate = o.gate ∧ (stopKey r = true → o'.kick = true) ∧ o'.inp = o.inp ∧ o'.events = o.events ∧ o'.stopped = o.stopped ∧
      o'.vimNormal = o.vimNormal ∧ o'.search.inMode = false ∧ o'.hist.file = o.hist.file ∧ r ≠ 0 ∧ r ≠ CharEsc := by
  obtain ⟨q, e1, e2, e3, e4, e5, e6, e7, e8, e9, e10, e11, e12⟩ := dispatch_book hp hl (h.quiet hsm)
    (b := b) ⟨hs.hist, hs.line, hs.enable, hs.fits⟩ hb
  have hv' : c.vim = true → o.vimNormal = true → False := by
    intro a d
    rcases hem with hv | hv
    · rw [hv] at a; cases a
    · rw [hv] at d; cases d
  obtain ⟨o', f1, f2⟩ := dispatch_safe (r := r) hf h (fun a t => by
      have a : r = 20 := a
      subst a
      cases hb with
      | edit he =>
        have := transpose_ok he
        rw [← hs.line, Ed.line_text] at this
        unfold Ed.Trigger at t
        omega)
    (fun a => by rcases a with a | a; exact (hbell.1 a).elim; exact (hbell.2 a).elim) (fun a => (hkill a).elim) (fun a d => (hv' a d).elim)
  obtain ⟨k, k0, k1, k2, k3, k4, k5, k6, k7, k8, k9⟩ := dispatch_blind hp.listener hbl hsm e1 f1
  refine ⟨o', k, f1, k0, f2, ⟨by rw [k2]; exact e12.hist, by rw [k1]; exact e12.line, by rw [k2]; exact e12.noted, by rw [k2]; exact e12.enable, e12.fits⟩,
    k3.trans e3, fun a => k4.trans (e4 a), k5.trans e7, k6.trans e8, k7.trans e9, k8.trans e10, k9 e2.smode, by rw [k2]; exact e11, e5, e6⟩

theorem blind_comp {r : Rune} (hr : (∃ k, simpleKey r = some k) ∨ r = 16 ∨ r = 14) {o : Op} {k : KeyRes} (hk : o.key c r = .ok k) :
    k.op.comp = o.comp ∧ k.op.search = o.search ∧ k.keepSearch = false ∧ k.keepComplete = (r == CharKill) := by
  rcases hr with ⟨cmd, hr⟩ | rfl | rfl
  · rw [key_simple hr] at hk
    obtain ⟨o1, e1, hk⟩ := R.bind_inv hk
    cases hk
    obtain ⟨r1, rfl, _⟩ := edit_ok e1
    exact ⟨rfl, rfl, rfl, rfl⟩
  · have hk : keyPrev c o = .ok k := hk
    unfold keyPrev at hk
    split at hk
    · obtain ⟨o1, e1, hk⟩ := R.bind_inv hk
      cases hk
      obtain ⟨r1, rfl, _⟩ := edit_ok e1
      exact ⟨rfl, rfl, rfl, rfl⟩
    · cases hk
      exact ⟨rfl, rfl, rfl, rfl⟩
  · have hk : keyNext c o = .ok k := hk
    unfold keyNext at hk
    split at hk
    · obtain ⟨o1, e1, hk⟩ := R.bind_inv hk
      cases hk
      obtain ⟨r1, rfl, _⟩ := edit_ok e1
      exact ⟨rfl, rfl, rfl, rfl⟩
    · cases hk
      exact ⟨rfl, rfl, rfl, rfl⟩

theorem bookKey_ne {limit : Int} {r : Rune} {b b' : Book} (h : BookKey limit r b b') : r ≠ 7 ∧ r ≠ 3 ∧ r ≠ 0 ∧ r ≠ 27 := by
  cases h with
  | older => decide
  | newer => decide
  | edit he =>
    rcases he with he | ⟨rfl, _⟩ | ⟨rfl, _⟩ | ⟨rfl | rfl, _⟩ | ⟨rfl, _⟩ | ⟨rfl, _⟩
    · refine ⟨?_, ?_, ?_, ?_⟩ <;> (rintro rfl; simp [editKey] at he)
    all_goals decide

/-- One key of the desk, outside the list with a highlight. -/
theorem dispatch_desk (hf : Friendly c) (hp : Plain c) (hl : 0 < c.h.limit) {f : Completer} (ha : c.auto = some f) {w : Nat}
    {o : Op} (h : Mid c o) (hsm : o.search.inMode = false) (hem : Emacs c o) {d d' : Desk} (hs : Opened c o d.book)
    (hm : o.comp.Shows d.menu) (hnc : ∀ cs off i, d.menu ≠ .chosen cs off i) {r : Rune}
    (hk : DeskKey ⟨f, w, widthAll c.U, c.h.limit⟩ r d d') :
    ∃ o', o.dispatch c r = .ok o' ∧ Step c o o' r d' ∧ r ≠ 0 ∧ r ≠ CharEsc := by
  have hv' : c.vim = true → o.vimNormal = true → False := by
    intro a d
    rcases hem with hv | hv
    · rw [hv] at a; cases a
    · rw [hv] at d; cases d
  have hcur : o.rb.toEd.CursorIn := h.base.rb.idx
  have hwid : o.comp.width ≠ 0 := by have := h.base.rb.width; have := h.base.cw; omega
  -- keys that cannot go wrong
  have safe : r ≠ 20 → (r = 11 → o.comp.inComplete = true → o.comp.Fits c.U c.auto o.rb) → ∃ o', o.dispatch c r = .ok o' ∧ Inv c o' := by
    intro h1 h2
    exact dispatch_safe (r := r) hf h (fun a => (h1 a).elim) (fun _ a => by rw [hsm] at a; cases a) h2 (fun a b => (hv' a b).elim)
  have cands : o.comp.inComplete = true → ∀ x, o.comp.source = some x → o.comp.candidate ≠ [] := by
    intro a x b
    rcases h.fits a with e | e
    · rw [e] at b; cases b
    · exact e.cands
  cases hk with
  | @plain _ b b' hb =>
    have hq : Quiet c o := ⟨h.base, hsm, h.soff hsm, hm.1, hm.2⟩
    obtain ⟨o', e1, e2, e3, e4, e5, e6, e7, e8, e9, e10, e11, e12⟩ := dispatch_book hp hl hq hs hb
    exact ⟨o', e1, ⟨e2.inv, e2.smode, ⟨e2.cmode, e2.nosel⟩, e12, e3, e4, e7, e8, e9, e10, e11⟩, e5, e6⟩
  | @tab b m z m' hc =>
    obtain ⟨o', e1, e2⟩ := safe (by decide) (fun a => absurd a (by decide))
    obtain ⟨k, g1, _⟩ := R.bind_inv e1
    refine ⟨o', e1, ?_, by decide, by decide⟩
    have g2 := g1
    rw [show (9 : Rune) = CharTab from rfl, key_tab] at g2
    unfold keyTab at g2
    rw [ha] at g2
    dsimp only at g2
    obtain ⟨⟨b', o1⟩, k1, g2⟩ := R.bind_inv g2
    unfold Op.onComplete at k1
    obtain ⟨⟨b', cm, rb⟩, k2, k1⟩ := R.bind_inv k1
    cases k1
    rw [ha] at k2
    obtain ⟨rfl, m'', k3, k4⟩ := Comp.onComplete_completes hwid h.nosel (fun a => cands a _) k2 hcur hm
    rw [hs.line] at k3
    obtain ⟨rfl, rfl⟩ := Completes.unique hc k3
    dsimp only at g2
    rw [if_pos rfl] at g2
    cases g2
    exact step_write hp.listener hl h.base.hist hs hsm g1 e1 e2 rfl rfl rfl rfl rfl rfl rfl (fun a => absurd a (by decide)) rfl rfl rfl
      (fun _ => k4) (fun a => by cases a)
  | @bell b =>
    obtain ⟨o', e1, e2⟩ := safe (by decide) (fun a => absurd a (by decide))
    obtain ⟨k, g1, _⟩ := R.bind_inv e1
    refine ⟨o', e1, ?_, by decide, by decide⟩
    have hkk : o.key c 7 = .ok { op := o } := by
      show keyBell c o = _
      unfold keyBell
      rw [if_neg (by simp [hsm]), R.bind_ok]
      dsimp only
      rw [if_neg (by simp [hm.1]), R.bind_ok]
    exact step_write hp.listener hl h.base.hist hs hsm hkk e1 e2 hs.line rfl rfl rfl rfl rfl rfl (fun a => absurd a (by decide)) rfl rfl rfl
      (fun a => by cases a) (fun _ => rfl)
  | @text _ b s cs off z m' h1 h2 hc =>
    obtain ⟨o', e1, e2⟩ := safe (by omega) (fun a => by omega)
    obtain ⟨k, g1, _⟩ := R.bind_inv e1
    refine ⟨o', e1, ?_, by omega, by unfold CharEsc; omega⟩
    have hst : stopKey r = false := by
      unfold stopKey CharInterrupt CharEnter CharCtrlJ CharDelete
      simp; omega
    have g2 := g1
    rw [key_text h1 h2] at g2
    unfold keyText at g2
    rw [if_neg (by simp [hsm])] at g2
    obtain ⟨o1, k1, g2⟩ := R.bind_inv g2
    obtain ⟨r1, rfl, k2, k3⟩ := edit_ok k1
    dsimp only at g2
    rw [if_pos hm.1] at g2
    obtain ⟨⟨b', o2⟩, k4, g2⟩ := R.bind_inv g2
    cases g2
    unfold Op.onComplete at k4
    obtain ⟨⟨b'', cm, rb⟩, k5, k4⟩ := R.bind_inv k4
    cases k4
    rw [ha] at k5
    obtain ⟨e', l1, l2, l3⟩ := core_basic (c := .insert [r]) rfl hcur
    rw [k2, Except.ok.injEq] at l1
    subst l1
    obtain ⟨rfl, m'', k6, k7⟩ := Comp.onComplete_completes hwid h.nosel (fun a => cands a _) k5 l2 hm
    dsimp only at l3 k6
    rw [l3, hs.line] at k6
    obtain ⟨rfl, rfl⟩ := Completes.unique hc k6
    exact step_write hp.listener hl h.base.hist hs hsm g1 e1 e2 rfl rfl rfl rfl rfl rfl rfl (fun a => by rw [hst] at a; cases a) rfl rfl rfl
      (fun _ => k7) (fun a => by cases a)
  | @close _ b b' s cs off hb h1 h2 h3 h4 =>
    obtain ⟨hbl, hsh⟩ := closing (c := c) hb h1 h2 h4
    obtain ⟨n1, n2, _⟩ := bookKey_ne hb
    obtain ⟨o', k, e1, e2, e3, e4, e5, e6, e7, e8, e9, e10, e11, e12, e13, e14⟩ := dispatch_closing hf hp hl h hsm hem hs hb hbl ⟨n1, n2⟩ h3
    obtain ⟨b1, b2, b3, b4⟩ := blind_comp hsh e2
    have hkc : k.keepComplete = false := by
      rw [b4]
      cases hh : r == CharKill with
      | false => rfl
      | true => exact (h3 (beq_iff_eq.1 hh)).elim
    obtain ⟨l1, l2⟩ := dispatch_leaves hp.listener e2 hkc (by rw [b1]; exact h.nosel) (fun a => by rw [b2, hsm] at a; cases a) e1
    exact ⟨o', e1, ⟨e3, e11, ⟨l2, l1⟩, e4, e5, e6, e7, e8, e9, e10, e12⟩, e13, e14⟩
  | @rub _ b s cs off z m' hr hne hc =>
    have hrr : r ≠ 20 ∧ r ≠ 11 ∧ r ≠ 0 ∧ r ≠ CharEsc ∧ stopKey r = false := by rcases hr with rfl | rfl <;> decide
    obtain ⟨r1, r2, r3, r4, r5⟩ := hrr
    obtain ⟨o', e1, e2⟩ := safe r1 (fun a => (r2 a).elim)
    obtain ⟨k, g1, _⟩ := R.bind_inv e1
    refine ⟨o', e1, ?_, r3, r4⟩
    have g2 := g1
    rw [key_backspace (by rcases hr with rfl | rfl; exact .inr rfl; exact .inl rfl)] at g2
    unfold keyBackspace at g2
    rw [if_neg (by simp [hsm]), if_neg (by
      intro a
      apply hne
      show b.line.text = []
      rw [← hs.line, Ed.line_text]
      exact List.eq_nil_of_length_eq_zero a)] at g2
    obtain ⟨o1, k1, g2⟩ := R.bind_inv g2
    obtain ⟨r1, rfl, k2, k3⟩ := edit_ok k1
    dsimp only at g2
    rw [if_pos hm.1] at g2
    obtain ⟨⟨b', o2⟩, k4, g2⟩ := R.bind_inv g2
    cases g2
    unfold Op.onComplete at k4
    obtain ⟨⟨b'', cm, rb⟩, k5, k4⟩ := R.bind_inv k4
    cases k4
    rw [ha] at k5
    obtain ⟨e', l1, l2, l3⟩ := core_basic (c := .backspace) rfl hcur
    rw [k2, Except.ok.injEq] at l1
    subst l1
    obtain ⟨rfl, m'', k6, k7⟩ := Comp.onComplete_completes hwid h.nosel (fun a => cands a _) k5 l2 hm
    dsimp only at l3 k6
    rw [l3, hs.line] at k6
    obtain ⟨rfl, rfl⟩ := Completes.unique hc k6
    exact step_write hp.listener hl h.base.hist hs hsm g1 e1 e2 rfl rfl rfl rfl rfl rfl rfl (fun a => by rw [r5] at a; cases a) rfl rfl rfl
      (fun a => by cases a) (fun _ => rfl)
  | @rubNothing _ b s cs off hr hne =>
    have hrr : r ≠ 20 ∧ r ≠ 11 ∧ r ≠ 0 ∧ r ≠ CharEsc ∧ stopKey r = false := by rcases hr with rfl | rfl <;> decide
    obtain ⟨r1, r2, r3, r4, r5⟩ := hrr
    obtain ⟨o', e1, e2⟩ := safe r1 (fun a => (r2 a).elim)
    refine ⟨o', e1, ?_, r3, r4⟩
    have hkk : o.key c r = .ok { op := o.bell } := by
      rw [key_backspace (by rcases hr with rfl | rfl; exact .inr rfl; exact .inl rfl)]
      unfold keyBackspace
      rw [if_neg (by simp [hsm]), if_pos]
      have hne : b.line.text = [] := hne
      rw [← hs.line, Ed.line_text] at hne
      exact List.length_eq_zero_iff.2 hne
    exact step_write hp.listener hl h.base.hist hs hsm hkk e1 e2 hs.line rfl rfl rfl rfl rfl rfl (fun a => by rw [r5] at a; cases a) rfl rfl rfl
      (fun a => by cases a) (fun _ => rfl)
  | @delete b s cs off =>
    obtain ⟨o', e1, e2⟩ := safe (by decide) (fun a => absurd a (by decide))
    obtain ⟨k, g1, _⟩ := R.bind_inv e1
    refine ⟨o', e1, ?_, by decide, by decide⟩
    obtain ⟨k1, k2, k3, k4, k5, k6, k7, k8, k9, k10, k11, k12, k13, k14⟩ := keyDelete_del (o := o) g1 (.inr (.inr hm.1))
    obtain ⟨e', l1, l2, l3⟩ := core_basic (c := .delete) rfl hcur
    rw [k1, Except.ok.injEq] at l1
    subst l1
    rw [hs.line] at l3
    exact step_write hp.listener hl h.base.hist hs hsm g1 e1 e2 l3 k11 k4 k12 k14 k6 k7 (fun _ => k8) k3 k9 k10
      (fun a => by rw [k13] at a; cases a) (fun _ => rfl)
  | @leave _ b s cs off hr =>
    have hrr : r ≠ 20 ∧ r ≠ 11 ∧ r ≠ 0 ∧ r ≠ CharEsc := by rcases hr with rfl | rfl <;> decide
    obtain ⟨r1, r2, r3, r4⟩ := hrr
    obtain ⟨o', e1, e2⟩ := safe r1 (fun a => (r2 a).elim)
    obtain ⟨k, g1, _⟩ := R.bind_inv e1
    refine ⟨o', e1, ?_, r3, r4⟩
    have hkk : ∃ r1 kick, k = { op := { o with comp := o.comp.exitComplete, rb := r1, kick := kick } } ∧ r1.toEd = o.rb.toEd ∧
        (stopKey r = true → kick = true) := by
      rcases hr with rfl | rfl
      · have g1 : keyBell c o = .ok k := g1
        unfold keyBell at g1
        rw [if_neg (by simp [hsm]), R.bind_ok] at g1
        dsimp only at g1
        rw [if_pos hm.1] at g1
        obtain ⟨o1, k1, g1⟩ := R.bind_inv g1
        cases g1
        obtain ⟨rr, rfl, k2, _⟩ := refreshNil_ok k1
        exact ⟨rr, o.kick, rfl, k2, fun a => absurd a (by decide)⟩
      · have g1 : keyInterrupt c o = .ok k := g1
        unfold keyInterrupt at g1
        rw [if_neg (by simp [hsm]), if_pos hm.1] at g1
        obtain ⟨o1, k1, g1⟩ := R.bind_inv g1
        cases g1
        obtain ⟨rr, rfl, k2, _⟩ := refreshNil_ok k1
        exact ⟨rr, true, rfl, k2, fun _ => rfl⟩
    obtain ⟨rr, kick, rfl, k2, k3⟩ := hkk
    exact step_write hp.listener hl h.base.hist hs hsm g1 e1 e2 (by show rr.toEd.line = _; rw [k2]; exact hs.line) rfl rfl rfl rfl rfl rfl k3 rfl rfl rfl
      (fun a => by cases a) (fun _ => rfl)
  | @kill b t cs off =>
    obtain ⟨o', e1, e2⟩ := safe (by decide) (fun _ a => (h.fits a).resolve_left (by rw [hm.2.2.1]; simp))
    obtain ⟨k, g1, _⟩ := R.bind_inv e1
    refine ⟨o', e1, ?_, by decide, by decide⟩
    have g2 := g1
    rw [key_simple (k := .kill) rfl] at g2
    obtain ⟨o1, k1, g2⟩ := R.bind_inv g2
    obtain ⟨r1, rfl, k2, k3⟩ := edit_ok k1
    cases g2
    obtain ⟨e', l1, l2, l3⟩ := core_basic (c := .kill) rfl hcur
    rw [k2, Except.ok.injEq] at l1
    subst l1
    rw [hs.line] at l3
    exact step_write hp.listener hl h.base.hist hs hsm g1 e1 e2 l3 rfl rfl rfl rfl rfl rfl (fun a => absurd a (by decide)) rfl rfl rfl
      (fun _ => hm) (fun a => by cases a)
  | move => exact (hnc _ _ _ rfl).elim
  | take => exact (hnc _ _ _ rfl).elim
  | drop => exact (hnc _ _ _ rfl).elim
  | through => exact (hnc _ _ _ rfl).elim

end Op
end RL
