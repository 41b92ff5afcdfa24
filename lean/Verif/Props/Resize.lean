import Verif.Model.Resize
import Verif.Spec.Resize
import Verif.Proofs.Disp
import Verif.Props.Browse
import Verif.Props.Transcript
/-! # C79: resizing the window

The editor is told of a new width between two keys and draws nothing until the next key. -/

namespace RL
open Spec RB Ed

/-! ### Safety -/

namespace Op
variable {c : OCfg}

theorem InvW.io {o : Op} (h : InvW c o) (inp gate kick) : InvW c { o with inp := inp, gate := gate, kick := kick } :=
  ⟨⟨h.base.rb, h.base.hist, h.base.sw, h.base.cw, h.base.col⟩, h.son, h.soff, h.comp, h.excl, h.vim⟩

theorem InvW.withRb {o : Op} (h : InvW c o) {r : RB} (hr : RBok c.U c.d r) (he : r.toEd = o.rb.toEd) (hd : SameDisp o.rb r) :
    InvW c { o with rb := r } :=
  ⟨h.base.withRb hr hd, fun h1 => ⟨⟨(h.son h1).1.1, by
      show _ ≤ r.buf.length
      rw [show r.buf = o.rb.buf from congrArg Ed.buf he]; exact (h.son h1).1.2⟩, (h.son h1).2⟩, h.soff, h.comp.congr he hd, h.excl, h.vim⟩

theorem RBok.resize {r : RB} (h : RBok c.U c.d r) {w : Int} (hw : ∀ p, r.promptLen c.U = .ok p → Room p w) :
    RBok c.U c.d (r.onWidthChange w) := by
  obtain ⟨p, hp⟩ := h.prompt
  obtain ⟨h1, h2⟩ := hw p hp
  refine ⟨h1, ?_, ⟨p, hp⟩, h.good⟩
  rcases h.draw with hd | ⟨hd, _⟩
  · exact .inl hd
  · exact .inr ⟨hd, h1, p, hp, h2⟩

theorem Base.resize {o : Op} (h : Base c o) {w : Int} (hw : ∀ p, o.rb.promptLen c.U = .ok p → Room p w) : Base c (o.resize w) :=
  ⟨RBok.resize h.rb hw, h.hist, rfl, rfl, h.col⟩

/-- A change of the width keeps the editor in the safe states, even while a search runs or the menu is open. -/
theorem InvW.resize {o : Op} (h : InvW c o) {w : Int} (hw : ∀ p, o.rb.promptLen c.U = .ok p → Room p w) : InvW c (o.resize w) :=
  ⟨h.base.resize hw, h.son, h.soff, ⟨rfl, h.comp.col, h.comp.auto, fun a => by
    have := h.comp.fits a
    exact ⟨this.cands, this.off0, this.offIdx, this.narrow, this.source, this.offered⟩, h.comp.sel, h.comp.multi⟩, h.excl, h.vim⟩

theorem NoCrash.mono {α} {P Q : α → Prop} {x : R α} (h : NoCrash P x) (hi : ∀ a, P a → Q a) : NoCrash Q x := by
  rcases h with h | ⟨a, h, ha⟩
  · exact .inl h
  · exact .inr ⟨a, h, hi a ha⟩

theorem handle_safeW (hf : Friendly c) {o : Op} (h : InvW c o) {r : Rune} (hr : ¬ Risky c o r) : NoCrash (InvW c) (o.handle c r) := by
  unfold handle
  by_cases h0 : r = 0
  · rw [if_pos h0]
    split
    · obtain ⟨r1, e1, e2, e3, e4⟩ := h.base.clean
      rw [e1, R.bind_ok]
      have := h.withRb e4.rb e2 e3
      exact .inr ⟨_, rfl, ⟨⟨this.base.rb, this.base.hist, this.base.sw, this.base.cw, this.base.col⟩, this.son, this.soff, this.comp,
        this.excl, this.vim⟩⟩
    · exact NoCrash.mono (viaMenu_safe hf h (by simp [CharEnter]) (enter_not_risky o)) fun _ => Inv.weak
  · rw [if_neg h0]
    exact NoCrash.mono (viaMenu_safe hf h h0 hr) fun _ => Inv.weak

theorem iter_safeW (hf : Friendly c) {o : Op} (h : InvW c o) (hr : ∀ r', filtered c o.nextKey = some r' → ¬ Risky c o r') :
    NoCrash (InvW c) (o.iter c) := by
  have acc : ∀ {o : Op}, InvW c o → ∀ {r : Rune}, (∀ r', filtered c r = some r' → ¬ Risky c o r') → NoCrash (InvW c) (o.accept c r) := by
    intro o h r hr
    unfold accept
    unfold filtered at hr
    split
    · next hc =>
      simp only [hc, Option.some.injEq] at hr
      exact handle_safeW hf h (hr r rfl)
    · next f hc =>
      simp only [hc] at hr
      split
      · obtain ⟨r1, e1, e2, e3, e4⟩ := (h.io o.inp o.gate true).base.refreshNil
        exact .inr ⟨_, e1, (h.io o.inp o.gate true).withRb e4.rb e2 e3⟩
      · next r' heq =>
        rw [heq] at hr
        exact handle_safeW hf h (hr r' rfl)
  unfold iter
  unfold readRune
  by_cases hg : o.gate = true ∧ o.kick = false
  · rw [if_pos hg]; exact .inl rfl
  · rw [if_neg hg]
    unfold nextKey at hr
    cases hi : o.inp with
    | nil =>
      rw [hi] at hr
      dsimp only
      rw [R.bind_ok]
      refine acc ?_ hr
      exact h.io _ _ _
    | cons r rest =>
      rw [hi] at hr
      dsimp only
      rw [R.bind_ok]
      refine acc ?_ hr
      exact h.io _ _ _

end Op

/-- A session as in C15 in which the window may be resized at any time, to a width in which the prompt can be drawn. -/
inductive SessionW (c : OCfg) : Op → Op → Prop
  | start (o) : SessionW c o o
  | key {o o1 o2} : SessionW c o o1 → (∀ r, Op.filtered c o1.nextKey = some r → ¬ Op.Risky c o1 r) →
      o1.iter c = .ok o2 → SessionW c o o2
  | call {o o1 o2} : SessionW c o o1 → o1.refreshNil c = .ok o2 → SessionW c o o2.kickRead
  | taken {o o1} (es) : SessionW c o o1 → SessionW c o { o1 with events := es }
  | resize {o o1} (w : Int) : SessionW c o o1 → (∀ p, o1.rb.promptLen c.U = .ok p → Room p w) → SessionW c o (o1.resize w)

theorem SessionW.inv {c : OCfg} (hf : Op.Friendly c) {o o' : Op} (h : SessionW c o o') (hi : Op.InvW c o) : Op.InvW c o' := by
  induction h with
  | start => exact hi
  | key _ hr e ih =>
    rcases Op.iter_safeW hf ih hr with h | ⟨a, h, ha⟩
    · rw [h] at e; cases e
    · rw [h, Except.ok.injEq] at e
      subst e; exact ha
  | call _ e ih =>
    obtain ⟨r, e1, e2, e3, e4⟩ := ih.base.refreshNil
    rw [e1, Except.ok.injEq] at e
    subst e
    exact (ih.withRb e4.rb e2 e3).io _ _ _
  | taken es _ ih =>
    exact ⟨⟨ih.base.rb, ih.base.hist, ih.base.sw, ih.base.cw, ih.base.col⟩, ih.son, ih.soff, ih.comp, ih.excl, ih.vim⟩
  | resize w _ hw ih => exact ih.resize hw

/-- **C79, the part that holds** (safety).  Resizing the window does not make any key crash the loop or spin, whether a line is being
edited, a search runs or the menu of candidates is open, as long as the prompt can be drawn in the new width.
Missing: the keys of C15, which crash the loop in any window, and widths in which the prompt fills whole rows (`C79_false_prompt`). -/
theorem C79_no_crash_partial {c : OCfg} (hf : Op.Friendly c) {prompt : List Rune} {w : Int} {h : Hist} {keys : List Rune}
    {p : Nat} (hw : 0 < w) (hp : (RB.new prompt true w).promptLen c.U = .ok p) (hdvd : 0 < p → ¬ w ∣ (p : Int))
    (hpaint : c.d.painter ≠ none) (hh : h.WF) {o : Op} (hs : SessionW c (Op.init prompt true w h keys) o)
    (hr : ∀ r, Op.filtered c o.nextKey = some r → ¬ Op.Risky c o r) :
    o.iter c ≠ .error .panic ∧ o.iter c ≠ .error .hang ∧ o.rb.idx ≤ o.rb.buf.length ∧
      (o.comp.inSelect = true → 0 ≤ o.comp.choise ∧ o.comp.choise < o.comp.candidate.length) := by
  have hi := hs.inv hf (init_Inv hw hp hdvd hpaint hh).weak
  refine ⟨?_, ?_, hi.base.rb.idx, fun a => (hi.comp.sel a).2⟩ <;>
    (rcases Op.iter_safeW hf hi hr with h | ⟨a, h, _⟩ <;> rw [h] <;> simp)

/-! ### Results -/

namespace Op
variable {c : OCfg}

/-- The prompt of `o` can be drawn in width `w`. -/
def RoomFor (c : OCfg) (o : Op) (w : Int) : Prop := ∀ p, o.rb.promptLen c.U = .ok p → Room p w

theorem RoomFor.congr {o o' : Op} {w : Int} (h : RoomFor c o w) (he : o'.rb.prompt = o.rb.prompt) : RoomFor c o' w := by
  intro p hp
  rw [promptLen_congr c.U he] at hp
  exact h p hp

theorem resize_ready {o : Op} (h : Ready c o) {w : Int} (hw : RoomFor c o w) : Ready c (o.resize w) :=
  ⟨⟨h.quiet.base.resize hw, h.quiet.smode, h.quiet.marks, h.quiet.cmode, h.quiet.nosel⟩, h.emacs, h.events, h.running⟩

theorem resizes_ready {ws : List Int} : ∀ {o : Op}, Ready c o → (∀ w ∈ ws, RoomFor c o w) →
    Ready c (o.resizes ws) ∧ (o.Live → (o.resizes ws).Live) ∧ (o.resizes ws).inp = o.inp ∧ (o.resizes ws).rb.prompt = o.rb.prompt ∧
      (∀ b, Shows c o b → Shows c (o.resizes ws) b) ∧ (o.resizes ws).hist = o.hist := by
  induction ws with
  | nil => intro o h _; exact ⟨h, id, rfl, rfl, fun _ => id, rfl⟩
  | cons w ws ih =>
    intro o h hw
    have h1 := resize_ready h (hw w (List.mem_cons_self ..))
    obtain ⟨e1, e2, e3, e4, e5, e6⟩ := ih h1 fun x hx => (hw x (List.mem_cons_of_mem _ hx)).congr rfl
    exact ⟨e1, fun a => e2 a, e3, e4, fun b hb => e5 b ⟨hb.hist, hb.line, hb.noted, hb.enable, hb.fits⟩, e6⟩

theorem awaitW_step {o o' : Op} {w : List Int} {ws : List (List Int)} (h0 : o.events = []) (h1 : o.stopped = false)
    (h : (o.resizes w).iter c = .ok o') : awaitW c (w :: ws) o = awaitW c ws o' := by
  rw [awaitW]
  simp only [h0]
  rw [h1, if_neg (by simp), h, R.bind_ok]

theorem awaitW_done {o : Op} {e : Event} {es : List Event} {ws : List (List Int)} (h : o.events = e :: es) :
    awaitW c ws o = .ok (e, { o with events := es }) := by
  rw [awaitW.eq_def]
  simp only [h]

theorem await_bookW (hp : Plain c) (hl : 0 < c.h.limit) {keys : List Rune} {b b' : Book} (hk : BookKeys c.h.limit keys b b') :
    ∀ {o : Op} {rest : List Rune} {ws : List (List Int)}, Ready c o → o.Live → o.inp = keys ++ rest → Shows c o b → ws.length = keys.length →
    (∀ l ∈ ws, ∀ w ∈ l, RoomFor c o w) →
    ∃ o', (∀ vs, awaitW c (ws ++ vs) o = awaitW c vs o') ∧ Ready c o' ∧ o'.Live ∧ o'.inp = rest ∧ Shows c o' b' ∧ o'.rb.prompt = o.rb.prompt := by
  induction hk with
  | nil =>
    intro o rest ws h hv hi hs hw _
    cases ws with
    | nil => exact ⟨o, fun _ => rfl, h, hv, hi, hs, rfl⟩
    | cons => cases hw
  | @cons r ks b b1 b2 hr _ ih =>
    intro o rest ws h hv hi hs hw hroom
    cases ws with
    | nil => cases hw
    | cons w ws =>
      obtain ⟨a1, a2, a3, a4, a5, _⟩ := resizes_ready h (hroom w (List.mem_cons_self ..))
      obtain ⟨o1, e1, e2, e3, e4, e5, e6, e7, e9, e8⟩ := iter_book hp hl a1.quiet (a2 hv) a1.emacs (a5 b hs).opened (rest := ks ++ rest) (a3.trans hi) hr
      have hpr : o1.rb.prompt = o.rb.prompt := (iter_same o1 e1).prompt.trans a4
      obtain ⟨o', f1, f2, f3, f4, f5, f6⟩ := ih (o := o1) (rest := rest) (ws := ws)
        ⟨e2, a1.emacs.imp_right (fun a => e7.trans a), e5.trans a1.events, e6.trans a1.running⟩ e3 e4 e8 (by simpa using hw)
        (fun l hl x hx => (hroom l (List.mem_cons_of_mem _ hl) x hx).congr hpr)
      refine ⟨o', fun vs => ?_, f2, f3, f4, f5, f6.trans hpr⟩
      rw [List.cons_append, awaitW_step h.events h.running e1, f1]

end Op

/-- **C79** (one call).  However often the window is resized before and during a call, `Readline` returns what the notebook of C67 says. -/
theorem C79_readline {c : OCfg} (hp : Op.Plain c) (hl : 0 < c.h.limit) {o : Op} (h : Ready c o) {b b1 b2 : Book} (hs : Op.Shows c o b)
    {keys rest : List Rune} {r : Rune} {e : Event} (hi : o.inp = keys ++ r :: rest) (hk : BookKeys c.h.limit keys b b1)
    (hr : BookEnd (!c.noSave) c.h.limit r b1 e b2) {pre : List Int} {ws : List (List Int)} (hf : keys.length < ws.length)
    (hpre : ∀ w ∈ pre, Op.RoomFor c o w) (hroom : ∀ l ∈ ws, ∀ w ∈ l, Op.RoomFor c o w) :
    ∃ o', o.readlineW c pre ws = .ok (e, o') ∧ Ready c o' ∧ o'.inp = rest ∧ Op.Shows c o' b2 ∧ o'.rb.prompt = o.rb.prompt := by
  obtain ⟨p1, _, p3, p4, p5, _⟩ := Op.resizes_ready h hpre
  obtain ⟨r1, g1, g2, g3, g4⟩ := p1.quiet.base.refreshNil
  have hs' := p5 b hs
  let o1 : Op := Op.kickRead { o.resizes pre with rb := r1 }
  have hb1 : Op.Base c o1 := ⟨g4.rb, g4.hist, g4.sw, g4.cw, g4.col⟩
  have r1' : Ready c o1 := ⟨⟨hb1, p1.quiet.smode, p1.quiet.marks, p1.quiet.cmode, p1.quiet.nosel⟩, p1.emacs, p1.events, p1.running⟩
  have l1 : o1.Live := .inr rfl
  have i1 : o1.inp = keys ++ r :: rest := p3.trans hi
  have s1 : Op.Shows c o1 b := ⟨hs'.hist, by show r1.toEd.line = _; rw [g2]; exact hs'.line, hs'.noted, hs'.enable, hs'.fits⟩
  have q1 : o1.rb.prompt = o.rb.prompt := g3.prompt.trans p4
  have hlen : (ws.take keys.length).length = keys.length := by rw [List.length_take]; omega
  obtain ⟨o2, b1', b2', b3, b4, b5, b6⟩ := Op.await_bookW hp hl hk (ws := ws.take keys.length) r1' l1 i1 s1 hlen
    (fun l hl w hw => (hroom l (List.mem_of_mem_take hl) w hw).congr q1)
  obtain ⟨v, vs, hv⟩ : ∃ v vs, ws.drop keys.length = v :: vs := by
    cases hd : ws.drop keys.length with
    | nil =>
      have := congrArg List.length hd
      rw [List.length_drop, List.length_nil] at this
      omega
    | cons v vs => exact ⟨v, vs, rfl⟩
  have hvm : v ∈ ws := List.mem_of_mem_drop (by rw [hv]; exact List.mem_cons_self ..)
  obtain ⟨a1, a2, a3, a4, a5, _⟩ := Op.resizes_ready b2' (ws := v) fun w hw => (hroom v hvm w hw).congr (b6.trans q1)
  obtain ⟨o3, d1, d2, d3, d4, d5, d6, d7, _, _⟩ := Op.iter_end hp hl a1.quiet (a2 b3) a1.emacs (a5 _ b5) (a3.trans b4) hr
  rw [a1.events] at d4
  refine ⟨{ o3 with events := [] }, ?_, ⟨⟨⟨d2.base.rb, d2.base.hist, d2.base.sw, d2.base.cw, d2.base.col⟩, d2.smode, d2.marks, d2.cmode, d2.nosel⟩, d6, rfl,
    d5.trans a1.running⟩, d3, ⟨d7.hist, d7.line, d7.noted, d7.enable, d7.fits⟩, (Op.iter_same o3 d1).prompt.trans (a4.trans (b6.trans q1))⟩
  unfold Op.readlineW
  rw [g1, R.bind_ok]
  show Op.awaitW c ws o1 = _
  rw [← List.take_append_drop keys.length ws, b1', hv, Op.awaitW_step b2'.events b2'.running d1, Op.awaitW_done d4]

/-- **C79** (results).  For a whole session with the editing keys, Ctrl-P, Ctrl-N, Enter, Ctrl-C and Ctrl-D: however often the window
is resized between two keys or two calls, to widths in which the prompt can be drawn, the calls of `Readline` return what the notebook
of C67 says, and the entries then stored, the line and the page shown are those of the notebook. -/
theorem C79_session {c : OCfg} (hp : Op.Plain c) (hl : 0 < c.h.limit) {keys : List Rune} {b b' : Book} {es : List Event}
    (hr : BookRun (!c.noSave) c.h.limit keys b es b') :
    ∀ {o : Op} {rest : List Rune} {ss : List (List Int × List (List Int))}, Ready c o → Op.Shows c o b → o.inp = keys ++ rest →
    ss.length = es.length → (∀ s ∈ ss, keys.length < s.2.length ∧ (∀ w ∈ s.1, Op.RoomFor c o w) ∧ ∀ l ∈ s.2, ∀ w ∈ l, Op.RoomFor c o w) →
    ∃ o', o.callsW c ss = .ok (es, o') ∧ Ready c o' ∧ o'.inp = rest ∧ Op.Shows c o' b' := by
  induction hr with
  | done =>
    intro o rest ss h hs hi hlen _
    cases ss with
    | nil => exact ⟨o, rfl, h, hi, hs⟩
    | cons => cases hlen
  | @call ks r keys b b1 b2 b3 e es hk he _ ih =>
    intro o rest ss h hs hi hlen hss
    cases ss with
    | nil => cases hlen
    | cons s ss =>
      obtain ⟨pre, ws⟩ := s
      obtain ⟨k1, k2, k3⟩ := hss _ (List.mem_cons_self ..)
      simp only [List.length_append, List.length_cons] at k1
      obtain ⟨o1, e1, e2, e3, e4, e5⟩ := C79_readline hp hl h hs (rest := keys ++ rest) (by rw [hi]; simp) hk he (pre := pre) (ws := ws)
        (by omega) k2 k3
      obtain ⟨o2, f1, f2⟩ := ih (ss := ss) e2 e4 e3 (by simpa using hlen) fun s hs => by
        obtain ⟨g1, g2, g3⟩ := hss s (List.mem_cons_of_mem _ hs)
        simp only [List.length_append, List.length_cons] at g1
        exact ⟨by omega, fun w hw => (g2 w hw).congr e5, fun l hl w hw => (g3 l hl w hw).congr e5⟩
      refine ⟨o2, ?_, f2⟩
      show (o.readlineW c pre ws >>= fun p => Op.callsW c ss p.2 >>= fun q => .ok (p.1 :: q.1, q.2)) = _
      rw [e1, R.bind_ok, f1, R.bind_ok]

/-- **C79** (no width matters).  The results are those of the session in a window that is never resized. -/
theorem C79_same_results {c : OCfg} (hp : Op.Plain c) (hl : 0 < c.h.limit) {keys : List Rune} {b b' : Book} {es : List Event}
    (hr : BookRun (!c.noSave) c.h.limit keys b es b') {o : Op} (h : Ready c o) (hs : Op.Shows c o b) (hi : o.inp = keys)
    {ss : List (List Int × List (List Int))} (hlen : ss.length = es.length) {fuel : Nat} (hf : keys.length < fuel)
    (hss : ∀ s ∈ ss, keys.length < s.2.length ∧ (∀ w ∈ s.1, Op.RoomFor c o w) ∧ ∀ l ∈ s.2, ∀ w ∈ l, Op.RoomFor c o w) :
    (·.1) <$> o.callsW c ss = calls c fuel es.length o := by
  obtain ⟨o1, e1, _⟩ := C79_session hp hl hr h hs (rest := []) (by rw [hi, List.append_nil]) hlen hss
  obtain ⟨o2, e2, _⟩ := C67_session hp hl hr h hs (rest := []) (by rw [hi, List.append_nil]) hf
  rw [e1, e2]; rfl

/-! ### Screen -/

/-- The session after its output so far has been shown: the characters in `out` are those of the output from here on. -/
def Op.shownAll (o : Op) : Op := { o with rb := { o.rb with out := [] } }

section
variable {c : OCfg} {w w' : Nat} {vis : List Rune} {t0 base t1 : Spec.Term} {y y' : Nat}

/-- **C79, the part that holds** (screen).  The line is on the screen and the window gets the width `w'`.  If the terminal rewraps the line,
that is, `t1` shows it from some row `y'` on with the cursor in the right place, then from the next key on the redraws fit the new window:
as long as the call has no result, prompt and line are on the screen from row `y'` on, wrapped at `w'`, with the cursor in the right place,
and the rows above are those of `t1`.  (The conclusion is the hypothesis for the next change of the width.)
Missing: the keys that C69 does not cover; terminals that do not rewrap their rows (`C79_false_rows`). -/
theorem C79_screen_partial (hv : Visible c) {o : Op} (on : OnScreen c.U c.d w vis t0 base y o.rb) (hc : Calm c (TKey c) o) (he : o.events = [])
    (hw : vis.length < w') (h1 : t1.w = w')
    (hs : t1.Shows y' (vis ++ o.rb.buf) (vis.length + o.rb.idx)) {o2 : Op} (hd : During c (o.resize w').shownAll o2) :
    OnScreen c.U c.d w' vis t1 t1 y' o2.rb ∧ Calm c (TKey c) o2 ∧ o2.events = [] := by
  induction hd with
  | here =>
    refine ⟨⟨⟨rfl, on.plain.prompt, hw, on.plain.visS, on.plain.buf, on.plain.idx, on.plain.mask, on.plain.paint, on.plain.unix⟩, on.runes, on.good, on.inter,
      on.hc, h1, hs.st, ?_, fun _ _ _ => rfl, ?_, fun _ => hs⟩, ⟨hc.hist, hc.smode, hc.cmode, hc.nosel, hc.vim, hc.keys, hc.run⟩, he⟩
    · have := hs.row
      rw [h1] at this
      exact this
    · intro a x hx
      have := hs.cells a x (by rw [h1]; exact hx)
      rw [h1] at this
      exact this
  | key h h' he ih =>
    obtain ⟨on, hc, _⟩ := ih
    rcases Op.iter_tty hv.rules on hc h' with ⟨hc1, ⟨on1, _⟩ | ⟨_, he1, _⟩⟩ | hend
    · exact ⟨on1, hc1, he⟩
    · rw [he] at he1; simp at he1
    · have := hend.events
      rw [he] at this; simp at this

end

/-! ### Two instances -/

/-- **C79 is false for two instances.**  Only the instance created last is told of a new width: the callback of `NewOperation` replaces the
one registered before (utils_unix.go:62-63).  The other instance goes on with the width it had. -/
theorem C79_false_two (p : Process) {i j : Nat} (hij : i ≠ j) (a b : Op) (w : Int) :
    (((p.create i a).create j b).winch w).ops i = a ∧ (((p.create i a).create j b).winch w).ops j = b.resize w := by
  unfold Process.winch Process.create
  simp [hij]

/-! ### Where it fails -/

theorem error_of_map {α β} {f : α → β} {x : R α} {e : Fault} (h : f <$> x = .error e) : x = .error e := by
  cases x with
  | error e' => cases h; rfl
  | ok a => cases h

/-- **C79 is false if the prompt fills whole rows of the new window.**  The prompt is `> `, the line `a`, and the window gets the width 2: the
next key, Left, never ends (C15). -/
theorem C79_false_prompt : ∃ o, (o10 [97, CharBackward]).kickRead.iter c0 = .ok o ∧ o.rb.buf = [97] ∧
    (o.resize 2).iter c0 = .error .hang := by
  refine ⟨_, rfl, rfl, error_of_map (f := fun o => o.rb.buf) (by decide +kernel)⟩

/-- Completion with candidates of five columns. -/
def cHello : OCfg := { c0 with auto := offers 0 [str "hello", str "world"] }

/-- **C79 is false of the menu.**  The menu is open in a window of width 10.  When the window gets narrower than a candidate, the menu is
drawn with no columns, and the key after that, a move in the menu, crashes the loop (division by zero, C36).  `C79_no_crash_partial` does
not promise anything for this key: it is one of the keys excluded in C15. -/
theorem C79_false_menu : ∃ o o1 o2, (o10 [CharTab, CharTab, CharForward, CharLineStart]).kickRead.iter cHello = .ok o ∧
    o.iter cHello = .ok o1 ∧ o1.comp.inSelect = true ∧ (o1.resize 3).iter cHello = .ok o2 ∧ o2.iter cHello = .error .panic := by
  refine ⟨_, _, _, rfl, rfl, rfl, rfl, error_of_map (f := fun o => o.rb.buf) (by decide +kernel)⟩

/-- The line `hello wrld` typed in a window of width 10 after the prompt `> `: two rows. -/
def typed10 : R Op := do
  let o ← (o10 (str "hello wrld!")).refreshNil c0
  let o ← o.kickRead.iter c0
  let o ← o.iter c0
  let o ← o.iter c0
  let o ← o.iter c0
  let o ← o.iter c0
  let o ← o.iter c0
  let o ← o.iter c0
  let o ← o.iter c0
  let o ← o.iter c0
  o.iter c0

/-- **C79 is false on a terminal that does not rewrap its rows.**  Nothing is drawn when the width changes, and the next key counts the
rows of the line in the new width.  The line is in rows 1 and 2.  In a window of width 5 the next key takes it for three rows, goes two rows
up and overwrites row 0, which belongs to the output before the prompt.  In a window of width 20 the next key does not go up, and the
line is on the screen twice. -/
theorem C79_false_rows : ∃ o o5 o20, typed10 = .ok o ∧ (screen t10 o.rb).cell 0 0 = 120 ∧
    (o.resize 5).shownAll.iter c0 = .ok o5 ∧ (screen ((screen t10 o.rb).crop 5) o5.rb).cell 0 0 = 62 ∧
    (o.resize 20).shownAll.iter c0 = .ok o20 ∧ (screen ((screen t10 o.rb).crop 20) o20.rb).cell 1 0 = 62 ∧
    (screen ((screen t10 o.rb).crop 20) o20.rb).cell 2 0 = 62 := by
  refine ⟨_, _, _, rfl, by decide +kernel, rfl, by decide +kernel, rfl, by decide +kernel, by decide +kernel⟩

/-! ### Non-trivial cases -/

theorem room0 {keys : List Rune} {w : Int} (h : Room 2 w) : Op.RoomFor c0 (o10 keys) w := by
  intro p hp
  have : (o10 keys).rb.promptLen c0.U = .ok 2 := rfl
  rw [this] at hp
  cases hp
  exact h

/-- A line of three runes with a change of the width before the call, between two keys, twice before Enter, and a second call. -/
example : ∃ o, (o10 (str "abc" ++ [CharEnter, CharPrev, CharEnter])).callsW c0 [([5], [[], [7], [], [3, 40], [], [], []]), ([3], [[20], [], [], [], [], [], []])] =
    .ok ([.line (str "abc"), .line (str "abc")], o) := ⟨_, rfl⟩

/-- The same by the theorem. -/
example : (·.1) <$> (o10 (str "abc" ++ [CharEnter, CharPrev, CharEnter])).callsW c0
      [([5], [[], [7], [], [3, 40], [], [], []]), ([3], [[20], [], [], [], [], [], []])] =
    calls c0 7 2 (o10 (str "abc" ++ [CharEnter, CharPrev, CharEnter])) := by
  refine C79_same_results (es := [.line (str "abc"), .line (str "abc")]) ⟨rfl, by simp [Op.Observer, c0]⟩ (by decide)
    (.call (ks := str "abc") (.cons (.edit (.inl rfl)) (.cons (.edit (.inl rfl)) (.cons (.edit (.inl rfl)) .nil))) (.enter (.inl rfl) (by decide))
      (.call (ks := [CharPrev]) (.cons .older .nil) (.enter (.inl rfl) (by decide)) .done))
    (init_Ready (p := 2) (by decide) rfl (by decide) (by decide) (Hist.fresh_WF []))
    (C67_start c0 _ _ _ _) rfl rfl (by decide) ?_
  intro s hs
  simp only [List.mem_cons, List.not_mem_nil, or_false] at hs
  have key : ∀ w ∈ ([5, 7, 3, 40, 20] : List Int), Op.RoomFor c0 (o10 (str "abc" ++ [CharEnter, CharPrev, CharEnter])) w := fun w hw =>
    room0 (by revert w; decide)
  rcases hs with rfl | rfl
  · refine ⟨by decide, fun w hw => key w (by revert w; decide), fun l hl w hw => key w ?_⟩
    simp only [List.mem_cons, List.not_mem_nil, or_false] at hl
    rcases hl with rfl | rfl | rfl | rfl | rfl | rfl | rfl <;> revert w <;> decide
  · refine ⟨by decide, fun w hw => key w (by revert w; decide), fun l hl w hw => key w ?_⟩
    simp only [List.mem_cons, List.not_mem_nil, or_false] at hl
    rcases hl with rfl | rfl | rfl | rfl | rfl | rfl | rfl <;> revert w <;> decide

/-- The window gets narrower and wider while a line is being typed. -/
example : SessionW c0 (o10 [97, 98]) (((o10 [97, 98]).resize 5).resize 30) := by
  refine .resize 30 (.resize 5 (.start _) (room0 (by decide))) ?_
  exact fun p hp => room0 (keys := [97, 98]) (w := 30) (by decide) p hp

/-- A terminal of width 5 that shows `> hello wrld` from row 4 on. -/
def t5 : Spec.Term := ⟨5, fun a x => if a < 4 then 120 else (str "> hello wrld").getD ((a - 4) * 5 + x) 32, 6, 2, false, .ground⟩

/-- The line typed in a window of width 10; the window gets the width 5 and the terminal rewraps the line; after the next key the line
is wrapped at width 5. -/
example : ∃ o o2, typed10 = .ok o ∧ (o.resize 5).shownAll.iter c0 = .ok o2 ∧ (screen t5 o2.rb).Shows 4 (str "> hello wrld!") 13 := by
  have hk : ∀ r ∈ str "hello wrld!", TKey c0 r := fun r hr => .inl (cell0 (by revert r; decide))
  have hr := Resting.init (c := c0) (t0 := t10) (w := 10) (vis := str "> ") (prompt := str "> ") (h := Hist.fresh []) (keys := str "hello wrld!")
    rfl rfl plain10 (fun i => ⟨by simp [Hist.fresh], by simp [Hist.fresh]⟩) hk
  obtain ⟨o1, o, h1, h2, h3, hb, hi⟩ : ∃ o1 o, (o10 (str "hello wrld!")).refreshNil c0 = .ok o1 ∧ During c0 o1.kickRead o ∧ typed10 = .ok o ∧
      o.rb.buf = str "hello wrld" ∧ o.rb.idx = 10 :=
    ⟨_, _, rfl, .key (.key (.key (.key (.key (.key (.key (.key (.key (.key (.here _) rfl rfl) rfl rfl) rfl rfl) rfl rfl) rfl rfl) rfl rfl) rfl rfl) rfl rfl)
      rfl rfl) rfl rfl, rfl, rfl, rfl⟩
  obtain ⟨on, hc, he⟩ := hr.during visible0 h1 h2
  obtain ⟨o2, h4, hb2, hi2, he2⟩ : ∃ o2, (o.resize 5).shownAll.iter c0 = .ok o2 ∧ o2.rb.buf = str "hello wrld!" ∧ o2.rb.idx = 11 ∧ o2.events = [] := by
    cases h3
    exact ⟨_, rfl, rfl, rfl, rfl⟩
  have := (C79_screen_partial (t1 := t5) (w' := 5) (y' := 4) visible0 on hc he (by decide) rfl (by
    rw [hb, hi]
    refine ⟨fun a x _ => ?_, rfl, rfl, rfl, rfl⟩
    show (if 4 + a < 4 then _ else _) = _
    rw [if_neg (by omega), Nat.add_sub_cancel_left]
    rfl) (.key (.here _) h4 he2)).1.shows (by unfold Plain.Corner; rw [hb2]; simp [str])
  rw [hi2] at this
  unfold shownText at this
  rw [hb2] at this
  exact ⟨o, o2, h3, h4, this⟩

end RL
