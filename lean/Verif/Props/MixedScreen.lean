import Verif.Props.VimScreen
import Verif.Proofs.Shape
/-!
# C95: what a session with searches, completion and vim commands leaves on the terminal

Sessions with the keys of C69, Ctrl-T, the keys of vim mode (C94), Ctrl-R and Ctrl-S (C78), and Tab and the menu (C93), in one session.
Each of the three modes begins and ends with the line alone on the screen, so that they can follow one another in any order.  They cannot
overlap: `C95_false_tab` and `C95_false_search` show what happens if a list is asked for during a search, or a search begun with a list open.
-/

namespace RL
open Spec RB Ed Op

variable {w : Nat} {vis : List Rune} {t0 base : Spec.Term} {y : Nat} {c : OCfg} {f : Completer} {K : Rune → Prop}

/-- The keys of C95: those of C94, of C78, and Tab if there is a completer. -/
def MKey (c : OCfg) (f : Completer) (r : Rune) : Prop :=
  VKey c r ∨ r = CharBckSearch ∨ r = CharFwdSearch ∨ (r = CharTab ∧ c.auto = some f)

theorem MKey.ne {r : Rune} (h : MKey c f r) : r ≠ 0 := by
  rcases h with h | rfl | rfl | ⟨rfl, _⟩
  · exact h.ne
  · decide
  · decide
  · decide

/-- What does not concern the line. -/
structure CalmM (c : OCfg) (w : Nat) (K : Rune → Prop) (o : Op) : Prop where
  hist : o.hist.AllP (Cell c.U)
  shape : o.Shaped w
  vim : o.vimNormal = true → c.vim = true
  keys : ∀ r ∈ o.inp, K r
  run : o.stopped = false

/-- The line is on the screen, alone, with the banner of the search, or with the list of candidates. -/
def VisibleM (c : OCfg) (f : Completer) (w : Nat) (vis : List Rune) (t0 base : Spec.Term) (y : Nat) (o : Op) : Prop :=
  (o.search.inMode = false ∧ o.comp.Shut ∧ OnScreen c.U c.d w vis t0 base y o.rb) ∨
  (o.vimNormal = false ∧ o.comp.Shut ∧ o.search.inMode = true ∧ Seeking c.U c.d w vis t0 base y o.search o.rb) ∨
  (c.auto = some f ∧ o.vimNormal = false ∧ o.search.inMode = false ∧ MenuUp c.U c.d f w vis t0 base y o.comp o.rb)

theorem VisibleM.up {o : Op} (h : VisibleM c f w vis t0 base y o) : LineUp c.U c.d w vis t0 base y o.rb := by
  rcases h with ⟨_, _, h⟩ | ⟨_, _, _, h⟩ | ⟨_, _, _, h⟩
  · exact h.up
  · exact h.shown.up
  · exact h.up

/-- While searching: the banner fits (C78), and the next key is one of C78.  While a list is open: it fits and is not left with Ctrl-K or
the end of the input (C93), and the next key is one of C93.  Otherwise: the condition of C94. -/
structure MixFits (c : OCfg) (f : Completer) (w : Nat) (vis : List Rune) (o : Op) : Prop where
  search : o.search.inMode = true → SearchFits w vis o.search o.rb ∧ ∀ r rest, o.inp = r :: rest → SKey c r
  list : o.comp.inComplete = true → MenuFits f w vis o ∧ ∀ r rest, o.inp = r :: rest → CKey c r
  plain : o.search.inMode = false → o.comp.inComplete = false → VimSafe c o

/-- There is room for the banner or the list that is open. -/
def RoomNow (f : Completer) (w : Nat) (vis : List Rune) (o : Op) : Prop :=
  (o.search.inMode = true → SearchFits w vis o.search o.rb) ∧ (o.comp.inComplete = true → Roomy f w vis o.rb.buf o.rb.idx)

theorem MixFits.room {o : Op} (h : MixFits c f w vis o) : RoomNow f w vis o := ⟨fun e => (h.search e).1, fun e => (h.list e).1.here⟩

/-- What a key may lead to. -/
def NextM (c : OCfg) (f : Completer) (w : Nat) (vis : List Rune) (t0 base : Spec.Term) (y : Nat) (K : Rune → Prop) (o o' : Op) : Prop :=
  CalmM c w K o' ∧ ((VisibleM c f w vis t0 base y o' ∧ o'.events = o.events) ∨
    (o'.search.inMode = false ∧ o'.comp.Shut ∧ ∃ e, o'.events = o.events ++ [e] ∧ Stands c w vis t0 base y e o'.rb))

theorem CalmM.idle {o : Op} (h : CalmM c w K o) (hm : o.search.inMode = false) : Idle w o.search :=
  ⟨hm, (h.shape.2.2 hm).1, h.shape.2.1, (h.shape.2.2 hm).2⟩

theorem NextV.mixed {o o' : Op} (h : NextV c w vis t0 base y K (Stands c w vis t0 base y) o o') (hsh : o'.Shaped w) : NextM c f w vis t0 base y K o o' := by
  obtain ⟨h1, h2⟩ := h
  refine ⟨⟨h1.hist, hsh, h1.vim, h1.keys, h1.run⟩, ?_⟩
  rcases h2 with ⟨h2, h3⟩ | h2
  · exact .inl ⟨.inl ⟨h1.smode, ⟨h1.cmode, h1.nosel⟩, h2⟩, h3⟩
  · exact .inr ⟨h1.smode, ⟨h1.cmode, h1.nosel⟩, h2⟩

theorem NextS.mixed {o o' : Op} (h : NextS c w vis t0 base y K (Stands c w vis t0 base y) o o') (hsh : o'.Shaped w) : NextM c f w vis t0 base y K o o' := by
  obtain ⟨h1, h2⟩ := h
  refine ⟨⟨h1.hist, hsh, fun e => (by rw [h1.vim] at e; cases e), h1.keys, h1.run⟩, ?_⟩
  rcases h2 with ⟨⟨h2, h4⟩ | ⟨h2, h4⟩, h3⟩ | ⟨h2, h3⟩
  · exact .inl ⟨.inl ⟨h2.off, ⟨h1.cmode, h1.nosel⟩, h4⟩, h3⟩
  · exact .inl ⟨.inr (.inl ⟨h1.vim, ⟨h1.cmode, h1.nosel⟩, h2, h4⟩), h3⟩
  · exact .inr ⟨h2.off, ⟨h1.cmode, h1.nosel⟩, h3⟩

theorem NextC.mixed {o o' : Op} (ha : c.auto = some f) (h : NextC c f w vis t0 base y K o o') (hsh : o'.Shaped w) : NextM c f w vis t0 base y K o o' := by
  obtain ⟨h1, h2⟩ := h
  refine ⟨⟨h1.hist, hsh, fun e => (by rw [h1.vim] at e; cases e), h1.keys, h1.run⟩, ?_⟩
  rcases h2 with ⟨⟨h2, h4⟩ | h2, h3⟩ | ⟨h2, h3⟩
  · exact .inl ⟨.inl ⟨h1.smode, h2, h4⟩, h3⟩
  · exact .inl ⟨.inr (.inr ⟨ha, h1.vim, h1.smode, h2⟩), h3⟩
  · exact .inr ⟨h1.smode, h2, h3⟩

namespace Op

/-- One iteration. -/
theorem iter_mixK (hv : Visible c) (hf : c.auto = some f → Helpful c.U f) {o : Op} (hs : VisibleM c f w vis t0 base y o)
    (hc : CalmM c w K o) (hkey0 : ∀ r rest, o.inp = r :: rest → MKey c f r) (hfit : MixFits c f w vis o) {o' : Op} (h : o.iter c = .ok o')
    (hnext : o'.events = o.events → RoomNow f w vis o') :
    NextM c f w vis t0 base y K o o' ∨ Ended w t0 base y o.events o' := by
  have hsh := iter_shaped hc.shape h
  have hsearch : o'.events = o.events → o'.search.inMode = true → SearchFits w vis o'.search o'.rb := fun a => (hnext a).1
  have hlist : o'.events = o.events → o'.comp.inComplete = true → Roomy f w vis o'.rb.buf o'.rb.idx := fun a => (hnext a).2
  rcases hs with ⟨hm, hs, on⟩ | ⟨hn, hs, hm, hk⟩ | ⟨ha, hn, hm, hk⟩
  · have vim : (∀ r rest, o.inp = r :: rest → r ≠ 0 ∧ (o.vimNormal = false → VKey c r)) →
        NextM c f w vis t0 base y K o o' ∨ Ended w t0 base y o.events o' := by
      intro hkey
      rcases iter_modes hv on (K := K) ⟨hc.hist, hm, hs.cmode, hs.nosel, hc.vim, hc.keys, hc.run⟩ hkey (hfit.plain hm hs.cmode) h with g | g
      · exact .inl (g.mixed hsh)
      · exact .inr g
    cases hi : o.inp with
    | nil => exact vim (fun r rest e => by rw [hi] at e; cases e)
    | cons r rest =>
      have hr : MKey c f r := hkey0 r rest hi
      cases hn : o.vimNormal with
      | true =>
        refine vim (fun r' rest' e => ⟨?_, fun e' => by rw [hn] at e'; cases e'⟩)
        rw [hi] at e; cases e
        exact hr.ne
      | false =>
        have seek : SKey c r → NextM c f w vis t0 base y K o o' ∨ Ended w t0 base y o.events o' := by
          intro hr
          rcases iter_seek hv (K := K) (.inl ⟨hc.idle hm, on⟩) ⟨hc.hist, hs.cmode, hs.nosel, hn, hc.keys, hc.run⟩
            (fun r' rest' e => by rw [hi] at e; cases e; exact hr) h hsearch with g | g
          · exact .inl (g.mixed hsh)
          · exact .inr g
        rcases hr with hr | hr | hr | ⟨hr, ha⟩
        · refine vim (fun r' rest' e => ?_)
          rw [hi] at e; cases e
          exact ⟨hr.ne, fun _ => hr⟩
        · exact seek (.inr (.inl hr))
        · exact seek (.inr (.inr hr))
        · rcases iter_list hv ha (hf ha) (K := K) (.inl ⟨hs, on⟩) ⟨hc.hist, hm, hc.shape.1, hn, hc.keys, hc.run⟩
            (fun r' rest' e => by rw [hi] at e; cases e; exact .inr hr) (fun e => by rw [hs.cmode] at e; cases e) h hlist with g | g
          · exact .inl (g.mixed ha hsh)
          · exact .inr g
  · rcases iter_seek hv (K := K) (.inr ⟨hm, hk⟩) ⟨hc.hist, hs.cmode, hs.nosel, hn, hc.keys, hc.run⟩ (hfit.search hm).2 h hsearch with g | g
    · exact .inl (g.mixed hsh)
    · exact .inr g
  · rcases iter_list hv ha (hf ha) (K := K) (.inr hk) ⟨hc.hist, hm, hc.shape.1, hn, hc.keys, hc.run⟩ (hfit.list hk.answer.inComplete).2
      (fun e => (hfit.list e).1) h hlist with g | g
    · exact .inl (g.mixed ha hsh)
    · exact .inr g

theorem iter_mix (hv : Visible c) (hf : c.auto = some f → Helpful c.U f) {o : Op} (hs : VisibleM c f w vis t0 base y o)
    (hc : CalmM c w (MKey c f) o) (hfit : MixFits c f w vis o) {o' : Op} (h : o.iter c = .ok o')
    (hnext : o'.events = o.events → MixFits c f w vis o') :
    NextM c f w vis t0 base y (MKey c f) o o' ∨ Ended w t0 base y o.events o' :=
  iter_mixK hv hf hs hc (fun r rest e => hc.keys r (by rw [e]; simp)) hfit h (fun e => (hnext e).room)

/-- A call of `Readline`, from the prompt on. -/
theorem await_mix (hv : Visible c) (hf : c.auto = some f → Helpful c.U f) {o0 : Op} (hfit : ∀ o', During c o0 o' → MixFits c f w vis o') :
    ∀ (n : Nat) {o : Op}, During c o0 o → VisibleM c f w vis t0 base y o → CalmM c w (MKey c f) o → o.events = [] → ∀ {e o'},
    await c n o = .ok (e, o') → o'.events = [] ∧
    ((CalmM c w (MKey c f) o' ∧ o'.search.inMode = false ∧ o'.comp.Shut ∧ Stands c w vis t0 base y e o'.rb) ∨
     (e = .eof ∧ Ended w t0 base y [] { o' with events := [e] })) := by
  intro n
  induction n with
  | zero =>
    intro o hd on hc he e o' h
    unfold await at h
    rw [he] at h
    cases h
  | succ n ih =>
    intro o hd on hc he e o' h
    rw [await, he] at h
    dsimp only at h
    rw [if_neg (by simp [hc.run])] at h
    obtain ⟨o1, h1, h⟩ := R.bind_inv h
    rcases iter_mix hv hf on hc (hfit o hd) h1 (fun a => hfit o1 (.key hd h1 (a.trans he))) with ⟨hc1, ⟨on1, he1⟩ | ⟨hm1, hi1, e1, he1, hq1⟩⟩ | hend
    · exact ih (.key hd h1 (he1.trans he)) on1 hc1 (he1.trans he) h
    · rw [he, List.nil_append] at he1
      have h : await c n o1 = .ok (e, o') := h
      unfold await at h
      rw [he1] at h
      cases h
      exact ⟨rfl, .inl ⟨⟨hc1.hist, hc1.shape, hc1.vim, hc1.keys, hc1.run⟩, hm1, hi1, hq1⟩⟩
    · have he1 := hend.events
      rw [he, List.nil_append] at he1
      have h : await c n o1 = .ok (e, o') := h
      unfold await at h
      rw [he1] at h
      cases h
      exact ⟨rfl, .inr ⟨rfl, hend.stopped, rfl, hend.row, hend.col, hend.above, hend.cells⟩⟩

end Op

/-! ### Sessions -/

/-- At any moment of the first `n` calls: `MixFits`. -/
def FitsFor (c : OCfg) (f : Completer) (w : Nat) (vis : List Rune) (fuel n : Nat) (o0 : Op) : Prop :=
  ∀ m o o1 o2, m < n → after c fuel m o0 = .ok o → o.refreshNil c = .ok o1 → During c o1.kickRead o2 → MixFits c f w vis o2

/-- Between two calls. -/
structure RestingM (c : OCfg) (f : Completer) (w : Nat) (vis : List Rune) (t0 : Spec.Term) (ps : List (List Rune)) (o : Op) : Prop where
  calm : CalmM c w (MKey c f) o
  smode : o.search.inMode = false
  shut : o.comp.Shut
  between : Between c.U c.d w vis t0 (t0.row + heights w ps) o.rb
  printed : Printed w t0 (screen t0 o.rb) ps
  events : o.events = []

theorem RestingM.readline (hv : Visible c) (hf : c.auto = some f → Helpful c.U f) {o : Op} {ps} (h : RestingM c f w vis t0 ps o) {fuel : Nat} {e o'} (hr : o.readline c fuel = .ok (e, o'))
    (hfit : ∀ o1 o2, o.refreshNil c = .ok o1 → During c o1.kickRead o2 → MixFits c f w vis o2) :
    RestingM c f w vis t0 (ps ++ [paragraph vis c.interruptPrompt c.eofPrompt e]) o' ∨
    (e = .eof ∧ o'.stopped = true ∧ o'.events = [] ∧ Over w t0 (screen t0 o'.rb) ps) := by
  unfold Op.readline at hr
  obtain ⟨o1, h1, hr⟩ := R.bind_inv hr
  have hfit := fun o2 => hfit o1 o2 h1
  obtain ⟨r1, h2, h3⟩ := R.bind_inv h1
  cases h3
  have on := h.between.prompted h2
  have hw : 0 < w := by have := on.plain.pw; omega
  have hc : CalmM c w (MKey c f) (Op.kickRead { o with rb := r1 }) :=
    ⟨h.calm.hist, h.calm.shape, h.calm.vim, h.calm.keys, h.calm.run⟩
  obtain ⟨he, ⟨hc', hm, hi, hb, hab⟩ | ⟨rfl, hend⟩⟩ := Op.await_mix hv hf hfit fuel (o := Op.kickRead { o with rb := r1 }) (.here _) (.inl ⟨h.smode, h.shut, on⟩) hc h.events hr
  · left
    refine ⟨hc', hm, hi, ?_, h.printed.add hw hab, he⟩
    rw [heights_append]
    simp only [heights]
    rw [Nat.add_zero, ← Nat.add_assoc]
    exact hb
  · right
    refine ⟨rfl, hend.stopped, he, hend.row, hend.col, fun a ha c => (hend.above a (by omega) c).trans (h.printed.above a ha c), fun a c hc => ?_⟩
    by_cases ha : a < heights w ps
    · exact (hend.above _ (by omega) c).trans (h.printed.cells a ha c hc)
    · obtain ⟨k, rfl⟩ := Nat.exists_eq_add_of_le (Nat.le_of_not_lt ha)
      have := paper_append_high (w := w) ps [] k c
      rw [List.append_nil] at this
      rw [this, ← Nat.add_assoc]
      exact hend.cells k c hc

theorem RestingM.calls (hv : Visible c) (hf : c.auto = some f → Helpful c.U f) {fuel : Nat} : ∀ (n : Nat) {o : Op} {ps}, RestingM c f w vis t0 ps o → FitsFor c f w vis fuel n o → ∀ {es o'},
    calls c fuel n o = .ok es → after c fuel n o = .ok o' →
    RestingM c f w vis t0 (ps ++ es.map (paragraph vis c.interruptPrompt c.eofPrompt)) o' ∨
    (o'.stopped = true ∧ es.getLast? = some .eof ∧
      Over w t0 (screen t0 o'.rb) (ps ++ es.dropLast.map (paragraph vis c.interruptPrompt c.eofPrompt))) := by
  intro n
  induction n with
  | zero =>
    intro o ps h _ es o' h1 h2
    cases h1; cases h2
    exact .inl (by simpa using h)
  | succ n ih =>
    intro o ps h hroom es o' h1 h2
    rw [RL.calls] at h1
    rw [after] at h2
    obtain ⟨⟨e, o1⟩, g1, h1⟩ := R.bind_inv h1
    obtain ⟨es1, g2, h1⟩ := R.bind_inv h1
    cases h1
    rw [g1, R.bind_ok] at h2
    have hroom1 : FitsFor c f w vis fuel n o1 := fun m a b d hm ha => hroom (m + 1) a b d (by omega) (by rw [after, g1, R.bind_ok]; exact ha)
    rcases h.readline hv hf g1 (fun o1 o2 => hroom 0 o o1 o2 (by omega) rfl) with hr | ⟨rfl, hs, he, ho⟩
    · rcases ih hr hroom1 g2 h2 with hi | ⟨i1, i2, i3⟩
      · left
        rw [List.append_assoc] at hi
        exact hi
      · right
        cases es1 with
        | nil => simp at i2
        | cons e1 es1 =>
          refine ⟨i1, by simpa using i2, ?_⟩
          rw [List.append_assoc] at i3
          exact i3
    · cases n with
      | zero =>
        cases g2; cases h2
        right
        exact ⟨hs, rfl, by simpa using ho⟩
      | succ n =>
        exfalso
        rw [RL.calls] at g2
        obtain ⟨⟨e2, o2⟩, g3, _⟩ := R.bind_inv g2
        unfold Op.readline at g3
        obtain ⟨o3, g4, g3⟩ := R.bind_inv g3
        obtain ⟨r3, _, g5⟩ := R.bind_inv g4
        cases g5
        unfold Op.await at g3
        rw [show (Op.kickRead { o1 with rb := r3 }).events = [] from he] at g3
        dsimp only at g3
        split at g3
        · cases g3
        · rw [if_pos (by exact hs)] at g3; cases g3

/-- A new instance. -/
theorem RestingM.init {prompt : List Rune} {h : Hist} {keys : List Rune} (hw : t0.w = w) (hst : t0.st = .ground)
    (hp : Plain c.U c.d w vis (RB.new prompt true w)) (hh : h.AllP (Cell c.U)) (hk : ∀ r ∈ keys, MKey c f r) :
    RestingM c f w vis t0 [] (Op.init prompt true w h keys) :=
  ⟨⟨hh, ⟨rfl, rfl, fun _ => ⟨rfl, rfl⟩⟩, fun e => (by cases e), hk, rfl⟩, rfl, ⟨rfl, rfl⟩,
   ⟨hp, ⟨by simp [Op.init, RB.new], by simp [Op.init, RB.new], by simp [Op.init, RB.new]⟩,
    ⟨by simp [Op.init, RB.new, Ed.CursorIn], by simp [Op.init, RB.new]⟩, rfl, rfl, rfl, hw, hst, rfl⟩,
   ⟨rfl, fun _ _ _ => rfl, fun _ ha => by simp [heights] at ha, fun h => (h rfl).elim⟩, rfl⟩

/-! ### The theorems -/

/-- **C95, the part that holds** (between two calls).  Sessions with the keys of C69, searches, completion, Ctrl-T and vim commands in any order:
after `n > 0` calls of `Readline` that returned `es`, the screen shows one paragraph per result, and no trace of banners and lists.
Missing: as in C69, apart from these keys; and the moments that `MixFits` excludes, of which `C95_false_tab` and `C95_false_search` are those that
C78, C93 and C94 do not know. -/
theorem C95_transcript_partial (hv : Visible c) (hf : c.auto = some f → Helpful c.U f) {prompt : List Rune} {h : Hist} {keys : List Rune} (hw : t0.w = w) (hst : t0.st = .ground)
    (hp : Plain c.U c.d w vis (RB.new prompt true w)) (hh : h.AllP (Cell c.U)) (hk : ∀ r ∈ keys, MKey c f r) {fuel n : Nat} {es o}
    (hroom : FitsFor c f w vis fuel n (Op.init prompt true w h keys))
    (hn : 0 < n) (h1 : calls c fuel n (Op.init prompt true w h keys) = .ok es) (h2 : after c fuel n (Op.init prompt true w h keys) = .ok o)
    (hs : o.stopped = false) : Over w t0 (screen t0 o.rb) (es.map (paragraph vis c.interruptPrompt c.eofPrompt)) := by
  rcases (RestingM.init hw hst hp hh hk).calls hv hf n hroom h1 h2 with hr | ⟨h3, _⟩
  · have he : es.map (paragraph vis c.interruptPrompt c.eofPrompt) ≠ [] := by
      cases n with
      | zero => omega
      | succ n =>
        rw [calls] at h1
        obtain ⟨_, _, h1⟩ := R.bind_inv h1
        obtain ⟨_, _, h1⟩ := R.bind_inv h1
        cases h1
        simp
    rw [List.nil_append] at hr
    exact ⟨hr.printed.row, (hr.printed.rest he).1, hr.printed.above, hr.printed.all he⟩
  · rw [hs] at h3; cases h3

/-- **C95, the part that holds** (the end of the input).  When the input ends on an empty line, the prompt of the last call is erased. -/
theorem C95_end_partial (hv : Visible c) (hf : c.auto = some f → Helpful c.U f) {prompt : List Rune} {h : Hist} {keys : List Rune} (hw : t0.w = w) (hst : t0.st = .ground)
    (hp : Plain c.U c.d w vis (RB.new prompt true w)) (hh : h.AllP (Cell c.U)) (hk : ∀ r ∈ keys, MKey c f r) {fuel n : Nat} {es o}
    (hroom : FitsFor c f w vis fuel n (Op.init prompt true w h keys))
    (h1 : calls c fuel n (Op.init prompt true w h keys) = .ok es) (h2 : after c fuel n (Op.init prompt true w h keys) = .ok o)
    (hs : o.stopped = true) : es.getLast? = some .eof ∧
      Over w t0 (screen t0 o.rb) (es.dropLast.map (paragraph vis c.interruptPrompt c.eofPrompt)) := by
  rcases (RestingM.init hw hst hp hh hk).calls hv hf n hroom h1 h2 with hr | ⟨_, h4, h5⟩
  · rw [hr.calm.run] at hs; cases hs
  · exact ⟨h4, h5⟩

/-- The paragraphs and below them what is going on. -/
theorem VisibleM.page {T : Spec.Term} {ps : List (List Rune)} {o2 : Op} (on : VisibleM c f w vis t0 base (T.row + heights w ps) o2)
    (hp : Printed w T base ps) (hcalm : CalmM c w K o2) (hfit : RoomNow f w vis o2) :
    (∀ a, a < T.row → ∀ x, (screen t0 o2.rb).cell a x = T.cell a x) ∧
    (o2.comp.inComplete = false → ∀ a x, x < w → (screen t0 o2.rb).cell (T.row + a) x = paper w (ps ++ current vis o2) a x) ∧
    (o2.comp.inComplete = true → (f o2.rb.buf o2.rb.idx).1 ≠ [] ∧ ∃ k cw, Columns w k cw (offered f o2.rb.buf o2.rb.idx) ∧
      ∀ a x, x < w → (screen t0 o2.rb).cell (T.row + a) x =
        if a < heights w (ps ++ [vis ++ o2.rb.buf]) then paper w (ps ++ [vis ++ o2.rb.buf]) a x
        else listing k cw (offered f o2.rb.buf o2.rb.idx) (a - heights w (ps ++ [vis ++ o2.rb.buf])) x) ∧
    (screen t0 o2.rb).row = T.row + heights w ps + (vis.length + o2.rb.idx) / w ∧
    ((if o2.comp.inComplete then 0 < vis.length + o2.rb.idx ∧ vis.length + o2.rb.idx < w else o2.search.inMode = true ∨ ¬ Plain.Corner w vis o2.rb) →
      (screen t0 o2.rb).col = (vis.length + o2.rb.idx) % w) := by
  have hw0 : 0 < w := by have := on.up.plain.pw; omega
  have low : ∀ a x, x < w → a < heights w ps → ∀ q, (screen t0 o2.rb).cell (T.row + a) x = paper w (ps ++ q) a x := by
    intro a x hx ha q
    rw [paper_append_low _ _ _ ha, ← hp.cells a ha x hx]
    exact on.up.above _ (by omega) x
  refine ⟨fun a ha x => (on.up.above a (by omega) x).trans (hp.above a ha x), fun hcl a x hx => ?_, fun hop => ?_, on.up.row, fun hcur => ?_⟩
  · have on2 : Visible2 c w vis t0 base (T.row + heights w ps) o2 := by
      rcases on with ⟨hm, _, on⟩ | ⟨_, _, hm, on⟩ | ⟨_, _, _, hm⟩
      · exact .inl ⟨hcalm.idle hm, on⟩
      · exact .inr ⟨hm, on⟩
      · rw [hm.answer.inComplete] at hcl; cases hcl
    by_cases ha : a < heights w ps
    · exact low a x hx ha _
    · obtain ⟨k, rfl⟩ := Nat.exists_eq_add_of_le (Nat.le_of_not_lt ha)
      rw [paper_append_high, ← Nat.add_assoc]
      exact on2.paper hfit.1 k x hx
  · rcases on with ⟨_, hsh, _⟩ | ⟨_, hsh, _⟩ | ⟨_, _, _, hm⟩
    · rw [hsh.cmode] at hop; cases hop
    · rw [hsh.cmode] at hop; cases hop
    · have hfit := hfit.2 hop
      obtain ⟨k, cw, hcol, hbelow⟩ := hm.shown
      refine ⟨hm.answer.ne, k, cw, hcol, fun a x hx => ?_⟩
      have hlen : 0 < (vis ++ o2.rb.buf).length := by
        refine Nat.pos_of_ne_zero (fun h0 => hfit.edge ?_)
        have := hm.up.plain.idx
        rw [List.length_append] at h0
        rw [h0]
        exact ⟨by omega, Nat.zero_mod _⟩
      have hrows : rows w (vis ++ o2.rb.buf).length = height w (vis ++ o2.rb.buf) := rows_height hw0 hlen
      have hh : heights w (ps ++ [vis ++ o2.rb.buf]) = heights w ps + rows w (vis ++ o2.rb.buf).length := by
        rw [heights_append, hrows]; simp [heights]
      rw [hh]
      by_cases ha : a < heights w ps
      · rw [if_pos (by omega)]; exact low a x hx ha _
      · obtain ⟨b, rfl⟩ := Nat.exists_eq_add_of_le (Nat.le_of_not_lt ha)
        rw [← Nat.add_assoc]
        split
        · next hb =>
          rw [paper_append_high, paper_one hw0 _ _ _ hx]
          exact hm.up.line b x (by show b < rows w (vis ++ o2.rb.buf).length; omega) hx
        · next hb =>
          have := hbelow (b - rows w (vis ++ o2.rb.buf).length) x hx
          rw [show heights w ps + b - (heights w ps + rows w (vis ++ o2.rb.buf).length) = b - rows w (vis ++ o2.rb.buf).length by omega, ← this]
          congr 1
          show _ = T.row + heights w ps + rows w (vis ++ o2.rb.buf).length + _
          omega
  · rcases on with ⟨hm, hsh, on⟩ | ⟨_, hsh, _, hs⟩ | ⟨_, _, _, hm⟩
    · rw [hsh.cmode, if_neg (by simp)] at hcur
      have hn : ¬ Plain.Corner w vis o2.rb := by
        rcases hcur with h | h
        · rw [hm] at h; cases h
        · exact h
      have := (on.shows hn).col
      rw [on.sw] at this
      exact this
    · exact hs.shown.col
    · rw [hm.answer.inComplete, if_pos rfl] at hcur
      rw [hm.col, Nat.mod_eq_of_lt hcur.2]
      omega

/-- **C95, the part that holds** (in the course of a call).  At any moment of a call the screen shows the paragraphs of the previous
calls, below them the prompt and the line as it is at the moment, and nothing else; while searching, the banner below the line; while a list is
open, the answer of the completer to the line as it is at the moment, in columns.  The cursor is in the row of the editing cursor, and on it
(with the exception of C17, and while a list is open if the line up to the cursor is not empty and fits in a row). -/
theorem C95_line_partial (hv : Visible c) (hf : c.auto = some f → Helpful c.U f) {prompt : List Rune} {h : Hist} {keys : List Rune} (hw : t0.w = w) (hst : t0.st = .ground)
    (hp : Plain c.U c.d w vis (RB.new prompt true w)) (hh : h.AllP (Cell c.U)) (hk : ∀ r ∈ keys, MKey c f r) {fuel n : Nat} {es o o1 o2}
    (hroom : FitsFor c f w vis fuel (n + 1) (Op.init prompt true w h keys))
    (h1 : calls c fuel n (Op.init prompt true w h keys) = .ok es) (h2 : after c fuel n (Op.init prompt true w h keys) = .ok o)
    (hs : o.stopped = false) (h3 : o.refreshNil c = .ok o1) (h4 : During c o1.kickRead o2) {ps : List (List Rune)}
    (hps : ps = es.map (paragraph vis c.interruptPrompt c.eofPrompt)) :
    (∀ a, a < t0.row → ∀ x, (screen t0 o2.rb).cell a x = t0.cell a x) ∧
    (o2.comp.inComplete = false → ∀ a x, x < w → (screen t0 o2.rb).cell (t0.row + a) x = paper w (ps ++ current vis o2) a x) ∧
    (o2.comp.inComplete = true → (f o2.rb.buf o2.rb.idx).1 ≠ [] ∧ ∃ k cw, Columns w k cw (offered f o2.rb.buf o2.rb.idx) ∧
      ∀ a x, x < w → (screen t0 o2.rb).cell (t0.row + a) x =
        if a < heights w (ps ++ [vis ++ o2.rb.buf]) then paper w (ps ++ [vis ++ o2.rb.buf]) a x
        else listing k cw (offered f o2.rb.buf o2.rb.idx) (a - heights w (ps ++ [vis ++ o2.rb.buf])) x) ∧
    (screen t0 o2.rb).row = t0.row + heights w ps + (vis.length + o2.rb.idx) / w ∧
    ((if o2.comp.inComplete then 0 < vis.length + o2.rb.idx ∧ vis.length + o2.rb.idx < w else o2.search.inMode = true ∨ ¬ Plain.Corner w vis o2.rb) →
      (screen t0 o2.rb).col = (vis.length + o2.rb.idx) % w) := by
  subst hps
  rcases (RestingM.init hw hst hp hh hk).calls hv hf n (fun m a b d hm => hroom m a b d (by omega)) h1 h2 with hr | ⟨h3, _⟩
  · rw [List.nil_append] at hr
    generalize es.map (paragraph vis c.interruptPrompt c.eofPrompt) = ps at hr ⊢
    have hfit := fun o2 => hroom n o o1 o2 (by omega) h2 h3
    obtain ⟨r1, h5, h6⟩ := R.bind_inv h3
    cases h6
    have key : VisibleM c f w vis t0 (screen t0 o.rb) (t0.row + heights w ps) o2 ∧ CalmM c w (MKey c f) o2 ∧ o2.events = [] := by
      clear hp
      induction h4 with
      | here => exact ⟨.inl ⟨hr.smode, hr.shut, hr.between.prompted h5⟩, ⟨hr.calm.hist, hr.calm.shape, hr.calm.vim, hr.calm.keys, hr.calm.run⟩,
          hr.events⟩
      | key h h' he ih =>
        obtain ⟨on, hc, he0⟩ := ih
        rcases Op.iter_mix hv hf on hc (hfit _ h) h' (fun _ => hfit _ (.key h h' he)) with ⟨hc1, ⟨on1, _⟩ | ⟨_, _, _, he1, _⟩⟩ | hend
        · exact ⟨on1, hc1, he⟩
        · rw [he] at he1; simp at he1
        · have := hend.events
          rw [he] at this
          simp at this
    obtain ⟨on, hcalm, _⟩ := key
    exact on.page hr.printed hcalm (hfit o2 h4).room
  · rw [hs] at h3; cases h3

/-! ### Where it does not hold -/

def cMix : OCfg := { cTools with vim := true }

/-- **C95 is false for Tab during a search.**  The candidates are written below the line, then the search ends and the line is drawn again, which
erases them (operation.go:348-351): a list is open, of which the screen shows nothing. -/
theorem C95_false_tab : ∃ o, pressedC cMix 20 (str "> ") (str "gi" ++ [CharBckSearch, CharTab]) 4 = .ok o ∧ o.rb.buf = str "gi" ∧
    o.comp.inComplete = true ∧ offered toolsF o.rb.buf o.rb.idx = [str "git", str "gimp", str "give"] ∧
    rowText 20 o 1 = str "> gi                " ∧ rowText 20 o 2 = str "                    " ∧ rowText 20 o 3 = str "                    " :=
  ⟨_, rfl, rfl, rfl, by decide, by decide +kernel, by decide +kernel, by decide +kernel⟩

/-- **C95 is false for Ctrl-R while a list is open.**  The banner is written below the line, then the list is closed and the line is drawn again,
which erases it (operation.go:352-355): a search is running, of which the screen shows nothing. -/
theorem C95_false_search : ∃ o, pressedC cMix 20 (str "> ") (str "gi" ++ [CharTab, CharBckSearch]) 4 = .ok o ∧ o.rb.buf = str "gi" ∧
    o.search.inMode = true ∧ rowText 20 o 1 = str "> gi                " ∧ rowText 20 o 2 = str "                    " ∧
    rowText 20 o 3 = str "                    " :=
  ⟨_, rfl, rfl, rfl, by decide +kernel, by decide +kernel, by decide +kernel⟩

/-- **C95 is false for ESC during a search** in vim mode.  The search goes on, but commands of normal mode do not come to the end of the loop
body: after `0` the search is running, and the screen shows nothing of it. -/
theorem C95_false_escape : ∃ o, pressedC cMix 20 (str "> ") (str "gi" ++ [CharBckSearch, CharEsc] ++ str "0") 5 = .ok o ∧ o.rb.buf = str "gi" ∧
    o.search.inMode = true ∧ rowText 20 o 1 = str "> gi                " ∧ rowText 20 o 2 = str "                    " ∧
    rowText 20 o 3 = str "                    " :=
  ⟨_, rfl, rfl, rfl, by decide +kernel, by decide +kernel, by decide +kernel⟩

/-- **C95 is false for ESC while a list is open** in vim mode, in the same way. -/
theorem C95_false_escapeList : ∃ o, pressedC cMix 20 (str "> ") (str "gi" ++ [CharTab, CharEsc] ++ str "0") 5 = .ok o ∧ o.rb.buf = str "gi" ∧
    o.comp.inComplete = true ∧ o.comp.candidate = [str "t", str "mp", str "ve"] ∧
    rowText 20 o 1 = str "> gi                " ∧ rowText 20 o 2 = str "                    " ∧ rowText 20 o 3 = str "                    " :=
  ⟨_, rfl, rfl, rfl, by decide, by decide +kernel, by decide +kernel, by decide +kernel⟩

/-! ### Non-trivial case -/

/-- `MixFits` as a test, for runes of ASCII. -/
def mixB (f : Completer) (w : Nat) (vis : List Rune) (o : Op) : Bool :=
  fitsB w vis o && menuB f w vis o && (o.search.inMode || o.comp.inComplete || safeB o) &&
  (!o.search.inMode || match o.inp with | [] => true | r :: _ => decide ((32 ≤ r ∧ r < 127) ∨ r ∈ [CharEnter, CharBckSearch, CharBackspace, CharInterrupt])) &&
  (!o.comp.inComplete || match o.inp with | [] => true | r :: _ => decide ((32 ≤ r ∧ r < 127) ∨ r ∈ [CharEnter, CharTab, CharBackspace, CharInterrupt, CharForward]))

theorem mixB_ok {o : Op} (hU : c.U = U0) (h : mixB f w vis o = true) : MixFits c f w vis o := by
  unfold mixB at h
  simp only [Bool.and_eq_true] at h
  obtain ⟨⟨⟨⟨h1, h2⟩, h3⟩, h4⟩, h5⟩ := h
  refine ⟨fun hm => ⟨fitsB_ok h1 hm, fun r rest e => ?_⟩, fun hm => ⟨menuB_ok h2 hm, fun r rest e => ?_⟩, fun a b => safeB_ok hU (by simpa [a, b] using h3)⟩
  · rw [hm, e] at h4
    simp only [Bool.not_true, Bool.false_or, decide_eq_true_eq] at h4
    rcases h4 with h4 | h4
    · exact .inl (.inl (by rw [hU]; exact cell0 h4))
    · simp only [List.mem_cons, List.not_mem_nil, or_false] at h4
      rcases h4 with rfl | rfl | rfl | rfl
      · exact .inl (.inr (.inl (by simp)))
      · exact .inr (.inl rfl)
      · exact .inl (.inr (.inl (by simp)))
      · exact .inl (.inr (.inl (by simp)))
  · rw [hm, e] at h5
    simp only [Bool.not_true, Bool.false_or, decide_eq_true_eq] at h5
    rcases h5 with h5 | h5
    · exact .inl (.inl (by rw [hU]; exact cell0 h5))
    · simp only [List.mem_cons, List.not_mem_nil, or_false] at h5
      rcases h5 with rfl | rfl | rfl | rfl | rfl
      · exact .inl (.inr (.inl (by simp)))
      · exact .inr rfl
      · exact .inl (.inr (.inl (by simp)))
      · exact .inl (.inr (.inl (by simp)))
      · exact .inl (.inr (.inl (by simp)))

/-- The keys: `gi` completed through the menu, the second candidate, Return.  Then a search, given up with Ctrl-C, and one that finds this line,
Return.  Then, by way of normal mode, `g` and a list, given up with Ctrl-C, a search, given up with Ctrl-C, and Ctrl-C; Ctrl-D. -/
def keysM : List Rune := str "gi" ++ [CharTab, CharTab, CharForward, CharEnter, CharEnter, CharBckSearch] ++ str "im" ++ [CharBackspace, CharInterrupt,
  CharBckSearch] ++ str "m" ++ [CharBckSearch, CharEnter] ++ [CharEsc] ++ str "ig" ++ [CharTab, CharInterrupt, CharBckSearch, CharInterrupt, CharInterrupt, CharDelete]

theorem mkeysM : ∀ r ∈ keysM, MKey cMix toolsF r := by
  intro r hr
  by_cases h : 32 ≤ r ∧ r < 127
  · exact .inl (.inl (.inl (cell0 h)))
  · by_cases h1 : r = CharEsc
    · exact .inl (.inr (.inl ⟨h1, rfl⟩))
    · by_cases h2 : r = CharBckSearch
      · exact .inr (.inl h2)
      · by_cases h3 : r = CharTab
        · exact .inr (.inr (.inr ⟨h3, rfl⟩))
        · refine .inl (.inl (.inr (.inl ?_)))
          revert h h1 h2 h3; revert r; decide

theorem visibleM : Visible cMix := ⟨visible0.unique, visible0.filter, visible0.observer, visible0.hint, visible0.bye, visible0.brk, visible0.paint⟩

theorem plainM : Plain cMix.U cMix.d 30 (str "> ") (RB.new (str "> ") true 30) := plain30

theorem fitsM : FitsFor cMix toolsF 30 (str "> ") 30 4 (Op.init (str "> ") true 30 (Hist.fresh []) keysM) := by
  intro m o o1 o2 hm h1 h2 h3
  refine mixB_ok rfl (watch_all 14 ?_ h3)
  match m, hm with
  | 0, _ => cases h1; cases h2; decide +kernel
  | 1, _ => cases h1; cases h2; decide +kernel
  | 2, _ => cases h1; cases h2; decide +kernel
  | 3, _ => cases h1; cases h2; decide +kernel

example : ∃ o, after cMix 30 4 (Op.init (str "> ") true 30 (Hist.fresh []) keysM) = .ok o ∧
    Over 30 (tx 30) (screen (tx 30) o.rb) [str "> gimp", str "> gimp", str "> g^C", str "> "] := by
  obtain ⟨o, ho, hs⟩ : ∃ o, after cMix 30 4 (Op.init (str "> ") true 30 (Hist.fresh []) keysM) = .ok o ∧ o.stopped = false := ⟨_, rfl, rfl⟩
  refine ⟨o, ho, ?_⟩
  have := C95_transcript_partial (c := cMix) (f := toolsF) (t0 := tx 30) (w := 30) (vis := str "> ") (keys := keysM) (fuel := 30) (n := 4)
    (es := [.line (str "gimp"), .line (str "gimp"), .interrupt (str "g"), .eof]) visibleM (fun _ => toolsF_helpful) rfl rfl plainM (h := Hist.fresh [])
    (fun i => ⟨by simp [Hist.fresh], by simp [Hist.fresh]⟩) mkeysM fitsM (by decide) (by rfl) ho hs
  exact this

/-- In the course of the third call, with the list open: the line `> g`, and the four commands below it. -/
example : ∃ o o1 o2, after cMix 30 2 (Op.init (str "> ") true 30 (Hist.fresh []) keysM) = .ok o ∧ o.refreshNil cMix = .ok o1 ∧
    During cMix o1.kickRead o2 ∧
    (∃ k cw, Columns 30 k cw [str "git", str "gimp", str "give", str "go"] ∧ ∀ a x, x < 30 → (screen (tx 30) o2.rb).cell (1 + a) x =
      if a < 3 then paper 30 [str "> gimp", str "> gimp", str "> g"] a x else listing k cw [str "git", str "gimp", str "give", str "go"] (a - 3) x) ∧
    (screen (tx 30) o2.rb).row = 3 ∧ (screen (tx 30) o2.rb).col = 3 := by
  obtain ⟨o, ho, hs⟩ : ∃ o, after cMix 30 2 (Op.init (str "> ") true 30 (Hist.fresh []) keysM) = .ok o ∧ o.stopped = false := ⟨_, rfl, rfl⟩
  obtain ⟨o1, h1, o2, h2, hb, hi, hm, hc⟩ : ∃ o1, o.refreshNil cMix = .ok o1 ∧ ∃ o2, During cMix o1.kickRead o2 ∧ o2.rb.buf = str "g" ∧
      o2.rb.idx = 1 ∧ o2.comp.inComplete = true ∧ offered toolsF (str "g") 1 = tools := by
    cases ho
    exact ⟨_, rfl, _, .key (.key (.key (.key (.here _) rfl rfl) rfl rfl) rfl rfl) rfl rfl, rfl, rfl, rfl, rfl⟩
  refine ⟨o, o1, o2, ho, h1, h2, ?_⟩
  have := C95_line_partial (c := cMix) (f := toolsF) (t0 := tx 30) (w := 30) (vis := str "> ") (keys := keysM) (fuel := 30) (n := 2)
    (es := [.line (str "gimp"), .line (str "gimp")]) visibleM (fun _ => toolsF_helpful) rfl rfl plainM (h := Hist.fresh []) (fun i => ⟨by simp [Hist.fresh], by simp [Hist.fresh]⟩)
    mkeysM (fun m a b d hm => fitsM m a b d (by omega)) (by rfl) ho hs h1 h2 rfl
  rw [hb, hi, hc, hm] at this
  exact ⟨(this.2.2.1 rfl).2, this.2.2.2.1, this.2.2.2.2 (by rw [if_pos rfl]; decide)⟩

end RL
