import Verif.Props.MenuScreen
/-! # C94: sessions with vim commands and Ctrl-T on the screen -/

namespace RL
open Spec Term Spec.Term RB

variable {U : UTables} {d : DCfg} {w : Nat} {vis : List Rune} {t0 base : Spec.Term} {y : Nat}

/-- One command; Ctrl-T outside the situation of `C07_false`. -/
theorem OnScreen.any {r r' : RB} (h : OnScreen U d w vis t0 base y r) {k : Cmd} (hk : ∀ x ∈ k.runes, Cell U x)
    (ht : k = .transpose → ¬ (r.buf.length = 1 ∧ r.idx = 1)) (hr : k.apply U d r = .ok r') : OnScreen U d w vis t0 base y r' := by
  refine C17_commands_partial (cs := [k]) h (by simpa using hk) ?_ (by simp only [runCmds]; rw [hr]; rfl)
  intro pre k1 post e r1 e1 htr
  cases pre with
  | cons a pre => cases pre <;> simp at e
  | nil =>
    cases e
    cases e1
    have hcore := (apply_ok hr).1
    cases k <;> simp only [Ed.Trigger] at htr
    case transpose => exact ht rfl htr
    case replace x =>
      rw [(core_replace x r.toEd).2 (by show r.buf.length ≤ r.idx; omega)] at hcore
      cases hcore
    case endWord =>
      rw [(core_endWord h.good.1).1 htr] at hcore
      cases hcore

/-- The keys of C94: those of C69, Ctrl-T, and in vim mode ESC.  (Without vim mode ESC does not reach the line editor: C35.) -/
def VKey (c : OCfg) (r : Rune) : Prop := TKey c r ∨ (r = CharEsc ∧ c.vim = true) ∨ r = CharTranspose

theorem VKey.ne {c : OCfg} {r : Rune} (h : VKey c r) : r ≠ 0 := by
  rcases h with h | ⟨rfl, _⟩ | rfl
  · exact h.ne.1
  · decide
  · decide

/-- What does not concern the line, in either mode of vim. -/
structure CalmV (c : OCfg) (K : Rune → Prop) (o : Op) : Prop where
  hist : o.hist.AllP (Cell c.U)
  smode : o.search.inMode = false
  cmode : o.comp.inComplete = false
  nosel : o.comp.inSelect = false
  vim : o.vimNormal = true → c.vim = true
  keys : ∀ r ∈ o.inp, K r
  run : o.stopped = false

variable {c : OCfg} {K : Rune → Prop} {Q : Event → RB → Prop}

theorem CalmV.calm {o : Op} (h : CalmV c K o) (hv : o.vimNormal = false) : Calm c K o := ⟨h.hist, h.smode, h.cmode, h.nosel, hv, h.keys, h.run⟩
theorem Calm.calmV {o : Op} (h : Calm c K o) : CalmV c K o := ⟨h.hist, h.smode, h.cmode, h.nosel, fun e => (by rw [h.vim] at e; cases e), h.keys, h.run⟩

/-- What a key may lead to. -/
def NextV (c : OCfg) (w : Nat) (vis : List Rune) (t0 base : Spec.Term) (y : Nat) (K : Rune → Prop) (Q : Event → RB → Prop) (o o' : Op) : Prop :=
  CalmV c K o' ∧ ((OnScreen c.U c.d w vis t0 base y o'.rb ∧ o'.events = o.events) ∨ ∃ e, o'.events = o.events ++ [e] ∧ Q e o'.rb)

theorem Next.vim {o o' : Op} (h : Next c w vis t0 base y K Q o o') : NextV c w vis t0 base y K Q o o' := ⟨h.1.calmV, h.2⟩

/-- The two situations that are excluded: a command `r` that is not followed by a rune of one cell, and Ctrl-T at the end of a line of one
rune. -/
structure VimSafe (c : OCfg) (o : Op) : Prop where
  replace : o.vimNormal = true → ∀ rest, o.inp = 114 :: rest → ∃ x rest', rest = x :: rest' ∧ Cell c.U x
  transpose : o.vimNormal = false → ∀ rest, o.inp = CharTranspose :: rest → ¬ (o.rb.buf.length = 1 ∧ o.rb.idx = 1)

/-- Only the line, the input and the mode have changed. -/
structure Stepped (c : OCfg) (w : Nat) (vis : List Rune) (t0 base : Spec.Term) (y : Nat) (o o' : Op) : Prop where
  on : OnScreen c.U c.d w vis t0 base y o'.rb
  hist : o'.hist = o.hist
  search : o'.search = o.search
  comp : o'.comp = o.comp
  events : o'.events = o.events
  stopped : o'.stopped = o.stopped
  keys : ∀ x ∈ o'.inp, x ∈ o.inp

theorem Stepped.trans {o o1 o2 : Op} (h : Stepped c w vis t0 base y o o1) (h' : Stepped c w vis t0 base y o1 o2) : Stepped c w vis t0 base y o o2 :=
  ⟨h'.on, h'.hist.trans h.hist, h'.search.trans h.search, h'.comp.trans h.comp, h'.events.trans h.events, h'.stopped.trans h.stopped,
    fun x hx => h.keys x (h'.keys x hx)⟩

theorem Stepped.next {o o' : Op} (hvim : c.vim = true) (h : Stepped c w vis t0 base y o o') (hc : CalmV c K o) : NextV c w vis t0 base y K Q o o' :=
  ⟨⟨by rw [h.hist]; exact hc.hist, by rw [h.search]; exact hc.smode, by rw [h.comp]; exact hc.cmode, by rw [h.comp]; exact hc.nosel, fun _ => hvim,
    fun x hx => hc.keys x (h.keys x hx), by rw [h.stopped]; exact hc.run⟩, .inl ⟨h.on, h.events⟩⟩

namespace Op

theorem edit_step {o : Op} (on : OnScreen c.U c.d w vis t0 base y o.rb) {k : Cmd} (hk : ∀ x ∈ k.runes, Cell c.U x)
    (ht : k = .transpose → ¬ (o.rb.buf.length = 1 ∧ o.rb.idx = 1)) {o' : Op} (h : o.edit c k = .ok o') :
    ∃ r, o' = { o with rb := r } ∧ OnScreen c.U c.d w vis t0 base y r := by
  obtain ⟨r, h1, h2⟩ := R.bind_inv h
  cases h2
  exact ⟨r, rfl, on.any hk ht h1⟩

theorem readRune_step {o o' : Op} (on : OnScreen c.U c.d w vis t0 base y o.rb) {x : Rune} (h : o.readRune = .ok (x, o')) :
    Stepped c w vis t0 base y o o' ∧ o'.rb = o.rb ∧ ∀ r rest, o.inp = r :: rest → x = r := by
  unfold readRune at h
  split at h
  · cases h
  · dsimp only at h
    split at h
    · next hi =>
      cases h
      exact ⟨⟨on, rfl, rfl, rfl, rfl, rfl, fun x hx => hx⟩, rfl, fun r rest e => by rw [hi] at e; cases e⟩
    · next r rest hi =>
      cases h
      exact ⟨⟨on, rfl, rfl, rfl, rfl, rfl, fun x hx => by rw [hi]; exact List.mem_cons_of_mem _ hx⟩, rfl, fun r' rest' e => by
        rw [hi] at e; cases e; rfl⟩

/-- A movement of normal mode. -/
theorem vimMovement_step {o : Op} (on : OnScreen c.U c.d w vis t0 base y o.rb) {r : Rune}
    (hr : r = 114 → ∃ x rest, o.inp = x :: rest ∧ Cell c.U x) {z : Option (Rune × Op)} (h : vimMovement c r o = .ok z) :
    z = none ∨ ∃ t o', z = some (t, o') ∧
      ((t = 0 ∧ Stepped c w vis t0 base y o o') ∨ (t ∈ [CharBackward, CharNext, CharPrev, CharForward] ∧ o' = o)) := by
  have refl : Stepped c w vis t0 base y o o := ⟨on, rfl, rfl, rfl, rfl, rfl, fun _ hx => hx⟩
  have ed : ∀ {k : Cmd} {o1 : Op} {z : Option (Rune × Op)}, Stepped c w vis t0 base y o o1 → (∀ x ∈ k.runes, Cell c.U x) → k ≠ .transpose →
      ((do let o2 ← o1.edit c k; .ok (some (0, o2))) : R (Option (Rune × Op))) = .ok z → ∃ t o', z = some (t, o') ∧
      ((t = 0 ∧ Stepped c w vis t0 base y o o') ∨ (t ∈ [CharBackward, CharNext, CharPrev, CharForward] ∧ o' = o)) := by
    intro k o1 z h1 hk hk' h
    obtain ⟨o2, h2, h⟩ := R.bind_inv h
    cases h
    obtain ⟨r2, rfl, on2⟩ := edit_step h1.on hk (fun e => (hk' e).elim) h2
    exact ⟨_, _, rfl, .inl ⟨rfl, on2, h1.hist, h1.search, h1.comp, h1.events, h1.stopped, h1.keys⟩⟩
  unfold vimMovement at h
  dsimp only at h
  rcases ite_ok h with ⟨_, h⟩ | ⟨_, h⟩
  · cases h; exact .inr ⟨_, _, rfl, .inr ⟨by simp, rfl⟩⟩
  rcases ite_ok h with ⟨_, h⟩ | ⟨_, h⟩
  · cases h; exact .inr ⟨_, _, rfl, .inr ⟨by simp, rfl⟩⟩
  rcases ite_ok h with ⟨_, h⟩ | ⟨_, h⟩
  · cases h; exact .inr ⟨_, _, rfl, .inr ⟨by simp, rfl⟩⟩
  rcases ite_ok h with ⟨_, h⟩ | ⟨_, h⟩
  · cases h; exact .inr ⟨_, _, rfl, .inr ⟨by simp, rfl⟩⟩
  rcases ite_ok h with ⟨_, h⟩ | ⟨_, h⟩
  · exact .inr (ed refl (by simp [Cmd.runes]) (by simp) h)
  rcases ite_ok h with ⟨_, h⟩ | ⟨_, h⟩
  · exact .inr (ed refl (by simp [Cmd.runes]) (by simp) h)
  rcases ite_ok h with ⟨_, h⟩ | ⟨_, h⟩
  · -- x
    obtain ⟨o1, h1, h⟩ := R.bind_inv h
    obtain ⟨r1, rfl, on1⟩ := edit_step on (by simp [Cmd.runes]) (by simp) h1
    have s1 : Stepped c w vis t0 base y o { o with rb := r1 } := ⟨on1, rfl, rfl, rfl, rfl, rfl, fun _ hx => hx⟩
    rcases ite_ok h with ⟨_, h⟩ | ⟨_, h⟩
    · exact .inr (ed s1 (by simp [Cmd.runes]) (by simp) h)
    · cases h; exact .inr ⟨_, _, rfl, .inl ⟨rfl, s1⟩⟩
  rcases ite_ok h with ⟨h114, h⟩ | ⟨_, h⟩
  · -- r
    obtain ⟨⟨x, o1⟩, h1, h⟩ := R.bind_inv h
    obtain ⟨s1, _, e⟩ := readRune_step on h1
    obtain ⟨x', rest, hi, hx⟩ := hr h114
    have hxx := e _ _ hi
    subst hxx
    exact .inr (ed s1 (by simpa [Cmd.runes] using hx) (by simp) h)
  rcases ite_ok h with ⟨_, h⟩ | ⟨_, h⟩
  · -- d
    obtain ⟨⟨x, o1⟩, h1, h⟩ := R.bind_inv h
    obtain ⟨s1, _, _⟩ := readRune_step on h1
    dsimp only at h
    rcases ite_ok h with ⟨_, h⟩ | ⟨_, h⟩
    · exact .inr (ed s1 (by simp [Cmd.runes]) (by simp) h)
    rcases ite_ok h with ⟨_, h⟩ | ⟨_, h⟩
    · exact .inr (ed s1 (by simp [Cmd.runes]) (by simp) h)
    rcases ite_ok h with ⟨_, h⟩ | ⟨_, h⟩
    · exact .inr (ed s1 (by simp [Cmd.runes]) (by simp) h)
    rcases ite_ok h with ⟨_, h⟩ | ⟨_, h⟩
    · exact .inr (ed s1 (by simp [Cmd.runes]) (by simp) h)
    · cases h; exact .inr ⟨_, _, rfl, .inl ⟨rfl, s1⟩⟩
  rcases ite_ok h with ⟨_, h⟩ | ⟨_, h⟩
  · exact .inr (ed refl (by simp [Cmd.runes]) (by simp) h)
  rcases ite_ok h with ⟨_, h⟩ | ⟨_, h⟩
  · exact .inr (ed refl (by simp [Cmd.runes]) (by simp) h)
  rcases ite_ok h with ⟨_, h⟩ | ⟨_, h⟩
  · exact .inr (ed refl (by simp [Cmd.runes]) (by simp) h)
  rcases ite_ok h with ⟨_, h⟩ | ⟨_, h⟩
  · exact .inr (ed refl (by simp [Cmd.runes]) (by simp) h)
  rcases ite_ok h with ⟨_, h⟩ | ⟨_, h⟩
  · -- f F t T
    obtain ⟨⟨x, o1⟩, h1, h⟩ := R.bind_inv h
    obtain ⟨s1, _, _⟩ := readRune_step on h1
    dsimp only at h
    rcases ite_ok h with ⟨_, h⟩ | ⟨_, h⟩
    · cases h; exact .inr ⟨_, _, rfl, .inl ⟨rfl, s1⟩⟩
    · exact .inr (ed s1 (by simp [Cmd.runes]) (by simp) h)
  · cases h; exact .inl rfl

/-- Entering insert mode. -/
theorem vimEnterInsert_step {o : Op} (on : OnScreen c.U c.d w vis t0 base y o.rb) {r : Rune}
    {z : Option (Rune × Op)} (h : vimEnterInsert c r o = .ok z) :
    z = none ∨ ∃ o', z = some (0, o') ∧ Stepped c w vis t0 base y o o' := by
  have refl : Stepped c w vis t0 base y o o := ⟨on, rfl, rfl, rfl, rfl, rfl, fun _ hx => hx⟩
  have ed : ∀ {k : Cmd} {o1 : Op} {z : Option (Rune × Op)}, Stepped c w vis t0 base y o o1 → (∀ x ∈ k.runes, Cell c.U x) → k ≠ .transpose →
      ((do let o2 ← o1.edit c k; .ok (some (0, { o2 with vimNormal := false }))) : R (Option (Rune × Op))) = .ok z →
      ∃ o', z = some (0, o') ∧ Stepped c w vis t0 base y o o' := by
    intro k o1 z h1 hk hk' h
    obtain ⟨o2, h2, h⟩ := R.bind_inv h
    cases h
    obtain ⟨r2, rfl, on2⟩ := edit_step h1.on hk (fun e => (hk' e).elim) h2
    exact ⟨_, rfl, on2, h1.hist, h1.search, h1.comp, h1.events, h1.stopped, h1.keys⟩
  unfold vimEnterInsert at h
  dsimp only at h
  rcases ite_ok h with ⟨_, h⟩ | ⟨_, h⟩
  · cases h; exact .inr ⟨_, rfl, on, rfl, rfl, rfl, rfl, rfl, fun _ hx => hx⟩
  rcases ite_ok h with ⟨_, h⟩ | ⟨_, h⟩
  · exact .inr (ed refl (by simp [Cmd.runes]) (by simp) h)
  rcases ite_ok h with ⟨_, h⟩ | ⟨_, h⟩
  · exact .inr (ed refl (by simp [Cmd.runes]) (by simp) h)
  rcases ite_ok h with ⟨_, h⟩ | ⟨_, h⟩
  · exact .inr (ed refl (by simp [Cmd.runes]) (by simp) h)
  rcases ite_ok h with ⟨_, h⟩ | ⟨_, h⟩
  · exact .inr (ed refl (by simp [Cmd.runes]) (by simp) h)
  rcases ite_ok h with ⟨_, h⟩ | ⟨_, h⟩
  · exact .inr (ed refl (by simp [Cmd.runes]) (by simp) h)
  rcases ite_ok h with ⟨_, h⟩ | ⟨_, h⟩
  · obtain ⟨⟨x, o1⟩, h1, h⟩ := R.bind_inv h
    obtain ⟨s1, _, _⟩ := readRune_step on h1
    dsimp only at h
    rcases ite_ok h with ⟨_, h⟩ | ⟨_, h⟩
    · exact .inr (ed s1 (by simp [Cmd.runes]) (by simp) h)
    rcases ite_ok h with ⟨_, h⟩ | ⟨_, h⟩
    · exact .inr (ed s1 (by simp [Cmd.runes]) (by simp) h)
    rcases ite_ok h with ⟨_, h⟩ | ⟨_, h⟩
    · exact .inr (ed s1 (by simp [Cmd.runes]) (by simp) h)
    rcases ite_ok h with ⟨_, h⟩ | ⟨_, h⟩
    · exact .inr (ed s1 (by simp [Cmd.runes]) (by simp) h)
    · cases h; exact .inr ⟨_, rfl, s1.on, s1.hist, s1.search, s1.comp, s1.events, s1.stopped, s1.keys⟩
  · cases h; exact .inl rfl

/-- The end of the loop body. -/
theorem finish_modes {o : Op} {k : KeyRes} (hc : CalmV c K k.op) (on : OnScreen c.U c.d w vis t0 base y k.op.rb) (he : k.op.events = o.events)
    {o' : Op} (hf : finish c k = .ok o') : NextV c w vis t0 base y K Q o o' := by
  have hs : settle c k = .ok k.op := by
    unfold settle
    rw [if_neg (by simp [hc.smode]), if_neg (by simp [hc.cmode])]
  unfold finish at hf
  rw [hs, R.bind_ok] at hf
  split at hf
  · cases hf
    exact ⟨⟨hc.hist.update on.runes.buf false, hc.smode, hc.cmode, hc.nosel, hc.vim, hc.keys, hc.run⟩, .inl ⟨on, he⟩⟩
  · cases hf; exact ⟨hc, .inl ⟨on, he⟩⟩

/-- A key that normal mode translates. -/
theorem dispatch_arrow (hv : Visible c) {o : Op} (on : OnScreen c.U c.d w vis t0 base y o.rb) (hc : CalmV c K o) {r : Rune}
    (hr : r ∈ [CharBackward, CharNext, CharPrev, CharForward]) {o' : Op} (h : o.dispatch c r = .ok o') : NextV c w vis t0 base y K Q o o' := by
  obtain ⟨k, h1, h⟩ := R.bind_inv h
  rw [listen_observer hv.observer, R.bind_ok] at h
  have simple : ∀ {x}, simpleKey r = some x → r ≠ CharTranspose → NextV c w vis t0 base y K Q o o' := by
    intro x hx hn
    rw [key_simple hx] at h1
    obtain ⟨o1, h2, h1⟩ := R.bind_inv h1
    cases h1
    obtain ⟨t1, t2⟩ := simpleKey_tame (c := c) hx hn
    obtain ⟨r1, rfl, on1⟩ := edit_tty on t1 t2 h2
    exact finish_modes (o := o) ⟨hc.hist, hc.smode, hc.cmode, hc.nosel, hc.vim, hc.keys, hc.run⟩ on1 rfl h
  simp only [List.mem_cons, List.not_mem_nil, or_false] at hr
  rcases hr with rfl | rfl | rfl | rfl
  · exact simple rfl (by decide)
  · rw [key_next] at h1
    unfold keyNext at h1
    cases hn : o.hist.nextLine with
    | mk b h' =>
      rw [hn] at h1
      obtain ⟨a1, a2⟩ := hc.hist.nextLine hn
      cases b with
      | none =>
        cases h1
        exact finish_modes (o := o) ⟨a1, hc.smode, hc.cmode, hc.nosel, hc.vim, hc.keys, hc.run⟩ on.bell rfl h
      | some l =>
        obtain ⟨o1, h2, h1⟩ := R.bind_inv h1
        obtain ⟨r1, rfl, on1⟩ := edit_tty (o := { o with hist := h' }) on (by simpa [Cmd.runes] using a2 l rfl) (by simp) h2
        cases h1
        exact finish_modes (o := o) ⟨a1, hc.smode, hc.cmode, hc.nosel, hc.vim, hc.keys, hc.run⟩ on1 rfl h
  · rw [key_prev] at h1
    unfold keyPrev at h1
    cases hn : o.hist.prev with
    | mk b h' =>
      rw [hn] at h1
      obtain ⟨a1, a2⟩ := hc.hist.prev hn
      cases b with
      | none =>
        cases h1
        exact finish_modes (o := o) ⟨a1, hc.smode, hc.cmode, hc.nosel, hc.vim, hc.keys, hc.run⟩ on.bell rfl h
      | some l =>
        obtain ⟨o1, h2, h1⟩ := R.bind_inv h1
        obtain ⟨r1, rfl, on1⟩ := edit_tty (o := { o with hist := h' }) on (by simpa [Cmd.runes] using a2 l rfl) (by simp) h2
        cases h1
        exact finish_modes (o := o) ⟨a1, hc.smode, hc.cmode, hc.nosel, hc.vim, hc.keys, hc.run⟩ on1 rfl h
  · exact simple rfl (by decide)

/-- Keys outside normal mode. -/
theorem dispatch_insert (hv : Visible c) {o : Op} (on : OnScreen c.U c.d w vis t0 base y o.rb) (hc : CalmV c K o) (hm : o.vimNormal = false)
    {r : Rune} (hr : ((TKey c r ∨ (r = CharTranspose ∧ ¬ (o.rb.buf.length = 1 ∧ o.rb.idx = 1))) ∧ o.gate = stopKey r) ∨ r = CharEnter)
    {o' : Op} (h : o.dispatch c r = .ok o') : NextV c w vis t0 base y K (Stands c w vis t0 base y) o o' := by
  obtain ⟨k, h1, h2⟩ := R.bind_inv h
  rw [listen_observer hv.observer, R.bind_ok] at h2
  rcases hr with ⟨hr | ⟨rfl, ht⟩, hg⟩ | rfl
  · exact (finish_tty (fun _ _ h => h.1.runes.buf) (key_tty hv on (hc.calm hm) hr hg h1) h2).vim
  · rw [key_simple rfl] at h1
    obtain ⟨o1, h3, h1⟩ := R.bind_inv h1
    cases h1
    obtain ⟨r1, rfl, on1⟩ := edit_step on (by simp [Cmd.runes]) (fun _ => ht) h3
    exact finish_modes (o := o) ⟨hc.hist, hc.smode, hc.cmode, hc.nosel, hc.vim, hc.keys, hc.run⟩ on1 rfl h2
  · have h1 : keyEnter c o = .ok k := h1
    exact (finish_tty (fun _ _ h => h.1.runes.buf) (keyEnter_tty hv on.up (hc.calm hm) h1) h2).vim

/-- A key of normal mode. -/
theorem normal_vim (hv : Visible c) (hvim : c.vim = true) {o : Op} (on : OnScreen c.U c.d w vis t0 base y o.rb) (hc : CalmV c K o)
    (hm : o.vimNormal = true) {r : Rune} (hr : r = 114 → ∃ x rest, o.inp = x :: rest ∧ Cell c.U x)
    (hg : (r = CharInterrupt → o.gate = stopKey r)) {o' : Op} (h : o.viaVim c r = .ok o') :
    NextV c w vis t0 base y K (Stands c w vis t0 base y) o o' := by
  unfold viaVim at h
  rw [if_pos hvim] at h
  unfold handleVim at h
  rw [if_pos hm] at h
  obtain ⟨⟨t, o1⟩, h1, hd⟩ := R.bind_inv h
  clear h
  unfold vimNormalKey at h1
  split at h1
  · next hend =>
    cases h1
    dsimp only at hd
    rw [if_neg (by rcases hend with rfl | rfl <;> decide)] at hd
    have := dispatch_insert (o := { o with vimNormal := false }) hv on ⟨hc.hist, hc.smode, hc.cmode, hc.nosel, fun _ => hvim, hc.keys, hc.run⟩ rfl (by
      rcases hend with rfl | rfl
      · exact .inr rfl
      · exact .inl ⟨.inl (.inr (.inl (by simp))), hg rfl⟩) hd
    exact this
  · obtain ⟨z, h2, h1⟩ := R.bind_inv h1
    rcases vimMovement_step on hr h2 with rfl | ⟨t', o2, rfl, ⟨rfl, s⟩ | ⟨ht, rfl⟩⟩
    · dsimp only at h1
      obtain ⟨z, h3, h1⟩ := R.bind_inv h1
      rcases vimEnterInsert_step on h3 with rfl | ⟨o2, rfl, s⟩
      · cases h1
        dsimp only at hd
        rw [if_pos rfl] at hd
        cases hd
        exact ⟨⟨hc.hist, hc.smode, hc.cmode, hc.nosel, hc.vim, hc.keys, hc.run⟩, .inl ⟨on.bell, rfl⟩⟩
      · cases h1
        dsimp only at hd
        rw [if_pos rfl] at hd
        cases hd
        exact s.next hvim hc
    · cases h1
      dsimp only at hd
      rw [if_pos rfl] at hd
      cases hd
      exact s.next hvim hc
    · cases h1
      dsimp only at hd
      rw [if_neg (by
        simp only [List.mem_cons, List.not_mem_nil, or_false] at ht
        rcases ht with rfl | rfl | rfl | rfl <;> decide)] at hd
      exact dispatch_arrow hv on hc ht hd

/-- One iteration. -/
theorem iter_modes (hv : Visible c) {o : Op} (on : OnScreen c.U c.d w vis t0 base y o.rb) (hc : CalmV c K o)
    (hkey : ∀ r rest, o.inp = r :: rest → r ≠ 0 ∧ (o.vimNormal = false → VKey c r)) (hsafe : VimSafe c o) {o' : Op} (h : o.iter c = .ok o') :
    NextV c w vis t0 base y K (Stands c w vis t0 base y) o o' ∨ Ended w t0 base y o.events o' := by
  by_cases hl : o.Live
  · cases hi : o.inp with
    | cons r rest =>
      left
      obtain ⟨h0, hr⟩ := hkey r rest hi
      have hc' : CalmV c K (o.took r rest) := ⟨hc.hist, hc.smode, hc.cmode, hc.nosel, hc.vim, fun x hx => hc.keys x (by
        rw [hi]; exact List.mem_cons_of_mem _ hx), hc.run⟩
      unfold iter at h
      rw [readRune_live hl hi, R.bind_ok] at h
      unfold accept at h
      rw [hv.filter] at h
      dsimp only at h
      unfold handle at h
      rw [if_neg h0] at h
      unfold viaMenu at h
      rw [if_neg (by show ¬ o.comp.inSelect = true; simp [hc.nosel])] at h
      cases hm : o.vimNormal with
      | true =>
        refine normal_vim (o := o.took r rest) hv (hc.vim hm) on hc' hm (fun e => ?_) (fun _ => rfl) h
        obtain ⟨x, rest', e1, e2⟩ := hsafe.replace hm rest (by rw [hi, e])
        exact ⟨x, rest', e1, e2⟩
      | false =>
        have hr := hr hm
        by_cases hesc : r = CharEsc
        · subst hesc
          have hvim : c.vim = true := by
            rcases hr with hr | ⟨_, hr⟩ | hr
            · exact (hr.ne.2 rfl).elim
            · exact hr
            · exact absurd hr (by decide)
          unfold viaVim at h
          rw [if_pos hvim] at h
          unfold handleVim at h
          rw [if_neg (by show ¬ o.vimNormal = true; simp [hm]), if_pos rfl, R.bind_ok] at h
          dsimp only at h
          rw [if_pos rfl] at h
          cases h
          exact ⟨⟨hc'.hist, hc'.smode, hc'.cmode, hc'.nosel, fun _ => hvim, hc'.keys, hc'.run⟩, .inl ⟨on, rfl⟩⟩
        · rw [viaVim_emacs (o := o.took r rest) hm hr.ne hesc] at h
          refine dispatch_insert (o := o.took r rest) hv on hc' hm (.inl ⟨?_, rfl⟩) h
          rcases hr with hr | ⟨hr, _⟩ | rfl
          · exact .inl hr
          · exact (hesc hr).elim
          · exact .inr ⟨rfl, hsafe.transpose hm rest hi⟩
    | nil =>
      unfold iter at h
      rw [readRune_end hl hi, R.bind_ok] at h
      unfold accept at h
      rw [hv.filter] at h
      dsimp only at h
      unfold handle at h
      rw [if_pos rfl] at h
      generalize (if o.gate = true then false else o.kick) = q at h
      have hc' : CalmV c K { o with gate := false, kick := q } :=
        ⟨hc.hist, hc.smode, hc.cmode, hc.nosel, hc.vim, hc.keys, hc.run⟩
      split at h
      · right
        obtain ⟨o1, h1, h⟩ := R.bind_inv h
        cases h
        obtain ⟨r1, h2, h3⟩ := R.bind_inv h1
        cases h3
        obtain ⟨g1, g2, _, _, g5, g6⟩ := on.up.erased h2
        exact ⟨rfl, rfl, g1, g2, g5, g6⟩
      · left
        unfold viaMenu at h
        rw [if_neg (by show ¬ o.comp.inSelect = true; simp [hc.nosel])] at h
        cases hm : o.vimNormal with
        | true =>
          exact normal_vim (o := { o with gate := false, kick := q }) hv (hc.vim hm) on hc' hm (fun e => by cases e) (fun e => by cases e) h
        | false =>
          rw [viaVim_emacs (o := { o with gate := false, kick := q }) hm (by decide) (by decide)] at h
          exact dispatch_insert (o := { o with gate := false, kick := q }) hv on hc' hm (.inr rfl) h
  · unfold iter readRune at h
    rw [if_pos (by
      unfold Live at hl
      simp only [not_or] at hl
      exact ⟨by simpa using hl.1, by simpa using hl.2⟩)] at h
    cases h

/-- A call of `Readline`, from the prompt on. -/
theorem await_modes (hv : Visible c) {o0 : Op} (hsafe : ∀ o', During c o0 o' → VimSafe c o') :
    ∀ (n : Nat) {o : Op}, During c o0 o → OnScreen c.U c.d w vis t0 base y o.rb → CalmV c (VKey c) o → o.events = [] → ∀ {e o'},
    await c n o = .ok (e, o') → o'.events = [] ∧
    ((CalmV c (VKey c) o' ∧ Stands c w vis t0 base y e o'.rb) ∨
     (e = .eof ∧ Ended w t0 base y [] { o' with events := [e] })) := by
  intro n
  induction n with
  | zero =>
    intro o hd on hc he e o' h
    unfold await at h
    rw [he] at h
    cases h
  | succ n ih =>
    intro o hd on hc he e o' h
    rw [await, he] at h
    dsimp only at h
    rw [if_neg (by simp [hc.run])] at h
    obtain ⟨o1, h1, h⟩ := R.bind_inv h
    rcases iter_modes hv on hc (fun r rest e => (fun k => ⟨k.ne, fun _ => k⟩) (hc.keys r (by rw [e]; simp))) (hsafe o hd) h1 with ⟨hc1, ⟨on1, he1⟩ | ⟨e1, he1, hq1⟩⟩ | hend
    · exact ih (.key hd h1 (he1.trans he)) on1 hc1 (he1.trans he) h
    · rw [he, List.nil_append] at he1
      have h : await c n o1 = .ok (e, o') := h
      unfold await at h
      rw [he1] at h
      cases h
      exact ⟨rfl, .inl ⟨⟨hc1.hist, hc1.smode, hc1.cmode, hc1.nosel, hc1.vim, hc1.keys, hc1.run⟩, hq1⟩⟩
    · have he1 := hend.events
      rw [he, List.nil_append] at he1
      have h : await c n o1 = .ok (e, o') := h
      unfold await at h
      rw [he1] at h
      cases h
      exact ⟨rfl, .inr ⟨rfl, hend.stopped, rfl, hend.row, hend.col, hend.above, hend.cells⟩⟩

end Op

/-! ### Sessions -/

/-- At any moment of the first `n` calls: `VimSafe`. -/
def SafeFor (c : OCfg) (fuel n : Nat) (o0 : Op) : Prop :=
  ∀ m o o1 o2, m < n → after c fuel m o0 = .ok o → o.refreshNil c = .ok o1 → During c o1.kickRead o2 → VimSafe c o2

/-- Between two calls. -/
structure RestingV (c : OCfg) (w : Nat) (vis : List Rune) (t0 : Spec.Term) (ps : List (List Rune)) (o : Op) : Prop where
  calm : CalmV c (VKey c) o
  between : Between c.U c.d w vis t0 (t0.row + heights w ps) o.rb
  printed : Printed w t0 (screen t0 o.rb) ps
  events : o.events = []

theorem RestingV.readline (hv : Visible c) {o : Op} {ps} (h : RestingV c w vis t0 ps o) {fuel : Nat} {e o'} (hr : o.readline c fuel = .ok (e, o'))
    (hsafe : ∀ o1 o2, o.refreshNil c = .ok o1 → During c o1.kickRead o2 → VimSafe c o2) :
    RestingV c w vis t0 (ps ++ [paragraph vis c.interruptPrompt c.eofPrompt e]) o' ∨
    (e = .eof ∧ o'.stopped = true ∧ o'.events = [] ∧ Over w t0 (screen t0 o'.rb) ps) := by
  unfold Op.readline at hr
  obtain ⟨o1, h1, hr⟩ := R.bind_inv hr
  have hsafe := fun o2 => hsafe o1 o2 h1
  obtain ⟨r1, h2, h3⟩ := R.bind_inv h1
  cases h3
  have on := h.between.prompted h2
  have hw : 0 < w := by have := on.plain.pw; omega
  have hc : CalmV c (VKey c) (Op.kickRead { o with rb := r1 }) :=
    ⟨h.calm.hist, h.calm.smode, h.calm.cmode, h.calm.nosel, h.calm.vim, h.calm.keys, h.calm.run⟩
  obtain ⟨he, ⟨hc', hb, ha⟩ | ⟨rfl, hend⟩⟩ := Op.await_modes hv hsafe fuel (o := Op.kickRead { o with rb := r1 }) (.here _) on hc h.events hr
  · left
    refine ⟨hc', ?_, h.printed.add hw ha, he⟩
    rw [heights_append]
    simp only [heights]
    rw [Nat.add_zero, ← Nat.add_assoc]
    exact hb
  · right
    refine ⟨rfl, hend.stopped, he, hend.row, hend.col, fun a ha c => (hend.above a (by omega) c).trans (h.printed.above a ha c), fun a c hc => ?_⟩
    by_cases ha : a < heights w ps
    · exact (hend.above _ (by omega) c).trans (h.printed.cells a ha c hc)
    · obtain ⟨k, rfl⟩ := Nat.exists_eq_add_of_le (Nat.le_of_not_lt ha)
      have := paper_append_high (w := w) ps [] k c
      rw [List.append_nil] at this
      rw [this, ← Nat.add_assoc]
      exact hend.cells k c hc

theorem RestingV.calls (hv : Visible c) {fuel : Nat} : ∀ (n : Nat) {o : Op} {ps}, RestingV c w vis t0 ps o → SafeFor c fuel n o → ∀ {es o'},
    calls c fuel n o = .ok es → after c fuel n o = .ok o' →
    RestingV c w vis t0 (ps ++ es.map (paragraph vis c.interruptPrompt c.eofPrompt)) o' ∨
    (o'.stopped = true ∧ es.getLast? = some .eof ∧
      Over w t0 (screen t0 o'.rb) (ps ++ es.dropLast.map (paragraph vis c.interruptPrompt c.eofPrompt))) := by
  intro n
  induction n with
  | zero =>
    intro o ps h _ es o' h1 h2
    cases h1; cases h2
    exact .inl (by simpa using h)
  | succ n ih =>
    intro o ps h hsafe es o' h1 h2
    rw [RL.calls] at h1
    rw [after] at h2
    obtain ⟨⟨e, o1⟩, g1, h1⟩ := R.bind_inv h1
    obtain ⟨es1, g2, h1⟩ := R.bind_inv h1
    cases h1
    rw [g1, R.bind_ok] at h2
    have hsafe1 : SafeFor c fuel n o1 := fun m a b d hm ha => hsafe (m + 1) a b d (by omega) (by rw [after, g1, R.bind_ok]; exact ha)
    rcases h.readline hv g1 (fun o1 o2 => hsafe 0 o o1 o2 (by omega) rfl) with hr | ⟨rfl, hs, he, ho⟩
    · rcases ih hr hsafe1 g2 h2 with hi | ⟨i1, i2, i3⟩
      · left
        rw [List.append_assoc] at hi
        exact hi
      · right
        cases es1 with
        | nil => simp at i2
        | cons e1 es1 =>
          refine ⟨i1, by simpa using i2, ?_⟩
          rw [List.append_assoc] at i3
          exact i3
    · cases n with
      | zero =>
        cases g2; cases h2
        right
        exact ⟨hs, rfl, by simpa using ho⟩
      | succ n =>
        exfalso
        rw [RL.calls] at g2
        obtain ⟨⟨e2, o2⟩, g3, _⟩ := R.bind_inv g2
        unfold Op.readline at g3
        obtain ⟨o3, g4, g3⟩ := R.bind_inv g3
        obtain ⟨r3, _, g5⟩ := R.bind_inv g4
        cases g5
        unfold Op.await at g3
        rw [show (Op.kickRead { o1 with rb := r3 }).events = [] from he] at g3
        dsimp only at g3
        split at g3
        · cases g3
        · rw [if_pos (by exact hs)] at g3; cases g3

/-- A new instance. -/
theorem RestingV.init {prompt : List Rune} {h : Hist} {keys : List Rune} (hw : t0.w = w) (hst : t0.st = .ground)
    (hp : Plain c.U c.d w vis (RB.new prompt true w)) (hh : h.AllP (Cell c.U)) (hk : ∀ r ∈ keys, VKey c r) :
    RestingV c w vis t0 [] (Op.init prompt true w h keys) :=
  ⟨⟨hh, rfl, rfl, rfl, fun e => (by cases e), hk, rfl⟩,
   ⟨hp, ⟨by simp [Op.init, RB.new], by simp [Op.init, RB.new], by simp [Op.init, RB.new]⟩,
    ⟨by simp [Op.init, RB.new, Ed.CursorIn], by simp [Op.init, RB.new]⟩, rfl, rfl, rfl, hw, hst, rfl⟩,
   ⟨rfl, fun _ _ _ => rfl, fun _ ha => by simp [heights] at ha, fun h => (h rfl).elim⟩, rfl⟩

/-- **C94, the part that holds** (between two calls).  Sessions with the keys of C69, Ctrl-T, and the keys of vim mode: after `n > 0` calls of `Readline` that returned `es`, the screen shows, from the
row on in which the session began, one paragraph per result: prompt and line, with the hint for an interrupted line and at Ctrl-D.
What stood above is untouched, below is nothing, and the cursor is at the start of the row below.
Missing: as in C69, apart from Ctrl-T and the keys of vim mode; and sessions in which a command `r` is not followed by a rune of one cell
(`C94_false_replace`), or Ctrl-T comes at the end of a line of one rune (`C94_false_transpose`). -/
theorem C94_transcript_partial (hv : Visible c) {prompt : List Rune} {h : Hist} {keys : List Rune} (hw : t0.w = w) (hst : t0.st = .ground)
    (hp : Plain c.U c.d w vis (RB.new prompt true w)) (hh : h.AllP (Cell c.U)) (hk : ∀ r ∈ keys, VKey c r) {fuel n : Nat} {es o}
    (hsafe : SafeFor c fuel n (Op.init prompt true w h keys))
    (hn : 0 < n) (h1 : calls c fuel n (Op.init prompt true w h keys) = .ok es) (h2 : after c fuel n (Op.init prompt true w h keys) = .ok o)
    (hs : o.stopped = false) : Over w t0 (screen t0 o.rb) (es.map (paragraph vis c.interruptPrompt c.eofPrompt)) := by
  rcases (RestingV.init hw hst hp hh hk).calls hv n hsafe h1 h2 with hr | ⟨h3, _⟩
  · have he : es.map (paragraph vis c.interruptPrompt c.eofPrompt) ≠ [] := by
      cases n with
      | zero => omega
      | succ n =>
        rw [calls] at h1
        obtain ⟨_, _, h1⟩ := R.bind_inv h1
        obtain ⟨_, _, h1⟩ := R.bind_inv h1
        cases h1
        simp
    rw [List.nil_append] at hr
    exact ⟨hr.printed.row, (hr.printed.rest he).1, hr.printed.above, hr.printed.all he⟩
  · rw [hs] at h3; cases h3

/-- **C94, the part that holds** (the end of the input).  When the input ends on an empty line, the prompt of the last call is erased. -/
theorem C94_end_partial (hv : Visible c) {prompt : List Rune} {h : Hist} {keys : List Rune} (hw : t0.w = w) (hst : t0.st = .ground)
    (hp : Plain c.U c.d w vis (RB.new prompt true w)) (hh : h.AllP (Cell c.U)) (hk : ∀ r ∈ keys, VKey c r) {fuel n : Nat} {es o}
    (hsafe : SafeFor c fuel n (Op.init prompt true w h keys))
    (h1 : calls c fuel n (Op.init prompt true w h keys) = .ok es) (h2 : after c fuel n (Op.init prompt true w h keys) = .ok o)
    (hs : o.stopped = true) : es.getLast? = some .eof ∧
      Over w t0 (screen t0 o.rb) (es.dropLast.map (paragraph vis c.interruptPrompt c.eofPrompt)) := by
  rcases (RestingV.init hw hst hp hh hk).calls hv n hsafe h1 h2 with hr | ⟨_, h4, h5⟩
  · rw [hr.calm.run] at hs; cases hs
  · exact ⟨h4, h5⟩

/-- In the course of a call the line is on the screen. -/
theorem RestingV.during (hv : Visible c) {o o1 o2 : Op} {ps} (hr : RestingV c w vis t0 ps o) (h3 : o.refreshNil c = .ok o1)
    (hsafe : ∀ o2, During c o1.kickRead o2 → VimSafe c o2) (h4 : During c o1.kickRead o2) :
    OnScreen c.U c.d w vis t0 (screen t0 o.rb) (t0.row + heights w ps) o2.rb ∧ CalmV c (VKey c) o2 ∧ o2.events = [] := by
  obtain ⟨r1, h5, h6⟩ := R.bind_inv h3
  cases h6
  induction h4 with
  | here => exact ⟨hr.between.prompted h5, ⟨hr.calm.hist, hr.calm.smode, hr.calm.cmode, hr.calm.nosel, hr.calm.vim, hr.calm.keys, hr.calm.run⟩,
      hr.events⟩
  | key h h' he ih =>
    obtain ⟨on, hc, _⟩ := ih
    rcases Op.iter_modes hv on hc (fun r rest e => (fun k => ⟨k.ne, fun _ => k⟩) (hc.keys r (by rw [e]; simp))) (hsafe _ h) h' with ⟨hc1, ⟨on1, _⟩ | ⟨_, he1, _⟩⟩ | hend
    · exact ⟨on1, hc1, he⟩
    · rw [he] at he1; simp at he1
    · have := hend.events
      rw [he] at this
      simp at this

/-- **C94, the part that holds** (in the course of a call).  At any moment of a call the screen shows the paragraphs of the previous
calls and below them the prompt and the line as it is at the moment, and nothing else; the cursor is on the rune under the editing
cursor (with the exception of C17). -/
theorem C94_line_partial (hv : Visible c) {prompt : List Rune} {h : Hist} {keys : List Rune} (hw : t0.w = w) (hst : t0.st = .ground)
    (hp : Plain c.U c.d w vis (RB.new prompt true w)) (hh : h.AllP (Cell c.U)) (hk : ∀ r ∈ keys, VKey c r) {fuel n : Nat} {es o o1 o2}
    (hsafe : SafeFor c fuel (n + 1) (Op.init prompt true w h keys))
    (h1 : calls c fuel n (Op.init prompt true w h keys) = .ok es) (h2 : after c fuel n (Op.init prompt true w h keys) = .ok o)
    (hs : o.stopped = false) (h3 : o.refreshNil c = .ok o1) (h4 : During c o1.kickRead o2) :
    (∀ a, a < t0.row → ∀ x, (screen t0 o2.rb).cell a x = t0.cell a x) ∧
    (∀ a x, x < w → (screen t0 o2.rb).cell (t0.row + a) x =
      paper w (es.map (paragraph vis c.interruptPrompt c.eofPrompt) ++ [vis ++ o2.rb.buf]) a x) ∧
    (¬ Plain.Corner w vis o2.rb → (screen t0 o2.rb).Shows (t0.row + heights w (es.map (paragraph vis c.interruptPrompt c.eofPrompt)))
      (vis ++ o2.rb.buf) (vis.length + o2.rb.idx)) := by
  rcases (RestingV.init hw hst hp hh hk).calls hv n (fun m a b d hm => hsafe m a b d (by omega)) h1 h2 with hr | ⟨h3, _⟩
  · rw [List.nil_append] at hr
    generalize es.map (paragraph vis c.interruptPrompt c.eofPrompt) = ps at hr ⊢
    have key := hr.during hv h3 (fun o2 => hsafe n o o1 o2 (by omega) h2 h3) h4
    obtain ⟨on, _, _⟩ := key
    have hw0 : 0 < w := by have := on.plain.pw; omega
    refine ⟨fun a ha x => (on.above a (by omega) x).trans (hr.printed.above a ha x), fun a x hx => ?_, on.shows⟩
    by_cases ha : a < heights w ps
    · rw [paper_append_low _ _ _ ha, ← hr.printed.cells a ha x hx]
      exact on.above _ (by omega) x
    · obtain ⟨k, rfl⟩ := Nat.exists_eq_add_of_le (Nat.le_of_not_lt ha)
      rw [paper_append_high, paper_one hw0 _ _ _ hx, ← Nat.add_assoc]
      exact on.cells k x hx
  · rw [hs] at h3; cases h3


/-! ### Where it does not hold -/

def cVim : OCfg := { c0 with vim := true }

/-- **C94 is false for `r` followed by ESC.**  The ESC becomes part of the line (vim.go:61-62), and the terminal takes it for the start of an
escape sequence: of the line `ESC b c` it shows `c`. -/
theorem C94_false_replace : ∃ o, pressedC cVim 20 (str "> ") (str "abc" ++ [CharEsc] ++ str "0r" ++ [CharEsc]) 6 = .ok o ∧
    o.rb.buf = CharEsc :: str "bc" ∧ rowText 20 o 1 = str "> c                 " ∧ (screen (tx 20) o.rb).col = 0 :=
  ⟨_, rfl, by decide +kernel, by decide +kernel, by decide +kernel⟩

/-- **C94 is false for Ctrl-T at the end of a line of one rune.**  The editing cursor leaves the line (C07), the cursor of the terminal stays. -/
theorem C94_false_transpose : ∃ o, pressedC cVim 20 (str "> ") (str "a" ++ [CharTranspose]) 2 = .ok o ∧
    o.rb.buf = str "a" ∧ o.rb.idx = 2 ∧ (screen (tx 20) o.rb).col = 3 :=
  ⟨_, rfl, by decide +kernel, by decide +kernel, by decide +kernel⟩

/-! ### Non-trivial case -/

/-- `VimSafe` as a test, for runes of ASCII. -/
def safeB (o : Op) : Bool :=
  (!o.vimNormal || match o.inp with | 114 :: x :: _ => decide (32 ≤ x ∧ x < 127) | [114] => false | _ => true) &&
  (o.vimNormal || match o.inp with | r :: _ => decide (r = CharTranspose → ¬ (o.rb.buf.length = 1 ∧ o.rb.idx = 1)) | [] => true)

theorem safeB_ok {c : OCfg} (hU : c.U = U0) {o : Op} (h : safeB o = true) : VimSafe c o := by
  unfold safeB at h
  rw [Bool.and_eq_true] at h
  refine ⟨fun hm rest e => ?_, fun hm rest e => ?_⟩
  · have h := h.1
    rw [hm, e] at h
    cases rest with
    | nil => cases h
    | cons x rest' =>
      refine ⟨x, rest', rfl, ?_⟩
      rw [hU]
      exact cell0 (by simpa using h)
  · have h := h.2
    rw [hm, e] at h
    have h : CharTranspose = CharTranspose → ¬ (o.rb.buf.length = 1 ∧ o.rb.idx = 1) := by simpa only [Bool.false_or, decide_eq_true_eq] using h
    exact h rfl

/-- The keys: `foo bar`, in normal mode back one word, change the word to `baz`, Return.  Then `ab` with Ctrl-T, in normal mode `x` over the first
rune, Return.  Then in normal mode the line before last, `!` appended to it, Ctrl-C.  Then Ctrl-D. -/
def keysV : List Rune := str "foo bar" ++ [CharEsc] ++ str "bcwbaz" ++ [CharEnter] ++ str "ab" ++ [CharTranspose, CharEsc] ++ str "0rx" ++ [CharEnter] ++
  [CharEsc] ++ str "kkA!" ++ [CharInterrupt] ++ [CharDelete]

theorem vkeysV : ∀ r ∈ keysV, VKey cVim r := by
  intro r hr
  by_cases h : 32 ≤ r ∧ r < 127
  · exact .inl (.inl (cell0 h))
  · by_cases h1 : r = CharEsc
    · exact .inr (.inl ⟨h1, rfl⟩)
    · by_cases h2 : r = CharTranspose
      · exact .inr (.inr h2)
      · refine .inl (.inr (.inl ?_))
        revert h h1 h2; revert r; decide

theorem visibleV : Visible cVim := ⟨visible0.unique, visible0.filter, visible0.observer, visible0.hint, visible0.bye, visible0.brk, visible0.paint⟩

theorem safeV : SafeFor cVim 30 4 (Op.init (str "> ") true 10 (Hist.fresh []) keysV) := by
  intro m o o1 o2 hm h1 h2 h3
  refine safeB_ok rfl (watch_all 20 ?_ h3)
  match m, hm with
  | 0, _ => cases h1; cases h2; decide +kernel
  | 1, _ => cases h1; cases h2; decide +kernel
  | 2, _ => cases h1; cases h2; decide +kernel
  | 3, _ => cases h1; cases h2; decide +kernel

example : ∃ o, after cVim 30 4 (Op.init (str "> ") true 10 (Hist.fresh []) keysV) = .ok o ∧
    Over 10 (tx 10) (screen (tx 10) o.rb) [str "> foo baz", str "> xa", str "> foo baz!^C", str "> "] := by
  obtain ⟨o, ho, hs⟩ : ∃ o, after cVim 30 4 (Op.init (str "> ") true 10 (Hist.fresh []) keysV) = .ok o ∧ o.stopped = false := ⟨_, rfl, rfl⟩
  refine ⟨o, ho, ?_⟩
  have := C94_transcript_partial (c := cVim) (t0 := tx 10) (w := 10) (vis := str "> ") (keys := keysV) (fuel := 30) (n := 4)
    (es := [.line (str "foo baz"), .line (str "xa"), .interrupt (str "foo baz!"), .eof]) visibleV rfl rfl plain10 (h := Hist.fresh [])
    (fun i => ⟨by simp [Hist.fresh], by simp [Hist.fresh]⟩) vkeysV safeV (by decide) (by rfl) ho hs
  exact this

/-- In the course of the first call, in normal mode after `b`: the cursor is on the `b` of `bar`. -/
example : ∃ o1 o2, (Op.init (str "> ") true 10 (Hist.fresh []) keysV).refreshNil cVim = .ok o1 ∧ During cVim o1.kickRead o2 ∧ o2.vimNormal = true ∧
    (screen (tx 10) o2.rb).Shows 1 (str "> foo bar") 6 := by
  obtain ⟨o1, h1, o2, h2, hb, hi, hm⟩ : ∃ o1, (Op.init (str "> ") true 10 (Hist.fresh []) keysV).refreshNil cVim = .ok o1 ∧ ∃ o2,
      During cVim o1.kickRead o2 ∧ o2.rb.buf = str "foo bar" ∧ o2.rb.idx = 4 ∧ o2.vimNormal = true :=
    ⟨_, rfl, _, .key (.key (.key (.key (.key (.key (.key (.key (.key (.here _) rfl rfl) rfl rfl) rfl rfl) rfl rfl) rfl rfl) rfl rfl) rfl rfl)
      rfl rfl) rfl rfl, rfl, rfl, rfl⟩
  refine ⟨o1, o2, h1, h2, hm, ?_⟩
  have := (C94_line_partial (c := cVim) (t0 := tx 10) (w := 10) (vis := str "> ") (keys := keysV) (fuel := 30) (n := 0) (es := [])
    visibleV rfl rfl plain10 (h := Hist.fresh []) (fun i => ⟨by simp [Hist.fresh], by simp [Hist.fresh]⟩) vkeysV
    (fun m a b d hm => safeV m a b d (by omega)) rfl rfl rfl h1 h2).2.2
  rw [hb, hi] at this
  refine this ?_
  unfold Plain.Corner
  rw [hb]
  decide

end RL
