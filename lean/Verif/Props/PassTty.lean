import Verif.Model.PassTty
import Verif.Props.Silent
/-! # C109: a password is asked for on the terminal of the instance -/

namespace RL
open PTty

/-- **C109.**  Whatever the program's configuration says, while a password is read the line is drawn if and only if the standard streams
of the process are a terminal: neither `FuncIsTerminal` nor `ForceUseInteractive` counts. -/
theorem C109_process (sys : Bool) (p : List Rune) (s : St) :
    (s.enter sys p).rb.interactive = sys ∧ (s.enter sys p).rb.prompt = p := by
  refine ⟨?_, rfl⟩
  show (passwordCfg p).useInteractive sys = sys
  cases sys <;> rfl

/-- **C109 (partial).**  A program that has set neither gets its passwords where it gets its lines. -/
theorem C109_default_partial (sys : Bool) {c : TCfg} (hf : c.force = false) (ht : c.tty = none) (w : Int) (p : List Rune) :
    ((new sys c w).enter sys p).rb.interactive = (new sys c w).rb.interactive := by
  rw [(C109_process sys p _).1]
  show sys = (c.force || (c.init sys).tty.getD false)
  unfold TCfg.init
  rw [hf, ht]
  rfl

/-- **C109.**  Afterwards the line is drawn as before, with the prompt of the configuration, whatever was typed and whether or not
passwords were read before. -/
theorem C109_after (sys : Bool) {s s' : St} {p : List Rune} {f : RB → R RB} (hs : s.cfg = s.cfg.init sys)
    (h : s.password sys p f = .ok s') :
    s'.cfg = s.cfg ∧ s'.rb.interactive = s.cfg.useInteractive sys ∧ s'.rb.prompt = s.cfg.prompt := by
  obtain ⟨rb, _, h⟩ := R.bind_inv h
  cases h
  exact ⟨hs.symm, rfl, rfl⟩

/-- The hypothesis of `C109_after` holds of every new instance, and is kept. -/
theorem C109_start (sys : Bool) (c : TCfg) (w : Int) : (new sys c w).cfg = (new sys c w).cfg.init sys ∧
    ∀ s s' p f, s.cfg = s.cfg.init sys → St.password sys p f s = .ok s' → s'.cfg = s'.cfg.init sys := by
  refine ⟨?_, fun s s' p f hs h => ?_⟩
  · show c.init sys = (c.init sys).init sys
    unfold TCfg.init
    rfl
  · rw [(C109_after sys hs h).1]; exact hs

/-- **C109 is false for a `RemoteSvr`, 1.**  The client has a terminal, the server process has none (a daemon): lines are drawn on the
client's terminal; a password is asked for without a prompt, and no key pressed writes anything. -/
theorem C109_false_remote (c : TCfg) (w : Int) (p : List Rune) :
    (new false (c.remote true) w).rb.interactive = true ∧ ((new false (c.remote true) w).enter false p).rb.interactive = false ∧
    ∀ (U : UTables) (d : DCfg) (cs : List Cmd) (r : RB),
      runCmds U d cs ((new false (c.remote true) w).enter false p).rb = .ok r → r.out = [] := by
  refine ⟨?_, (C109_process false p _).1, fun U d cs r h => ?_⟩
  · show (c.force || true) = true
    exact Bool.or_true _
  · exact (C63_silent (C109_process false p _).1).1 cs h

/-- On the way of `C109_false_remote`: the same instance does write its prompt when it reads a line. -/
example : ∃ r, (new false (TCfg.remote true ⟨[62, 32], false, none⟩) 80).rb.refreshNil U0 d0 = .ok r ∧ .ch 62 ∈ r.out :=
  ⟨_, rfl, by decide⟩

/-- **C109 is false for a `RemoteSvr`, 2.**  The client is a pipe, the server was started in a terminal: lines are read silently, but a
password is drawn, with control sequences, into the pipe. -/
theorem C109_false_pipe (c : TCfg) (hf : c.force = false) (w : Int) (p : List Rune) :
    (new true (c.remote false) w).rb.interactive = false ∧ ((new true (c.remote false) w).enter true p).rb.interactive = true := by
  refine ⟨?_, (C109_process true p _).1⟩
  show (c.force || false) = false
  rw [hf]; rfl

/-- What the pipe of `C109_false_pipe` gets, with the mask on: not nothing. -/
example : ∃ r, ((new true (TCfg.remote false ⟨[62, 32], false, none⟩) 80).enter true [80, 58]).rb.refreshNil U0
    { enableMask := true, maskRune := 0, painter := some defaultPainter } = .ok r ∧ .ch 80 ∈ r.out := ⟨_, rfl, by decide⟩

/-- **C109 is false for `ForceUseInteractive`.**  A program that forces drawing because its terminal is not recognised as one gets no
prompt for passwords. -/
theorem C109_false_force (c : TCfg) (hf : c.force = true) (w : Int) (p : List Rune) :
    (new false c w).rb.interactive = true ∧ ((new false c w).enter false p).rb.interactive = false := by
  refine ⟨?_, (C109_process false p _).1⟩
  show (c.force || _) = true
  rw [hf]; rfl

end RL
