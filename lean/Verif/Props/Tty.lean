import Verif.Model.Tty
import Verif.Proofs.Keys
/-! # C71: the settings of the terminal -/

namespace RL.Tty

/-! ### Raw mode -/

/-- Raw mode as termios(3) describes `cfmakeraw`, except that output processing is left alone: no flag of input translation, echo, line
editing or signals is set; eight bits without parity; a read returns after one byte. -/
structure Raw (p : Plat) (t : Termios) : Prop where
  input : ∀ m ∈ [p.ignbrk, p.brkint, p.parmrk, p.istrip, p.inlcr, p.igncr, p.icrnl, p.ixon], t.iflag &&& m = 0
  local' : ∀ m ∈ [p.echo, p.echonl, p.icanon, p.isig, p.iexten], t.lflag &&& m = 0
  cs8 : t.cflag &&& p.cs8 = p.cs8
  parity : p.parenb &&& p.cs8 = 0 → t.cflag &&& p.parenb = 0
  min : p.vmin ≠ p.vtime → t.cc p.vmin = 1
  time : t.cc p.vtime = 0

/-- Everything raw mode does not speak about is as in `t0`. -/
structure Rest (p : Plat) (t0 t : Termios) : Prop where
  output : t.oflag = t0.oflag
  input : ∀ b, (∀ m ∈ [p.ignbrk, p.brkint, p.parmrk, p.istrip, p.inlcr, p.igncr, p.icrnl, p.ixon], m.getLsbD b = false) →
    t.iflag.getLsbD b = t0.iflag.getLsbD b
  local' : ∀ b, (∀ m ∈ [p.echo, p.echonl, p.icanon, p.isig, p.iexten], m.getLsbD b = false) → t.lflag.getLsbD b = t0.lflag.getLsbD b
  control : ∀ b, (∀ m ∈ [p.csize, p.parenb, p.cs8], m.getLsbD b = false) → t.cflag.getLsbD b = t0.cflag.getLsbD b
  cc : ∀ i, i ≠ p.vmin → i ≠ p.vtime → t.cc i = t0.cc i

theorem and_zero {a b : BitVec 32} (h : ∀ i, ¬ (a.getLsbD i = true ∧ b.getLsbD i = true)) : a &&& b = 0 := by
  apply BitVec.eq_of_getLsbD_eq
  intro i _
  rw [BitVec.getLsbD_and]
  have := h i
  cases h1 : a.getLsbD i <;> cases h2 : b.getLsbD i <;> simp_all

theorem rawOf_raw (p : Plat) (t : Termios) : Raw p (rawOf p t) := by
  constructor
  · intro m hm
    apply and_zero
    rintro i ⟨h1, h2⟩
    simp only [List.mem_cons, List.not_mem_nil, or_false] at hm
    simp only [rawOf, BitVec.getLsbD_and, BitVec.getLsbD_not, BitVec.getLsbD_or] at h1
    rcases hm with rfl | rfl | rfl | rfl | rfl | rfl | rfl | rfl <;> simp [h2] at h1
  · intro m hm
    apply and_zero
    rintro i ⟨h1, h2⟩
    simp only [List.mem_cons, List.not_mem_nil, or_false] at hm
    simp only [rawOf, BitVec.getLsbD_and, BitVec.getLsbD_not, BitVec.getLsbD_or] at h1
    rcases hm with rfl | rfl | rfl | rfl | rfl <;> simp [h2] at h1
  · apply BitVec.eq_of_getLsbD_eq
    intro i _
    simp only [rawOf, BitVec.getLsbD_and, BitVec.getLsbD_not, BitVec.getLsbD_or]
    cases p.cs8.getLsbD i <;> simp
  · intro hp
    apply and_zero
    rintro i ⟨h1, h2⟩
    have h3 : (p.parenb &&& p.cs8).getLsbD i = false := by rw [hp]; simp
    rw [BitVec.getLsbD_and, h2, Bool.true_and] at h3
    simp only [rawOf, BitVec.getLsbD_and, BitVec.getLsbD_not, BitVec.getLsbD_or, h2, h3] at h1
    simp at h1
  · intro h; simp [rawOf, h]
  · simp [rawOf]

theorem rawOf_rest (p : Plat) (t : Termios) : Rest p t (rawOf p t) := by
  have lt : ∀ (x y : BitVec 32) (i : Nat), y.getLsbD i = false → (x &&& ~~~ y).getLsbD i = x.getLsbD i := by
    intro x y i h
    rw [BitVec.getLsbD_and, BitVec.getLsbD_not, h]
    by_cases hi : i < 32
    · simp [hi]
    · have : x.getLsbD i = false := BitVec.getLsbD_of_ge x i (by omega)
      simp [this]
  refine ⟨rfl, fun b h => ?_, fun b h => ?_, fun b h => ?_, fun i h1 h2 => ?_⟩
  · apply lt
    simp only [List.mem_cons, List.not_mem_nil, or_false, forall_eq_or_imp, forall_eq] at h
    simp [BitVec.getLsbD_or, h]
  · apply lt
    simp only [List.mem_cons, List.not_mem_nil, or_false, forall_eq_or_imp, forall_eq] at h
    simp [BitVec.getLsbD_or, h]
  · simp only [List.mem_cons, List.not_mem_nil, or_false, forall_eq_or_imp, forall_eq] at h
    show (_ ||| _ : BitVec 32).getLsbD b = _
    rw [BitVec.getLsbD_or, h.2.2, Bool.or_false]
    apply lt
    simp [BitVec.getLsbD_or, h]
  · simp [rawOf, h1, h2]

/-- **C71** (raw mode).  `EnterRawMode` puts a terminal that lets itself be changed into raw mode, keeps every other setting, and remembers the old ones;
anything else (no terminal, or one that refuses) it leaves alone and reports. -/
theorem C71_raw (p : Plat) (s : St) : (s.enter p).2.state = s.dev.cur ∧ (s.enter p).2.dev.refuse = s.dev.refuse ∧
    (∀ t, s.dev.cur = some t → s.dev.refuse = false → (s.enter p).1 = true ∧ ∃ t', (s.enter p).2.dev.cur = some t' ∧ Raw p t' ∧ Rest p t t') ∧
    (s.dev.cur = none ∨ s.dev.refuse = true → (s.enter p).1 = false ∧ (s.enter p).2.dev = s.dev) := by
  obtain ⟨st, ⟨cur, ref⟩⟩ := s
  cases cur with
  | none => simp [St.enter, makeRaw, Dev.get]
  | some t =>
    cases ref with
    | false => simpa [St.enter, makeRaw, Dev.get, Dev.set] using ⟨rawOf_raw p t, rawOf_rest p t⟩
    | true => simp [St.enter, makeRaw, Dev.get, Dev.set]

/-! ### The settings come back -/

theorem acts_append (p : Plat) (s : St) (a b : List Act) : s.acts p (a ++ b) = (s.acts p a).acts p b := by
  simp [St.acts, List.foldl_append]

/-- The changes others make, one after the other. -/
def others (fs : List (Termios → Termios)) (t : Termios) : Termios := fs.foldl (fun t f => f t) t

/-- In raw mode, entered at settings `c`: the state is remembered, and the terminal (if it is one and can be changed) is raw. -/
structure InCall (p : Plat) (c : Option Termios) (ref : Bool) (s : St) : Prop where
  state : s.state = c
  dev : s.dev = { cur := if ref then c else c.map (rawOf p), refuse := ref }

theorem enter_inCall (p : Plat) (s : St) : InCall p s.dev.cur s.dev.refuse (s.act p .enter) := by
  obtain ⟨st, ⟨cur, ref⟩⟩ := s
  cases cur <;> cases ref <;> exact ⟨rfl, rfl⟩

theorem InCall.exit {p : Plat} {c ref} {s : St} (h : InCall p c ref s) : (s.act p .exit).dev = { cur := c, refuse := ref } ∧
    (s.act p .exit).state = c := by
  obtain ⟨st, dev⟩ := s
  obtain ⟨h1, h2⟩ := h
  dsimp only at h1 h2
  subst h1 h2
  cases st <;> cases ref <;> exact ⟨rfl, rfl⟩

theorem InCall.sleep {p : Plat} {c ref} {s : St} (h : InCall p c ref s) (f : Termios → Termios) :
    InCall p (c.map f) ref (s.acts p (sleepToResume f)) := by
  have h1 := h.exit.1
  show InCall p (c.map f) ref (((s.act p .exit).act p (.other f)).act p .enter)
  have h2 : ((s.act p .exit).act p (.other f)).dev = { cur := c.map f, refuse := ref } := by
    show { (s.act p .exit).dev with cur := (s.act p .exit).dev.cur.map f } = _
    rw [h1]
  have := enter_inCall p ((s.act p .exit).act p (.other f))
  rw [h2] at this
  exact this

theorem InCall.sleeps {p : Plat} {fs : List (Termios → Termios)} : ∀ {c ref} {s : St}, InCall p c ref s →
    InCall p (c.map (others fs)) ref (s.acts p (fs.flatMap sleepToResume)) := by
  induction fs with
  | nil => intro c ref s h; have : c.map (others []) = c := by cases c <;> rfl
           rw [this]; exact h
  | cons f fs ih =>
    intro c ref s h
    have := ih (h.sleep f)
    rw [Option.map_map] at this
    rw [List.flatMap_cons, acts_append]
    exact this

/-- **C71** (during a call).  At every moment of a call of `Readline`, after any number of suspensions by Ctrl-Z, the terminal is in raw mode. -/
theorem C71_during (p : Plat) (s : St) (fs : List (Termios → Termios)) {t : Termios} (h : s.dev.cur = some t) (hr : s.dev.refuse = false) :
    ∃ t', (s.acts p ([.enter] ++ fs.flatMap sleepToResume)).dev.cur = some t' ∧ Raw p t' ∧ Rest p (others fs t) t' := by
  have h1 := enter_inCall p s
  rw [h, hr] at h1
  have := (h1.sleeps (fs := fs)).dev
  refine ⟨rawOf p (others fs t), ?_, rawOf_raw .., rawOf_rest ..⟩
  rw [acts_append]
  show (St.acts p (s.act p .enter) _).dev.cur = _
  rw [this]
  rfl

theorem readline_acts (p : Plat) (s : St) (fs : List (Termios → Termios)) :
    (s.acts p (readline fs)).dev = { s.dev with cur := s.dev.cur.map (others fs) } ∧
    (s.acts p (readline fs)).state = s.dev.cur.map (others fs) := by
  have h := (enter_inCall p s).sleeps (fs := fs)
  rw [readline, acts_append, acts_append]
  exact h.exit

/-- **C71** (after the call).  However often `Readline` is called and suspended by Ctrl-Z, and whatever is changed by others while it is
suspended or between the calls: in the end the settings are what the others' changes have made of them, as though the library had
not been there. -/
theorem C71_restored (p : Plat) (calls : List (List (Termios → Termios) × List (Termios → Termios))) : ∀ s : St,
    (s.acts p (calls.flatMap fun c => readline c.1 ++ c.2.map .other)).dev =
      { s.dev with cur := s.dev.cur.map (others (calls.flatMap fun c => c.1 ++ c.2)) } := by
  have hother : ∀ (gs : List (Termios → Termios)) (s : St),
      (s.acts p (gs.map .other)).dev = { s.dev with cur := s.dev.cur.map (others gs) } := by
    intro gs
    induction gs with
    | nil => intro s; obtain ⟨_, ⟨c, _⟩⟩ := s; cases c <;> rfl
    | cons g gs ih =>
      intro s
      have := ih (s.act p (.other g))
      show (St.acts p (s.act p (.other g)) (gs.map .other)).dev = _
      rw [this]
      obtain ⟨_, ⟨c, _⟩⟩ := s; cases c <;> rfl
  have happ : ∀ (a b : List (Termios → Termios)) (c : Option Termios), (c.map (others a)).map (others b) = c.map (others (a ++ b)) := by
    intro a b c
    cases c with
    | none => rfl
    | some t => simp [others, List.foldl_append]
  induction calls with
  | nil => intro s; obtain ⟨_, ⟨c, _⟩⟩ := s; cases c <;> rfl
  | cons c calls ih =>
    intro s
    rw [List.flatMap_cons, acts_append, ih, acts_append, hother, (readline_acts p s c.1).1, List.flatMap_cons]
    simp only [happ]

/-- **C71, the part that holds** (`Close`).  Closing directly after a call leaves the settings alone.  Missing: settings changed
since the last call are lost (`C71_false_close`). -/
theorem C71_close_partial (p : Plat) (s : St) (fs : List (Termios → Termios)) :
    (s.acts p (readline fs ++ [.exit])).dev = { s.dev with cur := s.dev.cur.map (others fs) } := by
  obtain ⟨h1, h2⟩ := readline_acts p s fs
  rw [acts_append]
  generalize s.acts p (readline fs) = q at h1 h2
  show (q.act p .exit).dev = _
  obtain ⟨st, dev⟩ := q
  dsimp only at h1 h2
  subst h1 h2
  obtain ⟨_, ⟨c, ref⟩⟩ := s
  cases c <;> cases ref <;> rfl

/-- The usual settings of a terminal on Linux: ICRNL, OPOST, ISIG, ICANON, ECHO and so on. -/
def cooked : Termios := ⟨0x4500, 5, 0x8a3b, 0xbf, fun _ => 0⟩

/-- **C71 is false for `Close`**: if the program itself has changed the settings since the last call (here: switched off echo), `Close` undoes it. -/
theorem C71_false_close : ∃ f : Termios → Termios,
    (St.acts linux ⟨none, ⟨some cooked, false⟩⟩ (readline [] ++ [.other f])).dev.cur.map (·.lflag) = some 0x8a33 ∧
    (St.acts linux ⟨none, ⟨some cooked, false⟩⟩ (readline [] ++ [.other f, .exit])).dev.cur.map (·.lflag) = some 0x8a3b :=
  ⟨fun t => { t with lflag := t.lflag &&& ~~~ 8 }, by decide, by decide⟩

/-- **C71 is false for two calls at once**: the second call remembers the settings of the first, and the terminal stays in raw mode
after both (no echo, no line editing, no Ctrl-C). -/
theorem C71_false_two : ∃ t, (St.acts linux ⟨none, ⟨some cooked, false⟩⟩ [.enter, .enter, .exit, .exit]).dev.cur = some t ∧ Raw linux t :=
  ⟨_, rfl, rawOf_raw ..⟩

/-! ### `ReadPassword(fd)` -/

theorem readLine_line {l : List Nat} (h : 10 ∉ l) (rest : List Nat) : ∀ n, readLine n (l ++ 10 :: rest) =
    if l.length < n then (l ++ [10], rest) else (l.take n, l.drop n ++ 10 :: rest) := by
  induction l with
  | nil => intro n; cases n <;> simp [readLine]
  | cons b l ih =>
    intro n
    cases n with
    | zero => simp [readLine]
    | succ n =>
      have hb : b ≠ 10 := fun e => h (e ▸ List.mem_cons_self ..)
      simp only [List.cons_append, readLine, if_neg hb, ih (fun hm => h (List.mem_cons_of_mem _ hm)) n, List.length_cons, Nat.add_lt_add_iff_right]
      split <;> simp

theorem readLine_eof {l : List Nat} (h : 10 ∉ l) : ∀ n, readLine n l = (l.take n, l.drop n) := by
  induction l with
  | nil => intro n; cases n <;> rfl
  | cons b l ih =>
    intro n
    cases n with
    | zero => rfl
    | succ n =>
      have hb : b ≠ 10 := fun e => h (e ▸ List.mem_cons_self ..)
      simp [readLine, hb, ih (fun hm => h (List.mem_cons_of_mem _ hm)) n]

theorem getLast_ne {l : List Nat} {x : Nat} (h : x ∉ l) : l.getLast? ≠ some x := by
  intro e
  exact h (List.mem_of_getLast? e)

theorem readLoop_line (fuel : Nat) : ∀ {l ret rest : List Nat}, 10 ∉ l → l.length < 16 * fuel →
    readLoop false fuel ret (l ++ 10 :: rest) = .ok (some (ret ++ l), rest) := by
  induction fuel with
  | zero => intro l ret rest _ hf; omega
  | succ fuel ih =>
    intro l ret rest h hf
    unfold readLoop
    rw [readLine_line h]
    by_cases hl : l.length < 16
    · simp [hl]
    · have h1 : 10 ∉ l.take 16 := fun hm => h (List.mem_of_mem_take hm)
      have h2 : (l.take 16).length = 16 := by rw [List.length_take]; omega
      simp only [if_neg hl, Bool.false_eq_true, false_and, if_false, if_neg (getLast_ne h1), h2]
      rw [if_neg (by omega), if_neg (by omega), ih (fun hm => h (List.mem_of_mem_drop hm)) (by rw [List.length_drop]; omega), List.append_assoc,
        List.take_append_drop]

theorem readLoop_eof (fuel : Nat) : ∀ {l ret : List Nat}, 10 ∉ l → l.length < 16 * fuel →
    readLoop false fuel ret l = .ok (if ret ++ l = [] then none else some (ret ++ l), []) := by
  induction fuel with
  | zero => intro l ret _ hf; omega
  | succ fuel ih =>
    intro l ret h hf
    unfold readLoop
    rw [readLine_eof h]
    have h1 : 10 ∉ l.take 16 := fun hm => h (List.mem_of_mem_take hm)
    simp only [Bool.false_eq_true, false_and, if_false, if_neg (getLast_ne h1)]
    cases hl : l with
    | nil => cases ret <;> simp
    | cons b l' =>
      rw [← hl]
      have hpos : 0 < l.length := by rw [hl]; simp
      rw [if_neg (by rw [List.length_take]; omega)]
      by_cases h16 : l.length < 16
      · rw [if_pos (by rw [List.length_take]; omega), List.take_of_length_le (by omega), List.drop_of_length_le (by omega),
          if_neg (by rw [hl]; simp)]
      · rw [if_neg (by rw [List.length_take]; omega), ih (fun hm => h (List.mem_of_mem_drop hm)) (by rw [List.length_drop]; omega), List.append_assoc,
          List.take_append_drop]

/-- **C71** (the password).  On a terminal, a line of any length is returned without its line break, and what was typed after it stays for
the next read; at the end of the input what there is is returned, and `io.EOF` if there is nothing. -/
theorem C71_password {p : Plat} {h : Heap} {d : Dev} {t : Termios} (ht : d.cur = some t) (hr : d.refuse = false) {l : List Nat} (hl : 10 ∉ l) :
    (∀ rest, ∃ d', readPassword p h d (l ++ 10 :: rest) = .ok (some (some l, rest), d')) ∧
    (∃ d', readPassword p h d l = .ok (some (if l = [] then none else some l, []), d')) := by
  obtain ⟨cur, ref⟩ := d
  dsimp only at ht hr
  subst ht hr
  constructor
  · intro rest
    refine ⟨⟨some (noEcho p t), false⟩, ?_⟩
    unfold readPassword
    simp only [Dev.get, Heap.new, Heap.put, Dev.set, Option.isSome_some, and_self, if_true, Bool.true_eq_false, if_false]
    rw [readLoop_line _ hl (by rw [List.length_append, List.length_cons]; omega)]
    rfl
  · refine ⟨⟨some (noEcho p t), false⟩, ?_⟩
    unfold readPassword
    simp only [Dev.get, Heap.new, Heap.put, Dev.set, Option.isSome_some, and_self, if_true, Bool.true_eq_false, if_false]
    rw [readLoop_eof _ hl (by omega)]
    rfl

/-- **C71, the part that holds** (after the password).  The settings are left as they were while the password was read: every setting other than
ECHO, ICANON, ISIG, ICRNL is what it was; so are these if ECHO was off and the others on.  Missing: in any other case they are not
restored (`C71_false_echo`), because line 88 copies a pointer. -/
theorem C71_after_password_partial {p : Plat} {h : Heap} {d d' : Dev} {t : Termios} (ht : d.cur = some t) (hr : d.refuse = false) {q : List Nat}
    {x} (hx : readPassword p h d q = .ok (some x, d')) : ∃ t', d'.cur = some t' ∧ t'.oflag = t.oflag ∧ t'.cflag = t.cflag ∧ t'.cc = t.cc ∧
    (∀ b, (∀ m ∈ [p.echo, p.icanon, p.isig], m.getLsbD b = false) → t'.lflag.getLsbD b = t.lflag.getLsbD b) ∧
    (∀ b, p.icrnl.getLsbD b = false → t'.iflag.getLsbD b = t.iflag.getLsbD b) ∧
    (t.lflag &&& p.echo = 0 → t.lflag &&& p.icanon = p.icanon → t.lflag &&& p.isig = p.isig → t.iflag &&& p.icrnl = p.icrnl → t' = t) := by
  obtain ⟨cur, ref⟩ := d
  dsimp only at ht hr
  subst ht hr
  have hd : d' = ⟨some (noEcho p t), false⟩ := by
    unfold readPassword at hx
    simp only [Dev.get, Heap.new, Heap.put, Dev.set, Option.isSome_some, and_self, if_true, Bool.true_eq_false, if_false] at hx
    obtain ⟨r, _, hx⟩ := R.bind_inv hx
    cases hx
    rfl
  subst hd
  refine ⟨_, rfl, rfl, rfl, rfl, fun b hb => ?_, fun b hb => ?_, fun h1 h2 h3 h4 => ?_⟩
  · simp only [List.mem_cons, List.not_mem_nil, or_false, forall_eq_or_imp, forall_eq] at hb
    simp only [noEcho, BitVec.getLsbD_or, BitVec.getLsbD_and, BitVec.getLsbD_not, hb]
    by_cases hi : b < 32
    · simp [hi]
    · have : t.lflag.getLsbD b = false := BitVec.getLsbD_of_ge _ b (by omega)
      simp [this]
  · simp [noEcho, hb]
  · have bit : ∀ {x y z : BitVec 32}, x &&& y = z → ∀ i, (x.getLsbD i && y.getLsbD i) = z.getLsbD i := by
      intro x y z h i; rw [← BitVec.getLsbD_and, h]
    have e1 : (noEcho p t).lflag = t.lflag := by
      apply BitVec.eq_of_getLsbD_eq
      intro i hi
      have b1 := bit h1 i; have b2 := bit h2 i; have b3 := bit h3 i
      simp only [noEcho, BitVec.getLsbD_or, BitVec.getLsbD_and, BitVec.getLsbD_not]
      cases ha : t.lflag.getLsbD i <;> simp_all
    have e2 : (noEcho p t).iflag = t.iflag := by
      apply BitVec.eq_of_getLsbD_eq
      intro i hi
      have b1 := bit h4 i
      simp only [noEcho, BitVec.getLsbD_or]
      cases ha : t.iflag.getLsbD i <;> simp_all
    cases t
    simp only [noEcho] at e1 e2 ⊢
    rw [e1, e2]

/-- **C71 is false for `ReadPassword(fd)` on Unix**: afterwards the terminal does not echo any more. -/
theorem C71_false_echo : ∃ d', readPassword linux ⟨fun _ => cooked, 0⟩ ⟨some cooked, false⟩ [104, 105, 10] = .ok (some (some [104, 105], []), d') ∧
    d'.cur.map (·.lflag) = some 0x8a33 ∧ cooked.lflag = 0x8a3b := ⟨_, rfl, by decide, rfl⟩

/-! ### Windows -/

/-- **C71, the part that holds** (Windows).  The mode is restored; a line is returned without its `\r\n`.  Missing: if the length of the line is one less than a
multiple of 16, the line feed is left for the next read (`C71_false_linefeed`). -/
theorem C71_windows_partial {st : BitVec 32} {l : List Nat} (h : 10 ∉ l) (h' : 13 ∉ l) (h16 : l.length % 16 ≠ 15) (rest : List Nat) :
    ∃ m, winReadPassword st (l ++ 13 :: 10 :: rest) = .ok (m, (some l, rest), st) ∧ m &&& enableEchoInput = 0 ∧
      m &&& enableLineInput = enableLineInput := by
  have key : ∀ (fuel : Nat) {l ret : List Nat}, 10 ∉ l → 13 ∉ l → l.length % 16 ≠ 15 → l.length < 16 * fuel →
      readLoop true fuel ret (l ++ 13 :: 10 :: rest) = .ok (some (ret ++ l), rest) := by
    intro fuel
    induction fuel with
    | zero => intro l ret _ _ _ hf; omega
    | succ fuel ih =>
      intro l ret h h' hm hf
      unfold readLoop
      have e : l ++ 13 :: 10 :: rest = (l ++ [13]) ++ 10 :: rest := by simp
      rw [e, readLine_line (by simp [h])]
      by_cases hl : l.length < 15
      · rw [if_pos (by simp; omega)]
        have e1 : (l ++ [13] ++ [10]).getLast? = some 10 := by simp
        have e2 : (l ++ [13] ++ [10]).dropLast = l ++ [13] := List.dropLast_concat
        have e3 : (l ++ [13]).getLast? = some 13 := by simp
        have e4 : (l ++ [13]).dropLast = l := List.dropLast_concat
        simp only [if_pos e1, e2, e3, e4, and_self, if_true]
        rw [if_neg (by simp), if_pos (by omega)]
      · have hl : 16 ≤ l.length := by omega
        rw [if_neg (by simp; omega)]
        have e1 : (l ++ [13]).take 16 = l.take 16 := by
          rw [List.take_append, show 16 - l.length = 0 by omega]; simp
        have e2 : (l ++ [13]).drop 16 = l.drop 16 ++ [13] := by
          rw [List.drop_append, show 16 - l.length = 0 by omega]; simp
        have h1 : 10 ∉ l.take 16 := fun hm => h (List.mem_of_mem_take hm)
        have h2 : 13 ∉ l.take 16 := fun hm => h' (List.mem_of_mem_take hm)
        have h3 : (l.take 16).length = 16 := by rw [List.length_take]; omega
        simp only [e1, e2, if_neg (getLast_ne h1), getLast_ne h2, and_false, if_false, h3]
        rw [if_neg (by omega), if_neg (by omega)]
        have := ih (l := l.drop 16) (ret := ret ++ l.take 16) (fun hm => h (List.mem_of_mem_drop hm)) (fun hm => h' (List.mem_of_mem_drop hm))
          (by rw [List.length_drop]; omega) (by rw [List.length_drop]; omega)
        rw [List.append_assoc, List.take_append_drop] at this
        simpa using this
  refine ⟨(st &&& ~~~ enableEchoInput) ||| (enableProcessedInput ||| enableLineInput ||| enableProcessedOutput), ?_, ?_, ?_⟩
  · unfold winReadPassword
    rw [key _ h h' h16 (by rw [List.length_append, List.length_cons]; omega)]
    rfl
  · apply and_zero
    rintro i ⟨h1, h2⟩
    simp only [BitVec.getLsbD_or, BitVec.getLsbD_and, BitVec.getLsbD_not, h2] at h1
    have hi : i < 32 := by
      apply Classical.byContradiction
      intro hn
      rw [BitVec.getLsbD_of_ge _ i (by omega)] at h2
      cases h2
    have : ∀ j : Fin 32, enableEchoInput.getLsbD j = true →
        (enableProcessedInput.getLsbD j || enableLineInput.getLsbD j || enableProcessedOutput.getLsbD j) = false := by decide
    have := this ⟨i, hi⟩ h2
    simp only at this
    simp [this] at h1
  · apply BitVec.eq_of_getLsbD_eq
    intro i _
    simp only [BitVec.getLsbD_or, BitVec.getLsbD_and]
    cases enableLineInput.getLsbD i <;> simp

/-- **C71 is false on Windows for a password of 15 characters**: the next line read is empty. -/
theorem C71_false_linefeed : ∃ m, winReadPassword 7 (List.replicate 15 120 ++ [13, 10, 97, 13, 10]) =
      .ok (m, (some (List.replicate 15 120), [10, 97, 13, 10]), 7) ∧
    winReadPassword 7 [10, 97, 13, 10] = .ok (m, (some [], [97, 13, 10]), 7) := ⟨_, rfl, rfl⟩

/-! ### Non-trivial cases -/

example : (St.enter linux ⟨none, ⟨some cooked, false⟩⟩).2.dev.cur.map (fun t => (t.iflag, t.oflag, t.lflag, t.cflag)) =
    some (0x4000, 5, 0xa30, 0xbf) := by decide
-- two calls, the first suspended once
example : (St.acts linux ⟨none, ⟨some cooked, false⟩⟩
    ([([fun t => { t with oflag := 1 }], []), ([], [])].flatMap fun c => readline c.1 ++ c.2.map .other)).dev.cur.map (·.oflag) = some 1 := by
  rw [C71_restored]; rfl
example : (10 : Nat) ∉ List.replicate 40 120 := by decide
example : ∃ d', readPassword linux ⟨fun _ => cooked, 0⟩ ⟨some cooked, false⟩ (List.replicate 40 120 ++ 10 :: [97]) =
    .ok (some (some (List.replicate 40 120), [97]), d') := (C71_password rfl rfl (by decide)).1 [97]

end RL.Tty
