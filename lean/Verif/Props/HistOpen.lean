import Verif.Model.HistOpen
import Verif.Props.Shelf
import Verif.Proofs.LoopFd
/-! # C111: no history file stays open -/

namespace RL
open Inst Hist

/-- A configuration set for the first time: the history in use is closed; at most the new one is open besides those open before. -/
theorem C111_first {s : Inst} {c : Nat} (hc : s.cur ≠ c) (hn : (s.cfgs c).hist = none) (hb : s.bufCfg ≠ c) (hh : s.hist < s.nHist) (k : Nat)
    (hk : (s.setConfig c).isOpen k) :
    (k = (s.setConfig c).hist ∧ (s.cfgs c).path ≠ []) ∨ (k ≠ s.hist ∧ k ≠ s.nHist ∧ s.isOpen k) := by
  have hf := C83_config s c hc hb hn hh
  obtain ⟨_, _, _, _, _, h6, _, h8, _, h10⟩ := hf
  by_cases h1 : k = s.nHist
  · refine .inl ⟨h1.trans h6.symm, fun hp => ?_⟩
    have hfd : ((s.setConfig c).loop.hist).fd = .opened := by
      have : (s.setConfig c).loop.hist.fd = ((s.setConfig c).objs (s.setConfig c).hist).h.fd := rfl
      rw [this, h6, ← h1]
      exact hk
    rw [h8] at hfd
    have : (Hist.start (s.cfgs c).hcfg (s.files (s.cfgs c).path)).fd = .nil := by
      simp [Hist.start, Hist.init, ICfg.hcfg, hp, Hist.fresh]
    rw [this] at hfd
    cases hfd
  · by_cases h2 : k = s.hist
    · unfold isOpen at hk
      rw [h2, h10] at hk
      unfold Hist.close at hk
      have hk : (if (s.objs s.hist).h.fd = .nil then Fd.nil else .closed) = .opened := hk
      split at hk <;> cases hk
    · refine .inr ⟨h2, h1, ?_⟩
      have n1 : ¬ c = s.bufCfg := fun a => hb a.symm
      have e : (s.setConfig c).objs k = s.objs k := by
        by_cases ha : (s.cfgs c).oc.auto.isSome = true
        all_goals
          simp [Inst.setConfig, hc, n1, hn, ha, Inst.setPrompt, Inst.setMask, Inst.upd, Inst.setHistoryPath, Inst.putHist, h1, h2]
      unfold isOpen at hk ⊢
      rw [← e]
      exact hk

/-- A configuration set again: its history may be opened, and none is closed. -/
theorem C111_again {s : Inst} {c j : Nat} (hc : s.cur ≠ c) (hj : (s.cfgs c).hist = some j) (k : Nat) :
    (s.setConfig c).hist = j ∧ (k ≠ j → ((s.setConfig c).isOpen k ↔ s.isOpen k)) := by
  have hm : ∀ m, (upd s.cfgs s.bufCfg { s.cfgs s.bufCfg with oc := { (s.cfgs s.bufCfg).oc with d := { (s.cfgs s.bufCfg).oc.d with
      maskRune := m } } } c).hist = some j := by
    intro m
    unfold upd
    split
    · next h => rw [← h]; exact hj
    · exact hj
  have e : (s.setConfig c).hist = j ∧ ∀ k, k ≠ j → (s.setConfig c).objs k = s.objs k := by
    unfold Inst.setConfig
    rw [if_neg hc]
    simp only [Inst.setPrompt, Inst.setMask, hm]
    split
    all_goals
      refine ⟨rfl, fun k hk => ?_⟩
      simp [Inst.putHist, Inst.upd, hk]
  refine ⟨e.1, fun hk => ?_⟩
  unfold isOpen
  rw [e.2 k hk]

/-- What `setConfig` does to the pointers, the first time. -/
private theorem ho_first {s : Inst} {c : Nat} (hc : s.cur ≠ c) (hn : (s.cfgs c).hist = none) (hb : s.bufCfg ≠ c) :
    (s.setConfig c).nHist = s.nHist + 1 ∧ (s.setConfig c).hist = s.nHist ∧ (s.setConfig c).cur = c ∧ (s.setConfig c).bufCfg = c ∧
      (s.setConfig c).nCfg = s.nCfg ∧ (s.setConfig c).icfg = s.icfg ∧
      ∀ d, ((s.setConfig c).cfgs d).hist = if d = c then some s.nHist else (s.cfgs d).hist := by
  have n1 : ¬ c = s.bufCfg := fun a => hb a.symm
  by_cases ha : (s.cfgs c).oc.auto.isSome = true
  all_goals
    simp [Inst.setConfig, hc, n1, hn, ha, Inst.setPrompt, Inst.setMask, Inst.upd, Inst.setHistoryPath, Inst.putHist]
    intro d
    by_cases h1 : d = c
    · simp [h1]
    · by_cases h2 : d = s.bufCfg <;> simp [h1, h2]
      try simp [hb]

/-- And again. -/
private theorem ho_again {s : Inst} {c j : Nat} (hc : s.cur ≠ c) (hj : (s.cfgs c).hist = some j) :
    (s.setConfig c).nHist = s.nHist ∧ (s.setConfig c).cur = c ∧ (s.setConfig c).bufCfg = c ∧
      (s.setConfig c).nCfg = s.nCfg ∧ (s.setConfig c).icfg = s.icfg ∧ ∀ d, ((s.setConfig c).cfgs d).hist = (s.cfgs d).hist := by
  have hm : ∀ m d, (upd s.cfgs s.bufCfg { s.cfgs s.bufCfg with oc := { (s.cfgs s.bufCfg).oc with d := { (s.cfgs s.bufCfg).oc.d with
      maskRune := m } } } d).hist = (s.cfgs d).hist := by
    intro m d
    unfold upd
    split
    · next h => rw [← h]
    · rfl
  unfold Inst.setConfig
  rw [if_neg hc]
  simp only [Inst.setPrompt, Inst.setMask, hm, hj]
  split
  all_goals
    refine ⟨rfl, rfl, rfl, rfl, rfl, fun d => ?_⟩
    exact hm _ d

/-- At most the history in use is open; the other fields say that the pointers are in range. -/
structure OneOpen (s : Inst) : Prop where
  one : ∀ k, s.isOpen k → k = s.hist
  hist : s.hist < s.nHist
  cur : s.cur < s.nCfg
  buf : s.bufCfg < s.nCfg
  icfg : s.icfg < s.nCfg
  own : ∀ c, c < s.nCfg → ∃ j, (s.cfgs c).hist = some j ∧ j < s.nHist

/-- A call that sets no configuration for a second time.  The clone keeps its histories unset, and the history is used without touching its
file handle. -/
def Inst.HAct.Plain : HAct → Prop
  | .change f => ∀ c : ICfg, c.hist = none → (f c).hist = none
  | .back _ => False
  | .path _ => True
  | .use g => ∀ h, (g h).fd = h.fd
  | .password _ g => ∀ h, (g h).fd = h.fd

private theorem ho_touch_open {s : Inst} {g : Hist → Hist} (hg : ∀ h, (g h).fd = h.fd) (k : Nat) : (s.touch g).isOpen k ↔ s.isOpen k := by
  unfold isOpen touch putHist upd
  dsimp only
  split
  · next h =>
    rw [h]
    show (g (s.histAt s.hist)).fd = _ ↔ _
    rw [hg]
    rfl
  · rfl

/-- Setting a new configuration, which gets the number `s.nCfg`. -/
private theorem ho_new {s : Inst} (h : OneOpen s) (c : ICfg) (hc : c.hist = none) (i : Nat) (hi : i ≤ s.nCfg) :
    let s' := setConfig s.nCfg { s with cfgs := upd s.cfgs s.nCfg c, nCfg := s.nCfg + 1, icfg := i }
    OneOpen s' ∧ s'.cur = s.nCfg ∧ s'.nCfg = s.nCfg + 1 ∧ (∀ d, d < s.nCfg → (s'.cfgs d).hist = (s.cfgs d).hist) ∧
      (c.path = [] → ∀ k, ¬ s'.isOpen k) := by
  intro s'
  have hcur := h.cur
  have hbuf := h.buf
  have e0 : (upd s.cfgs s.nCfg c) s.nCfg = c := by simp [upd]
  have a1 : s.cur ≠ s.nCfg := by omega
  have a2 : s.bufCfg ≠ s.nCfg := by omega
  obtain ⟨f1, f2, f3, f4, f5, f6, f7⟩ := ho_first (s := { s with cfgs := upd s.cfgs s.nCfg c, nCfg := s.nCfg + 1, icfg := i }) a1
    (by show (upd s.cfgs s.nCfg c s.nCfg).hist = none; rw [e0, hc]) a2
  have g := fun k => C111_first (s := { s with cfgs := upd s.cfgs s.nCfg c, nCfg := s.nCfg + 1, icfg := i }) a1
    (by show (upd s.cfgs s.nCfg c s.nCfg).hist = none; rw [e0, hc]) a2 h.hist k
  have f7 : ∀ d, (s'.cfgs d).hist = if d = s.nCfg then some s.nHist else (upd s.cfgs s.nCfg c d).hist := f7
  have f7' : ∀ d, d < s.nCfg → (s'.cfgs d).hist = (s.cfgs d).hist := by
    intro d hd
    rw [f7 d, if_neg (by omega)]
    unfold upd
    rw [if_neg (by omega)]
  have f1 : s'.nHist = s.nHist + 1 := f1
  have f2 : s'.hist = s.nHist := f2
  have f3 : s'.cur = s.nCfg := f3
  have f4 : s'.bufCfg = s.nCfg := f4
  have f5 : s'.nCfg = s.nCfg + 1 := f5
  have f6 : s'.icfg = i := f6
  refine ⟨⟨fun k hk => ?_, by omega, by omega, by omega, by omega, fun d hd => ?_⟩, f3, f5, f7', fun hp k hk => ?_⟩
  · rcases g k hk with ⟨r, _⟩ | ⟨r1, _, r2⟩
    · exact r
    · exact absurd (h.one k r2) r1
  · by_cases he : d = s.nCfg
    · exact ⟨s.nHist, by rw [f7 d, if_pos he], by omega⟩
    · obtain ⟨j, hj, hl⟩ := h.own d (by omega)
      exact ⟨j, by rw [f7' d (by omega), hj], by omega⟩
  · rcases g k hk with ⟨_, r⟩ | ⟨r1, _, r2⟩
    · exact r (by show (upd s.cfgs s.nCfg c s.nCfg).path = []; rw [e0, hp])
    · exact absurd (h.one k r2) r1

private theorem ho_step {s : Inst} (h : OneOpen s) {a : HAct} (ha : a.Plain) : OneOpen (hact a s) := by
  cases a with
  | change f =>
    have hi := h.icfg
    show OneOpen (s.change f)
    unfold Inst.change Inst.useConfig
    rw [if_neg (show ¬ s.icfg = s.nCfg by omega)]
    exact (ho_new h _ (ha _ rfl) s.nCfg (Nat.le_refl _)).1
  | back c => exact absurd ha id
  | path p =>
    refine ⟨fun k hk => ?_, Nat.lt_succ_self _, h.cur, h.buf, h.icfg, fun c hc => ?_⟩
    · show k = s.nHist
      have hh := h.hist
      by_cases h1 : k = s.nHist
      · exact h1
      exfalso
      have hk : (upd (upd s.objs s.hist { s.objs s.hist with h := (s.objs s.hist).h.close }) s.nHist ⟨s.cur, Hist.fresh [], []⟩ k).h.fd
          = .opened := hk
      unfold upd at hk
      rw [if_neg h1] at hk
      split at hk
      · have hk : (if (s.objs s.hist).h.fd = .nil then Fd.nil else .closed) = .opened := hk
        split at hk <;> cases hk
      · next h2 => exact h2 (h.one k hk)
    · obtain ⟨j, hj, hl⟩ := h.own c hc
      refine ⟨j, ?_, Nat.lt_succ_of_lt hl⟩
      show (upd s.cfgs s.cur { s.cfgs s.cur with path := p } c).hist = some j
      unfold upd
      split
      · next he => rw [← he]; exact hj
      · exact hj
  | use g =>
    exact ⟨fun k hk => h.one k ((ho_touch_open ha k).mp hk), h.hist, h.cur, h.buf, h.icfg, h.own⟩
  | password c g =>
    have hcur := h.cur
    have hicfg := h.icfg
    obtain ⟨p1, p2, p3, p4, p5⟩ := ho_new h { c with path := [], hist := none, search := none } rfl s.icfg (by omega)
    have p5 := p5 rfl
    obtain ⟨j, hj, hl⟩ := h.own s.cur hcur
    have q1 : (((s.enterPassword c).touch g).cfgs s.cur).hist = some j := (p4 s.cur hcur).trans hj
    have q2 : ((s.enterPassword c).touch g).cur ≠ s.cur := by
      show (s.enterPassword c).cur ≠ s.cur
      have : (s.enterPassword c).cur = s.nCfg := p2
      omega
    have q3 : ∀ k, ¬ ((s.enterPassword c).touch g).isOpen k := fun k hk => p5 k ((ho_touch_open ha k).mp hk)
    obtain ⟨r1, r2, r3, r4, r5, r6⟩ := ho_again q2 q1
    show OneOpen (((s.enterPassword c).touch g).setConfig s.cur)
    have e : (s.enterPassword c).nCfg = s.nCfg + 1 := p3
    have r4 : (((s.enterPassword c).touch g).setConfig s.cur).nCfg = (s.enterPassword c).nCfg := r4
    have r5 : (((s.enterPassword c).touch g).setConfig s.cur).icfg = (s.enterPassword c).icfg := r5
    have r1 : (((s.enterPassword c).touch g).setConfig s.cur).nHist = (s.enterPassword c).nHist := r1
    have w := p1
    have w : OneOpen (s.enterPassword c) := w
    refine ⟨fun k hk => ?_, ?_, ?_, ?_, ?_, fun d hd => ?_⟩
    · obtain ⟨t1, t2⟩ := C111_again q2 q1 k
      rw [t1]
      by_cases hkj : k = j
      · exact hkj
      · exact absurd ((t2 hkj).mp hk) (q3 k)
    · rw [(C111_again q2 q1 0).1, r1]
      obtain ⟨j', hj', hl'⟩ := w.own s.cur (by omega)
      have : (((s.enterPassword c).cfgs s.cur)).hist = some j := q1
      rw [this] at hj'
      cases hj'
      exact hl'
    · rw [r2, r4, e]; omega
    · rw [r3, r4, e]; omega
    · rw [r5, r4]; exact w.icfg
    · rw [r6, r1]
      exact w.own d (by rw [← r4]; exact hd)

/-- **C111 (partial).**  Whatever a program does that sets no configuration twice (lines, `SaveHistory`, both ways of setting the path,
completers, passwords), at most the file of the history in use is open; and once the instance is closed none is. -/
theorem C111_partial : ∀ {as : List HAct} {s : Inst}, OneOpen s → (∀ a ∈ as, a.Plain) →
    (∀ k, (hacts as s).isOpen k → k = (hacts as s).hist) ∧ ∀ k, ¬ (hacts as s).closeHist.isOpen k
  | [], s, h, _ => by
    refine ⟨h.one, fun k hk => ?_⟩
    have hk : (upd s.objs s.hist { s.objs s.hist with h := (s.objs s.hist).h.close } k).h.fd = .opened := hk
    unfold upd at hk
    split at hk
    · have hk : (if (s.objs s.hist).h.fd = .nil then Fd.nil else .closed) = .opened := hk
      split at hk <;> cases hk
    · next h2 => exact h2 (h.one k hk)
  | a :: as, s, h, hp => C111_partial (as := as) (s := hact a s) (ho_step h (hp a (List.mem_cons_self ..)))
      fun b hb => hp b (List.mem_cons_of_mem _ hb)

/-- **C111, passwords.**  After a password the configuration and its history are in use again, and no other history is open. -/
theorem C111_password {s : Inst} (h : OneOpen s) (c : ICfg) {g : Hist → Hist} (hg : ∀ h, (g h).fd = h.fd) :
    (hact (.password c g) s).cur = s.cur ∧ (s.cfgs s.cur).hist = some (hact (.password c g) s).hist ∧
      ∀ k, (hact (.password c g) s).isOpen k → (s.cfgs s.cur).hist = some k := by
  have hcur := h.cur
  have hicfg := h.icfg
  obtain ⟨_, p2, _, p4, _⟩ := ho_new h { c with path := [], hist := none, search := none } rfl s.icfg (by omega)
  obtain ⟨j, hj, _⟩ := h.own s.cur hcur
  have q1 : (((s.enterPassword c).touch g).cfgs s.cur).hist = some j := (p4 s.cur hcur).trans hj
  have q2 : ((s.enterPassword c).touch g).cur ≠ s.cur := by
    show (s.enterPassword c).cur ≠ s.cur
    have : (s.enterPassword c).cur = s.nCfg := p2
    omega
  have e : (hact (.password c g) s).hist = j := (C111_again q2 q1 0).1
  have hp : (HAct.password c g).Plain := hg
  refine ⟨(ho_again q2 q1).2.1, by rw [e, hj], fun k hk => ?_⟩
  rw [(ho_step h hp).one k hk, e, hj]

/-- Every program starts like that. -/
theorem C111_start (c : ICfg) (w : Int) (files : List Rune → List Nat) (inp : List Rune) : OneOpen (Inst.start c w files inp) := by
  refine ⟨fun k hk => ?_, Nat.lt_succ_self 0, Nat.lt_succ_self 0, Nat.lt_succ_self 0, Nat.lt_succ_self 0, fun _ _ => ⟨0, rfl, Nat.lt_succ_self 0⟩⟩
  show k = 0
  by_cases h : k = 0
  · exact h
  exfalso
  have : ((Inst.start c w files inp).objs k) = ⟨0, Hist.fresh [], []⟩ := by
    simp [Inst.start, Inst.putHist, Inst.upd, h]
  unfold isOpen at hk
  rw [this] at hk
  cases hk

/-- `SaveHistory` is a use of the history that leaves the file handle alone. -/
theorem C111_save {s s' : Inst} {t : List Rune} (e : s.saveHistory t = .ok s') : ∃ h, s' = s.putHist s.hist h ∧ h.fd = (s.histAt s.hist).fd := by
  unfold Inst.saveHistory at e
  obtain ⟨h1, f1, f2⟩ := R.bind_inv e
  cases f2
  exact ⟨h1, rfl, new_fd f1⟩

private theorem ho_put {s : Inst} {h : Hist} (hf : h.fd = (s.histAt s.hist).fd) (k : Nat) : (s.putHist s.hist h).isOpen k ↔ s.isOpen k := by
  unfold isOpen putHist upd
  dsimp only
  split
  · next e =>
    rw [e]
    show h.fd = _ ↔ _
    rw [hf]
    rfl
  · rfl

/-- **C111, lines.**  Neither a call of `Readline`, whatever is typed and whatever it returns, nor `SaveHistory` opens or closes a file, so
that `C111_partial` goes on after it: what it says of `use` holds of them. -/
theorem C111_line {s s' : Inst} :
    (∀ {fuel : Nat} {e : Event}, s.readline fuel = .ok (e, s') → (∀ k, s'.isOpen k ↔ s.isOpen k) ∧ (OneOpen s → OneOpen s')) ∧
      ∀ {t : List Rune}, s.saveHistory t = .ok s' → (∀ k, s'.isOpen k ↔ s.isOpen k) ∧ (OneOpen s → OneOpen s') := by
  refine ⟨fun {fuel e} h => ?_, fun {t} h => ?_⟩
  · unfold Inst.readline at h
    obtain ⟨⟨e1, o⟩, f1, f2⟩ := R.bind_inv h
    cases f2
    have hf : o.hist.fd = (s.histAt s.hist).fd := Op.fd_readline f1
    have hk := fun k => ho_put (s := s) hf k
    exact ⟨hk, fun w => ⟨fun k h => w.one k ((hk k).mp h), w.hist, w.cur, w.buf, w.icfg, w.own⟩⟩
  · obtain ⟨h1, rfl, hf⟩ := C111_save h
    have hk := fun k => ho_put (s := s) hf k
    exact ⟨hk, fun w => ⟨fun k h => w.one k ((hk k).mp h), w.hist, w.cur, w.buf, w.icfg, w.own⟩⟩

/-- A line typed with file "f" in use. -/
example : let s := hacts [.change fun c => { c with path := [102] }] (start83 [120, 13])
    s.isOpen 1 ∧ (s.readline 5).map (fun p => (p.1, decide (p.2.isOpen 1))) = .ok (.line [120], true) := by decide +kernel

/-- **C111 is false.**  File "f", then "g", then the configuration for "f" again, as a program does that goes back to the configuration
`SetConfig` has returned: both files are open, and closing the instance leaves "g" open. -/
theorem C111_false_back : let s := hacts [.change fun c => { c with path := [102] }, .change fun c => { c with path := [103] }, .back 1] (start83 [])
    s.hist = 1 ∧ s.isOpen 1 ∧ s.isOpen 2 ∧ ¬ s.closeHist.isOpen 1 ∧ s.closeHist.isOpen 2 := by decide +kernel

/-- **C111 is false, whatever came before.**  Going back from a configuration whose file is open to one with another history leaves that
file open, also when the instance is closed. -/
theorem C111_false_leaves {s : Inst} {c j : Nat} (hi : s.icfg ≠ c) (hc : s.cur ≠ c) (hj : (s.cfgs c).hist = some j) (hne : s.hist ≠ j)
    (ho : s.isOpen s.hist) : (hact (.back c) s).isOpen s.hist ∧ (hact (.back c) s).closeHist.isOpen s.hist := by
  have e : hact (.back c) s = setConfig c { s with icfg := c } := if_neg hi
  obtain ⟨t1, t2⟩ := C111_again (s := { s with icfg := c }) hc hj s.hist
  have ho' := (t2 hne).mpr ho
  rw [e]
  refine ⟨ho', ?_⟩
  unfold isOpen closeHist upd
  dsimp only
  rw [t1, if_neg hne]
  exact ho'

/-- The hypotheses are met in `C111_false_back`, before the last call. -/
example : let s := hacts [.change fun c => { c with path := [102] }, .change fun c => { c with path := [103] }] (start83 [])
    s.icfg ≠ 1 ∧ s.cur ≠ 1 ∧ (s.cfgs 1).hist = some 1 ∧ s.hist ≠ 1 ∧ s.isOpen s.hist := by decide +kernel

/-- A program of `C111_partial`: a file, a password, another file; the second is open until the instance is closed. -/
example : let as : List HAct := [.change fun c => { c with path := [102] }, .password cfg83 id, .change fun c => { c with path := [103] }]
    (∀ a ∈ as, a.Plain) ∧ (hacts as (start83 [])).isOpen (hacts as (start83 [])).hist := by
  refine ⟨?_, by decide +kernel⟩
  intro a ha
  simp only [List.mem_cons, List.not_mem_nil, or_false] at ha
  rcases ha with rfl | rfl | rfl
  · exact fun c h => h
  · exact fun _ => rfl
  · exact fun c h => h

end RL
