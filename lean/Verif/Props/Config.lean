import Verif.Model.Config
/-! # C51: the defaults of a configuration -/

namespace RL.Conf

/-- `after` is `before` if that was set, and the default otherwise. -/
def Kept (before after : Option Val) (d : Val) : Prop := (∀ v, before = some v → after = some v) ∧ (before = none → after = some d)

theorem kept_dflt (v : Option Val) (d : Val) : Kept v (dflt v d) d := by
  cases v <;> simp [Kept, dflt]

/-- A prompt field: unset means the default, a lone newline means empty, anything else is kept. -/
def KeptPrompt (before after d : List Nat) : Prop :=
  (before = [] → after = d) ∧ (before = [10] → after = []) ∧ (before ≠ [] → before ≠ [10] → after = before)

theorem kept_prompt (s d : List Nat) : KeptPrompt s (promptDflt s d) d := by
  unfold KeptPrompt promptDflt
  refine ⟨?_, ?_, ?_⟩
  · intro h; simp [h]
  · intro h; simp [h]
  · intro h1 h2; simp [h1, h2]

/-- **C51 (defaults).**  What `Init` does to a configuration that has not been initialised: every unset field gets its
documented default (history limit 500, `^C`, `^D`), every set field is kept, fields without a default are kept; the input is
wrapped so that it can be prefilled. -/
theorem C51_defaults (c : Config) (h : c.inited = false) :
    let d := c.init
    (c.historyLimit = 0 → d.historyLimit = 500) ∧ (c.historyLimit ≠ 0 → d.historyLimit = c.historyLimit) ∧
    KeptPrompt c.interruptPrompt d.interruptPrompt [94, 67] ∧ KeptPrompt c.eofPrompt d.eofPrompt [94, 68] ∧
    Kept c.stdout d.stdout .stdout ∧ Kept c.stderr d.stderr .stderr ∧
    Kept c.autoComplete d.autoComplete .tabCompleter ∧ Kept c.funcGetWidth d.funcGetWidth .getScreenWidth ∧
    Kept c.funcIsTerminal d.funcIsTerminal .defaultIsTerminal ∧ Kept c.funcMakeRaw d.funcMakeRaw .rawEnter ∧
    Kept c.funcExitRaw d.funcExitRaw .rawExit ∧ Kept c.funcOnWidthChanged d.funcOnWidthChanged .defaultOnWidthChanged ∧
    (∃ v, Kept c.stdin (some v) (.cancelable .stdin) ∧ d.stdin = some (.fillable v) ∧ d.stdinWriter = some (.filler v)) ∧
    (d.prompt = c.prompt ∧ d.historyFile = c.historyFile ∧ d.disableAutoSaveHistory = c.disableAutoSaveHistory ∧
      d.historySearchFold = c.historySearchFold ∧ d.listener = c.listener ∧ d.painter = c.painter ∧ d.vimMode = c.vimMode ∧
      d.enableMask = c.enableMask ∧ d.maskRune = c.maskRune ∧ d.uniqueEditLine = c.uniqueEditLine ∧
      d.funcFilterInputRune = c.funcFilterInputRune ∧ d.forceUseInteractive = c.forceUseInteractive ∧
      d.opHistory = c.opHistory ∧ d.opSearch = c.opSearch) := by
  have e : c.init = c.fill := by unfold Config.init; rw [if_neg (by simp [h])]
  rw [e]
  refine ⟨fun k => if_pos k, fun k => if_neg k, kept_prompt _ _, kept_prompt _ _, kept_dflt _ _, kept_dflt _ _, kept_dflt _ _,
    kept_dflt _ _, kept_dflt _ _, kept_dflt _ _, kept_dflt _ _, kept_dflt _ _,
    ⟨c.stdin.getD (.cancelable .stdin), ⟨fun v k => by rw [k]; rfl, fun k => by rw [k]; rfl⟩, rfl, rfl⟩,
    rfl, rfl, rfl, rfl, rfl, rfl, rfl, rfl, rfl, rfl, rfl, rfl, rfl, rfl⟩

theorem inited_init (c : Config) : c.init.inited = true := by
  unfold Config.init
  by_cases h : c.inited = true
  · rw [if_pos h, h]
  · rw [if_neg h]; rfl

/-- **C51 (once).**  A second `Init` changes nothing, also after cloning: in particular a prompt that was switched off with a
newline stays off, and the input is not wrapped again. -/
theorem C51_once (c : Config) : c.init.init = c.init ∧ c.init.clone.init = c.init.clone ∧ c.newEx.init = c.newEx := by
  have h := inited_init c
  refine ⟨?_, ?_, ?_⟩
  · generalize c.init = d at h; exact if_pos h
  · generalize c.init = d at h; exact if_pos (c := d.clone.inited = true) h
  · unfold Config.newEx; generalize c.init = d at h; exact if_pos h

/-- **C51** (clones).  A clone has its own history and search, which are set up later, and agrees in everything else. -/
theorem C51_clone (c : Config) : c.clone.opHistory = none ∧ c.clone.opSearch = none ∧
    { c.clone with opHistory := c.opHistory, opSearch := c.opSearch } = c := ⟨rfl, rfl, rfl⟩

/-- **C51 (usable).**  After `NewEx` no field that the library calls or writes to is nil. -/
theorem C51_usable (c : Config) (h : c.inited = false) :
    c.newEx.stdin ≠ none ∧ c.newEx.stdinWriter ≠ none ∧ c.newEx.stdout ≠ none ∧ c.newEx.stderr ≠ none ∧
    c.newEx.autoComplete ≠ none ∧ c.newEx.funcGetWidth ≠ none ∧ c.newEx.funcIsTerminal ≠ none ∧ c.newEx.funcMakeRaw ≠ none ∧
    c.newEx.funcExitRaw ≠ none ∧ c.newEx.funcOnWidthChanged ≠ none ∧ c.newEx.painter ≠ none ∧ c.newEx.historyLimit ≠ 0 := by
  have kept : ∀ {a b d}, Kept a b d → b ≠ none := by
    intro a b d k
    cases a with
    | none => rw [k.2 rfl]; simp
    | some v => rw [k.1 v rfl]; simp
  obtain ⟨h1, h2, -, -, k3, k4, k5, k6, k7, k8, k9, k10, ⟨v, -, k11, k12⟩, -⟩ := C51_defaults c h
  refine ⟨?_, ?_, kept k3, kept k4, kept k5, kept k6, kept k7, kept k8, kept k9, kept k10, kept (kept_dflt _ _), ?_⟩
  · exact fun e => absurd (k11.symm.trans e) (by simp)
  · exact fun e => absurd (k12.symm.trans e) (by simp)
  · intro e
    have e : c.init.historyLimit = 0 := e
    by_cases hl : c.historyLimit = 0
    · rw [h1 hl] at e; cases e
    · rw [h2 hl] at e; exact hl e

/-- A configuration with nothing set. -/
def emptyConfig : Config := ⟨[], [], 0, false, false, none, none, none, false, [], [], none, none, none, none, none, false, 0,
  false, none, none, none, none, none, false, false, none, none⟩

/-- Non-trivial case. -/
example : emptyConfig.inited = false ∧ emptyConfig.newEx.historyLimit = 500 ∧ emptyConfig.newEx.interruptPrompt = [94, 67] ∧
    { emptyConfig with eofPrompt := [10] }.init.eofPrompt = [] := by decide

/-- **C51 is false of `StdinWriter`.**  A writer set by the caller is replaced. -/
theorem C51_false_writer : ∃ c : Config, c.inited = false ∧ c.stdinWriter = some (.given 1) ∧
    c.init.stdinWriter ≠ some (.given 1) :=
  ⟨{ emptyConfig with stdinWriter := some (.given 1) }, by decide⟩

/-- **C51, defect.**  A configuration passed to `SetConfig` or `ReadPasswordWithConfig` gets `Init` only, so without a painter
it has none (and drawing the line then calls a nil painter). -/
theorem C51_no_painter : ∃ c : Config, c.inited = false ∧ c.init.painter = none ∧ c.init.init.painter = none :=
  ⟨emptyConfig, by decide⟩

end RL.Conf
