import Verif.Model.Password
import Verif.Proofs.HistFile
/-! # C52, C53: reading a password -/

namespace RL.Pw
open Spec

theorem upd_same {α} (f : Nat → α) (i : Nat) (x : α) : upd f i x i = x := by simp [upd]
theorem upd_other {α} (f : Nat → α) {i j : Nat} (x : α) (h : j ≠ i) : upd f i x j = f j := by simp [upd, h]

/-- An instance at rest: the line buffer uses the current configuration, whose history is the current one. -/
structure Rest (s : PSt) : Prop where
  buf : s.bufCfg = s.cur
  hist : (s.cfgs s.cur).hist = some s.hist
  own : ∀ c d k, (s.cfgs c).hist = some k → (s.cfgs d).hist = some k → c = d
  known : ∀ c k, (s.cfgs c).hist = some k → k < s.next

/-- What switching to another configuration does. -/
theorem setConfig_spec {s : PSt} {c : Nat} (r : Rest s) (hc : c ≠ s.cur) :
    let t := s.setConfig c
    t.cur = c ∧ t.bufCfg = c ∧ t.prompt = (s.cfgs c).prompt ∧
    t.cfgs s.cur = { s.cfgs s.cur with mask := (s.cfgs c).mask } ∧
    (∀ d, d ≠ c → d ≠ s.cur → t.cfgs d = s.cfgs d) ∧
    t.cfgs c = { s.cfgs c with hist := some t.hist } ∧
    t.hist ≠ s.hist ∧
    t.hists s.hist = (if (s.cfgs c).hist = none then (s.hists s.hist).close else s.hists s.hist) ∧
    (∀ k, k ≠ s.hist → k ≠ t.hist → t.hists k = s.hists k) ∧
    (t.hists t.hist = ((match (s.cfgs c).hist with
      | none => Hist.fresh (s.cfgs c).disk
      | some k => s.hists k).init (s.cfgs c).h)) ∧
    (∀ k, (s.cfgs c).hist = some k → t.hist = k) ∧ ((s.cfgs c).hist = none → t.hist = s.next) ∧
    s.next ≤ t.next ∧ Rest t := by
  obtain ⟨r1, r2, r3, r4⟩ := r
  intro t
  have ht : t = s.setConfig c := rfl
  clear_value t
  have hlt := r4 _ _ r2
  unfold PSt.setConfig at ht
  rw [if_neg (fun e => hc e.symm)] at ht
  have hcc : upd s.cfgs s.bufCfg { s.cfgs s.bufCfg with mask := (s.cfgs c).mask } c = s.cfgs c := upd_other _ _ (by rw [r1]; exact hc)
  dsimp only [PSt.setMask] at ht
  rw [hcc, r1] at ht
  rw [r1] at hcc
  cases e : (s.cfgs c).hist with
  | none =>
    rw [e] at ht
    dsimp only [PSt.freshHist] at ht
    simp only [upd_same, hcc] at ht
    subst ht
    have hne : s.cur ≠ c := fun k => hc k.symm
    have hk0 : s.hist ≠ s.next := by omega
    refine ⟨rfl, rfl, rfl, ?_, ?_, by simp [upd], fun k => hk0 k.symm, ?_, ?_, ?_, ?_,
      fun _ => rfl, by simp, ?_⟩
    · simp [upd, hne]
    · intro d h1 h2; simp [upd, h1, h2]
    · simp [upd, hk0]
    · intro k h1 h2
      have h2 : k ≠ s.next := h2
      simp [upd, h1, h2]
    · simp [upd_same]
    · intro k hk; cases hk
    · have hh : ∀ d, (upd (upd s.cfgs s.cur { s.cfgs s.cur with mask := (s.cfgs c).mask }) c
          { s.cfgs c with hist := some s.next } d).hist = if d = c then some s.next else (s.cfgs d).hist := by
        intro d
        by_cases h1 : d = c
        · simp [upd, h1]
        · by_cases h2 : d = s.cur
          · subst h2; simp [upd, h1]
          · simp [upd, h1, h2]
      refine ⟨rfl, by simp [upd], fun d1 d2 k hk1 hk2 => ?_, fun d k hk => ?_⟩
      · have hk1 := (hh d1).symm.trans hk1
        have hk2 := (hh d2).symm.trans hk2
        by_cases h1 : d1 = c <;> by_cases h2 : d2 = c
        · rw [h1, h2]
        · rw [if_pos h1] at hk1; rw [if_neg h2] at hk2
          injection hk1 with hk1; have := r4 _ _ hk2; omega
        · rw [if_neg h1] at hk1; rw [if_pos h2] at hk2
          injection hk2 with hk2; have := r4 _ _ hk1; omega
        · rw [if_neg h1] at hk1; rw [if_neg h2] at hk2
          exact r3 _ _ _ hk1 hk2
      · show k < s.next + 1
        by_cases h1 : d = c
        · subst h1
          simp [upd] at hk; omega
        · by_cases h2 : d = s.cur
          · subst h2
            simp [upd, h1] at hk; have := r4 _ _ hk; omega
          · simp [upd, h1, h2] at hk; have := r4 _ _ hk; omega
  | some k0 =>
    rw [e] at ht
    dsimp only at ht
    simp only [hcc] at ht
    subst ht
    have hne : s.cur ≠ c := fun k => hc k.symm
    have hk0 : k0 ≠ s.hist := fun k => hc (r3 c s.cur k0 e (by rw [r2, k]))
    refine ⟨rfl, rfl, rfl, ?_, ?_, ?_, hk0, ?_, ?_, ?_, ?_, fun h => (by cases h),
      Nat.le_refl _, ?_⟩
    · simp [upd]
    · intro d h1 h2; simp [upd, h2]
    · simp only [upd, hc, if_false]; rw [← e]
    · simp [upd, Ne.symm hk0]
    · intro k h1 h2
      have h2 : k ≠ k0 := h2
      simp [upd, h2]
    · simp [upd]
    · intro k hk; cases hk; rfl
    · have hh : ∀ d, (upd s.cfgs s.cur { s.cfgs s.cur with mask := (s.cfgs c).mask } d).hist = (s.cfgs d).hist := by
        intro d
        by_cases h2 : d = s.cur
        · subst h2; simp [upd]
        · simp [upd, h2]
      refine ⟨rfl, by simp [upd, hc, e], fun d1 d2 k hk1 hk2 => ?_, fun d k hk => ?_⟩
      · exact r3 _ _ _ ((hh d1).symm.trans hk1) ((hh d2).symm.trans hk2)
      · exact r4 _ _ ((hh d).symm.trans hk)

/-- `ReadPassword` with the configuration `c`, when the loop is done with the line before the configuration is switched back:
in between other histories than the instance's may change in any way (`hs`). -/
def readPassword (c : Nat) (hs : Nat → Hist) (s : PSt) : PSt :=
  PSt.setConfig s.cur { s.setConfig c with hists := fun k => if k = s.hist then (s.setConfig c).hists k else hs k }

/-- What is left after `ReadPassword`: the configuration and the history in use are those before the call; the prompt is that
of the configuration; the mask rune is that of the password's configuration; the history has been closed and reopened. -/
theorem C52_after_partial {s : PSt} {c : Nat} (r : Rest s) (hc : c ≠ s.cur) (hs : Nat → Hist) :
    let t := readPassword c hs s
    t.cur = s.cur ∧ t.bufCfg = s.bufCfg ∧ t.hist = s.hist ∧ t.prompt = (s.cfgs s.cur).prompt ∧
    t.cfgs s.cur = { s.cfgs s.cur with mask := (s.cfgs c).mask } ∧
    t.hists s.hist = (if (s.cfgs c).hist = none then (s.hists s.hist).close else s.hists s.hist).init (s.cfgs s.cur).h := by
  obtain ⟨a1, a2, a3, a4, a5, a6, a11, a12, a13, a14, a15, a16, a17, a18⟩ := setConfig_spec r hc
  have r' : Rest { s.setConfig c with hists := fun k => if k = s.hist then (s.setConfig c).hists k else hs k } :=
    ⟨a18.buf, a18.hist, a18.own, a18.known⟩
  have hc' : s.cur ≠ ({ s.setConfig c with hists := fun k => if k = s.hist then (s.setConfig c).hists k else hs k } : PSt).cur := by
    show s.cur ≠ (s.setConfig c).cur
    rw [a1]; exact Ne.symm hc
  obtain ⟨b1, b2, b3, b4, b5, b6, b11, b12, b13, b14, b15, b16, b17, b18⟩ := setConfig_spec r' hc'
  dsimp only at b3 b4 b5 b6 b12 b13 b14 b15 b16
  rw [a4] at b3 b6 b14 b15 b16
  dsimp only at b3 b6 b14 b15 b16
  have hh := b15 s.hist r.hist
  intro t
  refine ⟨b1, by rw [r.buf]; exact b2, hh, b3, ?_, ?_⟩
  · have b6 : t.cfgs s.cur = _ := b6
    rw [b6, hh]; dsimp only; rw [r.hist]
  · show (PSt.setConfig s.cur _).hists s.hist = _
    rw [r.hist] at b14
    dsimp only at b14
    rw [hh] at b14
    rw [b14, if_pos rfl, a12]

/-- **C52 (restored, partial).**  If the prompt is that of the configuration, both configurations have the same mask rune, and
the instance has no history file, `ReadPassword` leaves prompt, mask, configuration and history exactly as they were. -/
theorem C52_restored_partial {s : PSt} {c : Nat} (r : Rest s) (hc : c ≠ s.cur) (hs : Nat → Hist)
    (hp : s.prompt = (s.cfgs s.cur).prompt) (hm : (s.cfgs c).mask = (s.cfgs s.cur).mask)
    (hf : (s.cfgs s.cur).h.hasFile = false) (hfd : (s.hists s.hist).fd = .nil) :
    let t := readPassword c hs s
    t.cur = s.cur ∧ t.bufCfg = s.bufCfg ∧ t.hist = s.hist ∧ t.prompt = s.prompt ∧ t.cfgs s.cur = s.cfgs s.cur ∧
    t.hists s.hist = s.hists s.hist := by
  obtain ⟨a1, a2, a3, a4, a5, a6⟩ := C52_after_partial r hc hs
  refine ⟨a1, a2, a3, by rw [a4, hp], by rw [a5, hm], ?_⟩
  rw [a6]
  have h1 : (s.hists s.hist).close = s.hists s.hist := by
    unfold Hist.close
    rw [if_pos hfd, ← hfd]
  rw [h1, ite_self]
  simp [Hist.init, hfd, hf]

/-- Loading a file into a history that has entries already. -/
theorem loadLines_onto (cfg : HCfg) (ls : List (List Nat)) (h : Hist) (w : h.WF) :
    (Hist.loadLines cfg ls h).order.map (fun i => ((Hist.loadLines cfg ls h).elems i).source) =
      (if ((ls.map Hist.lineText).filter fun t => t ≠ []) = [] then h.order.map (fun i => (h.elems i).source)
       else keepNewest cfg.limit (h.order.map (fun i => (h.elems i).source) ++ (ls.map Hist.lineText).filter fun t => t ≠ [])) := by
  induction ls with
  | nil => rfl
  | cons l ls ih =>
    unfold Hist.loadLines
    by_cases h0 : (Hist.lineText l).length = 0
    · have h0' : Hist.lineText l = [] := by simpa using h0
      rw [if_pos h0]
      simpa [h0'] using ih
    · have h0' : Hist.lineText l ≠ [] := by simpa using h0
      rw [if_neg h0]
      have w1 := Hist.compact_WF (Hist.push_WF w (Hist.lineText l)) cfg
      have hle1 : ((h.push (Hist.lineText l)).compact cfg).order.length ≤ cfg.limit.toNat := by
        simp only [Hist.compact, Hist.compactList_eq]; exact Hist.keepNewest_length _ _
      rw [(Hist.loadLines_texts cfg ls _ w1 hle1).1]
      have : ((h.push (Hist.lineText l)).compact cfg).order.map (fun i => (((h.push (Hist.lineText l)).compact cfg).elems i).source) =
          keepNewest cfg.limit (h.order.map (fun i => (h.elems i).source) ++ [Hist.lineText l]) := by
        simp only [Hist.compact, Hist.compactList_eq, Hist.keepNewest_map, Hist.push, List.map_append, List.map_cons, List.map_nil,
          Hist.setItem, if_true]
        congr 2
        apply List.map_congr_left
        intro i hi
        have := w.known i hi
        simp [show i ≠ h.next by omega]
      rw [this, Hist.keepNewest_append]
      simp [h0']

/-- **C52 (history file, partial).**  With a history file the history afterwards holds what it held, including the line that
was being edited, followed by all entries of the file once more, cut to the limit. -/
theorem C52_file_partial {s : PSt} {c : Nat} (r : Rest s) (hc : c ≠ s.cur) (hs : Nat → Hist)
    (hn : (s.cfgs c).hist = none) (hf : (s.cfgs s.cur).h.hasFile = true) (ho : (s.cfgs s.cur).h.openOK = true)
    (w : (s.hists s.hist).WF) :
    let t := readPassword c hs s
    let old := (s.hists s.hist).order.map fun i => ((s.hists s.hist).elems i).source
    let file := Hist.fileTexts (s.hists s.hist).disk
    (t.hists t.hist).entries = if file = [] then old else keepNewest (s.cfgs s.cur).h.limit (old ++ file) := by
  obtain ⟨-, -, a3, -, -, a6⟩ := C52_after_partial r hc hs
  intro t old file
  show ((readPassword c hs s).hists (readPassword c hs s).hist).entries = _
  rw [a3, a6, if_pos hn]
  generalize hg : (s.hists s.hist).close = g
  have wg : g.WF := by rw [← hg]; exact { w with }
  have hgo : g.order.map (fun i => (g.elems i).source) = old := by rw [← hg]; rfl
  have hgd : g.disk = (s.hists s.hist).disk := by rw [← hg]; rfl
  have hgf : g.fd ≠ .opened := by
    rw [← hg]; unfold Hist.close; dsimp only
    split
    · simp
    · simp
  generalize (s.cfgs s.cur).h = cfg at *
  unfold Hist.init
  rw [if_neg hgf, if_pos hf]
  unfold Hist.updatePath
  rw [if_neg (by simp [ho])]
  have wl := Hist.loadLines_WF (h := { g with fd := .opened }) { wg with } cfg (Hist.termLines [] g.disk)
  have hl := loadLines_onto cfg (Hist.termLines [] g.disk) { g with fd := .opened } { wg with }
  dsimp only at hl ⊢
  generalize hL : Hist.loadLines cfg (Hist.termLines [] g.disk) { g with fd := .opened } = L at hl wl ⊢
  rw [hgo] at hl
  have hfile : file = ((Hist.termLines [] g.disk).map Hist.lineText).filter fun t => t ≠ [] := by rw [hgd]; rfl
  rw [← hfile] at hl
  rw [← hl]
  split
  · rw [Hist.push_entries (Hist.ver_WF (Hist.rewrite_WF wl cfg))]
    unfold Hist.rewrite
    rw [if_neg (by simp [hf, ho])]
  · rw [Hist.push_entries (Hist.ver_WF wl)]

/-! ## Witnesses -/

/-- A history configuration with a file. -/
def fileCfg : HCfg := ⟨500, true, false, true⟩
/-- A history configuration without one. -/
def memCfg : HCfg := ⟨500, false, false, true⟩
/-- The history configuration of a password prompt (/repo/password.go:22-32). -/
def pwCfg : HCfg := ⟨-1, false, false, true⟩

/-- An instance with one configuration (number 0); number 1 is the password's. -/
def inst (main : PCfg) (prompt : List Rune) (h : Hist) : PSt :=
  { cfgs := fun i => if i = 0 then { main with hist := some 0 } else ⟨[63], 0, false, pwCfg, [], none⟩
    cur := 0, bufCfg := 0, prompt := prompt, hist := 0, hists := fun _ => h, next := 1 }

theorem inst_rest (main : PCfg) (prompt : List Rune) (h : Hist) : Rest (inst main prompt h) := by
  refine ⟨rfl, rfl, fun c d k h1 h2 => ?_, fun c k h1 => ?_⟩
  · simp only [inst] at h1 h2
    by_cases hc : c = 0 <;> by_cases hd : d = 0 <;> simp_all
  · simp only [inst] at h1 ⊢
    by_cases hc : c = 0 <;> simp_all

/-- Non-trivial case of `C52_restored_partial`: an instance without history file that has two entries. -/
example : ∃ s : PSt, Rest s ∧ 1 ≠ s.cur ∧ s.prompt = (s.cfgs s.cur).prompt ∧ (s.cfgs 1).mask = (s.cfgs s.cur).mask ∧
    (s.cfgs s.cur).h.hasFile = false ∧ (s.hists s.hist).fd = .nil ∧ (s.hists s.hist).order = [0, 1] :=
  ⟨inst ⟨[62], 0, false, memCfg, [], none⟩ [62] ((Hist.fresh []).push [97] |>.push []), inst_rest _ _ _, by decide, rfl, rfl, rfl,
    rfl, rfl⟩

/-- **C52 is false (prompt).**  A prompt set with `SetPrompt` is replaced by the one of the configuration. -/
theorem C52_false_prompt : ∃ s : PSt, Rest s ∧ s.prompt = [36] ∧ (readPassword 1 s.hists s).prompt = [62] :=
  ⟨inst ⟨[62], 0, false, memCfg, [], none⟩ [36] (Hist.fresh []), inst_rest _ _ _, rfl, rfl⟩

/-- **C52 is false (mask).**  The mask rune `*` of the instance is replaced by that of the password prompt: `SetConfig` calls
`SetMaskRune` before the buffer gets the new configuration. -/
theorem C52_false_mask : ∃ s : PSt, Rest s ∧ (s.cfgs s.cur).mask = 42 ∧
    ((readPassword 1 s.hists s).cfgs (readPassword 1 s.hists s).cur).mask = 0 :=
  ⟨inst ⟨[62], 42, false, memCfg, [], none⟩ [62] (Hist.fresh []), inst_rest _ _ _, rfl, rfl⟩

/-- **C52 is false (history).**  An instance whose history file holds the entry `a` has, after `ReadPassword`, the entries
`a`, an empty one, and `a` again. -/
theorem C52_false_history : ∃ s : PSt, Rest s ∧ (s.hists s.hist).entries = [[97]] ∧
    ((readPassword 1 s.hists s).hists (readPassword 1 s.hists s).hist).entries = [[97], [], [97]] :=
  ⟨inst ⟨[62], 0, false, fileCfg, [97, 10], none⟩ [62] (Hist.start fileCfg [97, 10]), inst_rest _ _ _, by decide, by decide⟩

/-! ## C53 -/

/-- Everything that happens to the instance's history when no line is recorded in it. -/
inductive Cycled (cfg : HCfg) (h0 : Hist) : Hist → Prop
  | same : Cycled cfg h0 h0
  | close {h} : Cycled cfg h0 h → Cycled cfg h0 h.close
  | init {h} : Cycled cfg h0 h → Cycled cfg h0 (h.init cfg)

/-- Runs in which the caller switches the configuration back only when the editing loop has finished with the line. -/
inductive Orderly : St → St → Prop
  | refl {s} : Orderly s s
  | step {s t u} : Orderly s t → Step t u → (t.caller ≠ .idle → u.caller = .idle → t.loop = .editing) → Orderly s u

/-- The instance (configuration `m`, history `k`) while `ReadPassword` is or is not running. -/
structure PInv (m k : Nat) (hc : HCfg) (h0 : Hist) (s : St) : Prop where
  rest : Rest s.p
  main : (s.p.cfgs m).hist = some k
  cfg : (s.p.cfgs m).h = hc
  idle : s.caller = .idle → s.p.cur = m ∧ s.loop = .editing
  busy : ∀ b, s.caller = .waiting b ∨ s.caller = .got b → b = m ∧ s.p.cur ≠ m
  hist : Cycled hc h0 (s.p.hists k)

theorem Step.pinv {m k : Nat} {hc : HCfg} {h0 : Hist} {s t : St} (v : PInv m k hc h0 s) (h : Step s t)
    (ho : s.caller ≠ .idle → t.caller = .idle → s.loop = .editing) : PInv m k hc h0 t := by
  obtain ⟨v1, v2, v3, v4, v5, v6⟩ := v
  have key : s.loop ≠ .editing → s.p.hist ≠ k := by
    intro hl e
    have hm : s.p.cur = m := v1.own _ _ k (by rw [v1.hist, e]) v2
    cases hcl : s.caller with
    | idle => exact hl (v4 hcl).2
    | waiting b => exact (v5 b (.inl hcl)).2 hm
    | got b => exact (v5 b (.inr hcl)).2 hm
  cases h with
  | enter c h1 h2 =>
    obtain ⟨hm, he⟩ := v4 h1
    obtain ⟨a1, a2, a3, a4, a5, a6, a11, a12, a13, a14, a15, a16, a17, a18⟩ := setConfig_spec v1 h2
    have hk : s.p.hist = k := by have := v1.hist; rw [hm, v2] at this; exact (Option.some.inj this).symm
    rw [hm] at a4
    refine ⟨a18, ?_, ?_, fun e => (by cases e), fun b e => ?_, ?_⟩
    · show ((s.p.setConfig c).cfgs m).hist = _
      rw [a4]; exact v2
    · show ((s.p.setConfig c).cfgs m).h = _
      rw [a4]; exact v3
    · refine ⟨?_, ?_⟩
      · rcases e with e | e
        · injection e with e; rw [← e, hm]
        · cases e
      · show (s.p.setConfig c).cur ≠ m
        rw [a1, ← hm]; exact h2
    · show Cycled hc h0 ((s.p.setConfig c).hists k)
      rw [hk] at a12
      rw [a12]
      split
      · exact .close v6
      · exact v6
  | @submit b data h1 h2 =>
    refine ⟨v1, v2, v3, fun e => (by cases e), fun b' e => ?_, v6⟩
    rcases e with e | e
    · cases e
    · injection e with e; subst e; exact v5 _ (.inl h1)
  | @exit b h1 =>
    obtain ⟨hb, hm⟩ := v5 b (.inr h1)
    have he := ho (by rw [h1]; simp) rfl
    subst hb
    obtain ⟨a1, a2, a3, a4, a5, a6, a11, a12, a13, a14, a15, a16, a17, a18⟩ := setConfig_spec v1 (Ne.symm hm)
    have hk := a15 k v2
    refine ⟨a18, ?_, ?_, fun _ => ⟨a1, he⟩, fun b' e => ?_, ?_⟩
    · show ((s.p.setConfig b).cfgs b).hist = _
      rw [a6, ← hk]
    · show ((s.p.setConfig b).cfgs b).h = _
      rw [a6]; exact v3
    · rcases e with e | e <;> cases e
    · show Cycled hc h0 ((s.p.setConfig b).hists k)
      rw [hk, v2, v3] at a14
      dsimp only at a14
      rw [a14]
      exact .init v6
  | skip h1 h2 => exact ⟨v1, v2, v3, fun e => absurd (v4 e).2 (by rw [h1]; simp), v5, v6⟩
  | check h1 h2 => exact ⟨v1, v2, v3, fun e => absurd (v4 e).2 (by rw [h1]; simp), v5, v6⟩
  | save h1 h2 h3 =>
    have hk := key (by rw [h1]; simp)
    refine ⟨⟨v1.buf, v1.hist, v1.own, v1.known⟩, v2, v3, fun e => absurd (v4 e).2 (by rw [h1]; simp), v5, ?_⟩
    show Cycled hc h0 (upd _ _ _ k)
    rw [upd_other _ _ (Ne.symm hk)]; exact v6
  | update h1 h2 =>
    have hk := key (by rw [h1]; simp)
    refine ⟨⟨v1.buf, v1.hist, v1.own, v1.known⟩, v2, v3, fun e => ⟨(v4 e).1, rfl⟩, v5, ?_⟩
    show Cycled hc h0 (upd _ _ _ k)
    rw [upd_other _ _ (Ne.symm hk)]; exact v6
  | noUpdate h1 => exact ⟨v1, v2, v3, fun e => ⟨(v4 e).1, rfl⟩, v5, v6⟩

/-- **C53 (partial).**  In every run of any number of `ReadPassword` calls in which the configuration is switched back only
after the editing loop has finished with the line, nothing happens to the instance's history but closing and reopening: what it
and its file hold does not depend on the passwords. -/
theorem C53_partial {s t : St} (r : Rest s.p) (hi : s.caller = .idle) (hl : s.loop = .editing) (h : Orderly s t) :
    Cycled (s.p.cfgs s.p.cur).h (s.p.hists s.p.hist) (t.p.hists s.p.hist) := by
  have v0 : PInv s.p.cur s.p.hist (s.p.cfgs s.p.cur).h (s.p.hists s.p.hist) s :=
    ⟨r, r.hist, rfl, fun _ => ⟨rfl, hl⟩, fun b e => (by rcases e with e | e <;> rw [hi] at e <;> cases e), .same⟩
  have : PInv s.p.cur s.p.hist (s.p.cfgs s.p.cur).h (s.p.hists s.p.hist) t := by
    clear hi hl r
    induction h with
    | refl => exact v0
    | step _ hs ho ih => exact hs.pinv ih ho
  exact this.hist

/-- Without a history file that means: the entries stay as they are. -/
theorem C53_memory_partial {s t : St} (r : Rest s.p) (hi : s.caller = .idle) (hl : s.loop = .editing) (h : Orderly s t)
    (hf : (s.p.cfgs s.p.cur).h.hasFile = false) :
    (t.p.hists s.p.hist).entries = (s.p.hists s.p.hist).entries ∧ (t.p.hists s.p.hist).disk = (s.p.hists s.p.hist).disk := by
  have := C53_partial r hi hl h
  revert this
  generalize (s.p.cfgs s.p.cur).h = cfg at hf ⊢
  generalize s.p.hists s.p.hist = h0
  generalize t.p.hists s.p.hist = g
  intro this
  induction this with
  | same => exact ⟨rfl, rfl⟩
  | close _ ih => exact ih
  | init _ ih =>
    rename_i g _
    have : g.init cfg = g := by unfold Hist.init; split; rfl; simp [hf]
    rw [this]; exact ih

/-- **C53 is false.**  The caller can switch the configuration back between the moment the loop hands over the line and the
moment it records it: the password `pw` ends up in the instance's history and in its history file.  This even happens when
auto-saving is off for the instance, if the switch comes between the test and the recording. -/
theorem C53_false : ∃ s t : St, Rest s.p ∧ s.caller = .idle ∧ s.loop = .editing ∧ (s.p.hists s.p.hist).disk = [97, 10] ∧
    (s.p.cfgs s.p.cur).noSave = true ∧ Steps s t ∧ t.p.hist = s.p.hist ∧ t.caller = .idle ∧
    [112, 119] ∈ (t.p.hists t.p.hist).entries ∧ (t.p.hists t.p.hist).disk = [97, 10, 112, 119, 10] := by
  have h : Steps ⟨inst ⟨[62], 0, true, fileCfg, [97, 10], none⟩ [62] (Hist.start fileCfg [97, 10]), .idle, .editing⟩ _ := .refl
  have h := h.step (.enter 1 rfl (by decide))
  have h := h.step (.submit [112, 119] rfl rfl)
  have h := h.step (.check rfl rfl)
  have h := h.step (.exit rfl)
  have h := h.step (.save (k := 0) rfl rfl rfl)
  exact ⟨_, _, inst_rest _ _ _, rfl, rfl, by decide, rfl, h, rfl, rfl, by decide, by decide⟩

/-- Non-trivial case of `C53_partial`: an orderly run of one `ReadPassword`. -/
example : ∃ s t : St, Rest s.p ∧ s.caller = .idle ∧ s.loop = .editing ∧ Orderly s t ∧ t.caller = .idle ∧
    (t.p.hists s.p.hist).entries = [[97], [], [97]] := by
  have h : Orderly ⟨inst ⟨[62], 0, true, fileCfg, [97, 10], none⟩ [62] (Hist.start fileCfg [97, 10]), .idle, .editing⟩ _ := .refl
  have h := h.step (.enter 1 rfl (by decide)) (by simp)
  have h := h.step (.submit [112, 119] rfl rfl) (by simp)
  have h := h.step (.check rfl rfl) (by simp)
  have h := h.step (.save (k := 1) rfl rfl rfl) (by simp)
  have h := h.step (.update (k := 1) rfl rfl) (by simp)
  have h := h.step (.exit rfl) (by simp)
  exact ⟨_, _, inst_rest _ _ _, rfl, rfl, h, rfl, by decide⟩

end RL.Pw
