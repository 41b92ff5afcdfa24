import Verif.Props.History
/-! # C20: the length of the history when the file is reopened -/

namespace RL
open Spec Hist

/-- By how much the history may exceed its limit, the line being edited included: opening the file adds an element, noting an edit and clearing
the history bring it back within the limit, saving a line leaves room for the next one. -/
def slack : Nat → List HOp → Nat
  | m, [] => m
  | _, .update _ :: os | _, .reset :: os => slack 0 os
  | m, .new _ :: os => slack (max m 1) os
  | m, .init :: os => slack (m + 1) os
  | m, _ :: os => slack m os

theorem slack_step (cfg : HCfg) {h : Hist} (w : h.WF) {m : Nat} (hle : h.order.length ≤ cfg.limit.toNat + m) (o : HOp) :
    ∃ h', o.run cfg h = .ok h' ∧ h'.WF ∧ h'.order.length ≤ cfg.limit.toNat + slack m [o] := by
  cases o with
  | new s =>
    obtain ⟨h', he, w'⟩ := new_ok w cfg s
    refine ⟨h', he, w', ?_⟩
    show _ ≤ _ + max m 1
    have keep : h.order.length ≤ cfg.limit.toNat + max m 1 := by omega
    have one : ∀ {n : Nat}, n ≤ cfg.limit.toNat + 1 → n ≤ cfg.limit.toNat + max m 1 := by intro n h; omega
    unfold Hist.new at he
    by_cases hen : h.enable = false
    · rw [if_pos hen] at he
      have := Except.ok.inj he; subst this; exact keep
    · rw [if_neg hen] at he
      cases hb : h.back with
      | none =>
        rw [hb] at he
        dsimp only at he
        split at he
        · have w0 : ({ h with current := none } : Hist).WF :=
            { w with cur := by simp, cur_none := by intro _; exact back_none hb }
          exact one (commit_spec w0 cfg s he).2.2.2.1
        · exact one (commit_spec w cfg s he).2.2.2.1
      | some b =>
        rw [hb] at he
        dsimp only at he
        split at he
        · have := Except.ok.inj he; subst this; exact keep
        · split at he
          · have := Except.ok.inj he; subst this; exact keep
          · exact one (commit_spec w cfg s he).2.2.2.1
  | update s =>
    refine ⟨_, rfl, update_WF w cfg s false, ?_⟩
    show (h.update cfg s false).order.length ≤ _ + 0
    unfold Hist.update
    split
    · simp only [compact, compactList_eq]
      exact keepNewest_length _ _
    · simp only [compact, compactList_eq]
      exact keepNewest_length _ _
  | prev =>
    refine ⟨_, rfl, prev_WF w, ?_⟩
    unfold Hist.prev; split
    · exact hle
    · split <;> exact hle
  | next =>
    refine ⟨_, rfl, next_WF w, ?_⟩
    unfold Hist.nextLine; split
    · exact hle
    · split <;> exact hle
  | revert => exact ⟨_, rfl, revert_WF w, hle⟩
  | reset => exact ⟨_, rfl, reset_WF w, by simp [reset]⟩
  | enable => exact ⟨_, rfl, { w with }, hle⟩
  | disable => exact ⟨_, rfl, { w with }, hle⟩
  | close => exact ⟨_, rfl, { w with }, hle⟩
  | init =>
    refine ⟨_, rfl, init_WF w cfg, ?_⟩
    show (h.init cfg).order.length ≤ _ + (m + 1)
    have hl : ∀ ls (h : Hist), h.order.length ≤ cfg.limit.toNat + m → (loadLines cfg ls h).order.length ≤ cfg.limit.toNat + m := by
      intro ls
      induction ls with
      | nil => intro h hh; exact hh
      | cons l ls ih =>
        intro h hh
        unfold loadLines
        split
        · exact ih h hh
        · apply ih
          simp only [compact, compactList_eq]
          exact Nat.le_trans (keepNewest_length _ _) (Nat.le_add_right _ _)
    have hr : ∀ h : Hist, (h.rewrite cfg).order = h.order := by
      intro h; unfold Hist.rewrite; split <;> rfl
    unfold Hist.init
    split
    · omega
    · split
      · unfold updatePath
        split
        · omega
        · simp only [push, List.length_append, List.length_singleton, ← Nat.add_assoc, Nat.add_le_add_iff_right]
          split
          · rw [hr]; exact hl _ _ hle
          · exact hl _ _ hle
      · omega

theorem slack_cons (m : Nat) (o : HOp) (os : List HOp) : slack m (o :: os) = slack (slack m [o]) os := by
  cases o <;> rfl

/-- **C20** (reopening).  After any sequence of operations, closing and reopening the file included, the history exceeds its limit by at most `slack 1 os`: one
for the line being edited and one for every time the file was opened since an edit was last noted. -/
theorem C20_reopened (cfg : HCfg) (disk : List Nat) (os : List HOp) :
    ∃ h, runHOps cfg os (Hist.start cfg disk) = .ok h ∧ h.WF ∧ h.order.length ≤ cfg.limit.toNat + slack 1 os := by
  have key : ∀ (os : List HOp) (h : Hist) (m : Nat), h.WF → h.order.length ≤ cfg.limit.toNat + m →
      ∃ h', runHOps cfg os h = .ok h' ∧ h'.WF ∧ h'.order.length ≤ cfg.limit.toNat + slack m os := by
    intro os
    induction os with
    | nil => intro h m w hh; exact ⟨h, rfl, w, hh⟩
    | cons o os ih =>
      intro h m w hh
      obtain ⟨h1, e1, w1, b1⟩ := slack_step cfg w hh o
      obtain ⟨h2, e2, w2, b2⟩ := ih h1 _ w1 b1
      exact ⟨h2, by simp [runHOps, e1, e2], w2, by rw [slack_cons]; exact b2⟩
  exact key os _ 1 (init_WF (fresh_WF disk) cfg) (start_bound cfg disk)

/-- **C20** (typing helps).  As soon as an edit is noted, which every key does, the history is within its limit again, whatever happened before. -/
theorem C20_recovers (cfg : HCfg) (disk : List Nat) (os : List HOp) (s : List Rune) :
    ∃ h, runHOps cfg (os ++ [.update s]) (Hist.start cfg disk) = .ok h ∧ h.order.length ≤ cfg.limit.toNat := by
  obtain ⟨h, h1, _, h2⟩ := C20_reopened cfg disk (os ++ [.update s])
  have : ∀ (os : List HOp) m, slack m (os ++ [.update s]) = 0 := by
    intro os
    induction os with
    | nil => intro m; rfl
    | cons o os ih => intro m; rw [List.cons_append, slack_cons]; exact ih _
  exact ⟨h, h1, by rw [this] at h2; exact h2⟩

/-- Closing and reopening the file `n` times. -/
def reopen : Nat → List HOp
  | 0 => []
  | n + 1 => .close :: .init :: reopen n

/-- **C20 is false without any bound.**  With limit 1 and an empty history file, reopening the file `n` times (as `n` calls of `ReadPassword` do) leaves `n`
entries; the bound of `C20_reopened` is attained up to the line being edited. -/
theorem C20_false_unbounded (n : Nat) : ∃ h, runHOps ⟨1, true, false, true⟩ (reopen n) (Hist.start ⟨1, true, false, true⟩ []) = .ok h ∧ h.entries.length = n := by
  have key : ∀ (n : Nat) (h : Hist), h.fd = .opened → h.disk = [] → ∃ h', runHOps ⟨1, true, false, true⟩ (reopen n) h = .ok h' ∧
      h'.order.length = h.order.length + n := by
    intro n
    induction n with
    | zero => intro h _ _; exact ⟨h, rfl, rfl⟩
    | succ n ih =>
      intro h hf hd
      have e : h.close.init ⟨1, true, false, true⟩ = ({ h with fd := .opened, ver := h.ver + 1 }.push [] : Hist) := by
        simp [Hist.init, Hist.close, hf, updatePath, hd, termLines, loadLines]
      obtain ⟨h', h1, h2⟩ := ih ({ h with fd := .opened, ver := h.ver + 1 }.push []) rfl hd
      refine ⟨h', ?_, ?_⟩
      · rw [← h1, ← e]; rfl
      · rw [h2]; simp [push]; omega
  obtain ⟨h, h1, h2⟩ := key n (Hist.start ⟨1, true, false, true⟩ []) rfl rfl
  refine ⟨h, h1, ?_⟩
  simp only [entries, List.length_map, List.length_dropLast, h2]
  have : (Hist.start ⟨1, true, false, true⟩ []).order.length = 1 := by decide
  omega

/-! ### Non-trivial case -/

example : slack 1 [.new [97], .close, .init, .close, .init, .update [98], .close, .init] = 1 := rfl
example : slack 1 (reopen 3) = 4 := rfl

end RL
