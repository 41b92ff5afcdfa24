import Verif.Proofs.History
/-! # History in memory: C19-C22 -/

namespace RL
open Spec Hist

/-! ## C19: saving history appends exactly the submitted line -/

/-- C19.  Saving a line that is neither empty nor a repeat of the newest entry, while nothing is recalled or the pending
edit of the recalled entry is that line, appends it; everything older stays as it was, in order, up to the limit; the line
being edited starts empty again, and the history file (if open) gets exactly that line. -/
theorem C19_append (cfg : HCfg) (h : Hist) (w : h.WF) (hen : h.enable = true) (s : List Rune) (hs : s ≠ [])
    (hnew : h.entries.getLast? ≠ some s)
    (hnav : h.current = h.back ∨ ∃ c, h.current = some c ∧ (h.elems c).tmp = s) :
    ∃ h', h.new cfg s = .ok h' ∧ h'.WF ∧ h'.entries = keepNewest cfg.limit (h.entries ++ [s]) ∧
      h'.current = h'.back ∧ (∀ b, h'.back = some b → h'.showItem b = []) ∧
      h'.disk = h.disk ++ (if h.order ≠ [] ∧ h.fd = .opened then encode s ++ [10] else []) := by
  obtain ⟨h', he, w'⟩ := new_ok w cfg s
  refine ⟨h', he, w', ?_⟩
  have hcm : committed h s = s := by
    unfold committed
    split
    · rfl
    · rcases hnav with hn | ⟨c, h1, h2⟩
      · contradiction
      · rw [h1]; exact h2
  have hc : h.commit cfg s = .ok h' := by
    unfold Hist.new at he
    rw [if_neg (by simp [hen])] at he
    cases hb : h.back with
    | none =>
      rw [hb] at he
      simpa [hs] using he
    | some b =>
      rw [hb] at he
      have : ¬ h.repeatsNewest b s = true := fun hr => hnew ((repeatsNewest_iff w hb s).1 hr)
      simpa [hs, this] using he
  obtain ⟨k1, k2, _, _, _, _, _, k8, k9⟩ := commit_spec w cfg s hc
  rw [hcm] at k1 k8
  exact ⟨k1, k2, k9, k8⟩

/-- The condition on recalled entries is needed: `SaveHistory` (or Enter) while an older entry is recalled records the
entry's pending edit, not the given line.  Here "a" and "b" are stored, "a" is recalled and "x" is saved: what gets
recorded is the empty line. -/
theorem C19_stale_edit :
    ((runHOps ⟨10, false, false, false⟩ [.new [97], .new [98], .prev, .prev, .new [120]] (Hist.fresh [])).toOption.map
      Hist.entries) = some [[97], [98], []] := by
  decide

-- "a" is stored, "b" is saved: hypotheses and result
example :
    ((runHOps ⟨10, false, false, false⟩ [.new [97], .new [98]] (Hist.fresh [])).toOption.map
      fun h => (h.entries, decide (h.current = h.back))) = some ([[97], [98]], true) := by decide

/-! ## C20: the length is bounded -/

/-- Every operation but reopening the file keeps the bound. -/
theorem C20_step (cfg : HCfg) (h : Hist) (w : h.WF) (o : HOp) (ho : ∀ _ : o = .init, h.fd = .opened ∨ cfg.hasFile = false)
    (hle : h.order.length ≤ cfg.limit.toNat + 1) :
    ∃ h', o.run cfg h = .ok h' ∧ h'.WF ∧ h'.order.length ≤ cfg.limit.toNat + 1 := by
  have hupd : ∀ s b, (h.update cfg s b).order.length ≤ cfg.limit.toNat + 1 := by
    intro s b
    unfold Hist.update
    split
    · simp only [compact, compactList_eq]
      exact Nat.le_succ_of_le (keepNewest_length _ _)
    · simp only [compact, compactList_eq]
      exact Nat.le_succ_of_le (keepNewest_length _ _)
  cases o with
  | new s =>
    obtain ⟨h', he, w'⟩ := new_ok w cfg s
    refine ⟨h', he, w', ?_⟩
    unfold Hist.new at he
    by_cases hen : h.enable = false
    · rw [if_pos hen] at he
      have := Except.ok.inj he; subst this; exact hle
    · rw [if_neg hen] at he
      cases hb : h.back with
      | none =>
        rw [hb] at he
        dsimp only at he
        split at he
        · have w0 : ({ h with current := none } : Hist).WF :=
            { w with cur := by simp, cur_none := by intro _; exact back_none hb }
          exact (commit_spec w0 cfg s he).2.2.2.1
        · exact (commit_spec w cfg s he).2.2.2.1
      | some b =>
        rw [hb] at he
        dsimp only at he
        split at he
        · have := Except.ok.inj he; subst this; exact hle
        · split at he
          · have := Except.ok.inj he; subst this; exact hle
          · exact (commit_spec w cfg s he).2.2.2.1
  | update s => exact ⟨_, rfl, update_WF w cfg s false, hupd s false⟩
  | prev =>
    refine ⟨_, rfl, prev_WF w, ?_⟩
    unfold Hist.prev; split
    · exact hle
    · split <;> exact hle
  | next =>
    refine ⟨_, rfl, next_WF w, ?_⟩
    unfold Hist.nextLine; split
    · exact hle
    · split <;> exact hle
  | revert => exact ⟨_, rfl, revert_WF w, hle⟩
  | reset => exact ⟨_, rfl, reset_WF w, by simp [reset]⟩
  | enable => exact ⟨_, rfl, { w with }, hle⟩
  | disable => exact ⟨_, rfl, { w with }, hle⟩
  | close => exact ⟨_, rfl, { w with }, hle⟩
  | init =>
    have : h.init cfg = h := by
      unfold Hist.init
      rcases ho rfl with h1 | h1
      · rw [if_pos h1]
      · rw [h1]; split <;> rfl
    exact ⟨_, rfl, init_WF w cfg, by rw [this]; exact hle⟩

/-- Opening the history file for the first time keeps the bound too. -/
theorem start_bound (cfg : HCfg) (disk : List Nat) : (Hist.start cfg disk).order.length ≤ cfg.limit.toNat + 1 := by
  have hl : ∀ ls (h : Hist), h.order.length ≤ cfg.limit.toNat → (loadLines cfg ls h).order.length ≤ cfg.limit.toNat := by
    intro ls
    induction ls with
    | nil => intro h hh; exact hh
    | cons l ls ih =>
      intro h hh
      unfold loadLines
      split
      · exact ih h hh
      · apply ih
        simp only [compact, compactList_eq]
        exact keepNewest_length _ _
  have hr : ∀ h : Hist, (h.rewrite cfg).order = h.order := by
    intro h; unfold Hist.rewrite; split <;> rfl
  unfold Hist.start Hist.init
  rw [if_neg (by simp [fresh])]
  split
  · unfold updatePath
    split
    · simp [fresh]
    · simp only [push, List.length_append, List.length_singleton, Nat.add_le_add_iff_right]
      split
      · rw [hr]; exact hl _ _ (by simp [fresh])
      · exact hl _ _ (by simp [fresh])
  · simp [fresh]

/-- C20 (partial: without reopening the history file after it was closed).  In any session, after any sequence of history
operations, there are at most `HistoryLimit` stored entries besides the line being edited; none if the limit is not
positive. -/
theorem C20_bound_partial (cfg : HCfg) (disk : List Nat) (os : List HOp) (hos : ∀ o ∈ os, o ≠ .init) :
    ∃ h, runHOps cfg os (Hist.start cfg disk) = .ok h ∧ h.entries.length ≤ cfg.limit.toNat ∧
      h.order.length ≤ cfg.limit.toNat + 1 := by
  have key : ∀ h : Hist, h.WF → h.order.length ≤ cfg.limit.toNat + 1 →
      ∃ h', runHOps cfg os h = .ok h' ∧ h'.order.length ≤ cfg.limit.toNat + 1 := by
    induction os with
    | nil => intro h _ hh; exact ⟨h, rfl, hh⟩
    | cons o os ih =>
      intro h w hh
      obtain ⟨h1, e1, w1, b1⟩ := C20_step cfg h w o (fun h0 => absurd h0 (hos o (by simp))) hh
      obtain ⟨h2, e2, b2⟩ := ih (fun o ho => hos o (by simp [ho])) h1 w1 b1
      exact ⟨h2, by simp [runHOps, e1, e2], b2⟩
  obtain ⟨h, e, b⟩ := key _ (init_WF (fresh_WF disk) cfg) (start_bound cfg disk)
  refine ⟨h, e, ?_, b⟩
  simp only [entries, List.length_map, List.length_dropLast]
  omega

/-- Reopening is what breaks the bound: with limit 1 and a blank history file, closing and reopening the file twice, as two
calls of ReadPassword do, leaves two (empty) stored entries. -/
theorem C20_false :
    ((runHOps ⟨1, true, false, true⟩ [.close, .init, .close, .init] (Hist.start ⟨1, true, false, true⟩ [])).toOption.map
      Hist.entries) = some [[], []] := by
  decide

example : (runHOps ⟨2, false, false, false⟩ [.new [97], .new [98], .new [99], .update [100]] (Hist.start ⟨2, false, false, false⟩ [])).toOption.map
    Hist.entries = some [[99]] := by decide

/-! ## C21: browsing never changes the history -/

theorem update_false_order {h : Hist} {c : Nat} (hc : h.current = some c) (cfg s) :
    (h.update cfg s false).order = keepNewest cfg.limit h.order ∧
    (h.update cfg s false).elems = (fun i => if i = c then ⟨(h.elems c).source, h.ver, s⟩ else h.elems i) ∧
    (h.update cfg s false).ver = h.ver ∧ (h.update cfg s false).current = some c := by
  simp [Hist.update, hc, compact, compactList_eq, setItem]

/-- C21, entries: browsing operations leave the stored entries as they are, except that noting an edit drops the oldest
ones when the limit is exceeded; and they never touch the file. -/
theorem C21_entries (cfg : HCfg) (h : Hist) (w : h.WF) (o : HOp) (ho : o.Browse) :
    ∃ h', o.run cfg h = .ok h' ∧ h'.WF ∧ h'.entries <:+ h.entries ∧ h'.disk = h.disk ∧
      (h.order.length ≤ cfg.limit.toNat → h'.entries = h.entries ∧ h'.order.length ≤ cfg.limit.toNat) ∧
      ((∀ s, o ≠ .update s) → h'.entries = h.entries) := by
  cases o with
  | update s =>
    refine ⟨_, rfl, update_WF w cfg s false, ?_⟩
    cases hc : h.current with
    | none =>
      have ho := w.cur_none hc
      have hu : h.update cfg s false = (h.push s).compact cfg := by simp [Hist.update, hc]
      rw [hu]
      have h1 : ((h.push s).compact cfg).entries = [] := by
        have : ((h.push s).compact cfg).order.length ≤ 1 := by
          simp only [compact, compactList_eq, push, ho, keepNewest]; simp
        unfold entries
        match hh : ((h.push s).compact cfg).order, this with
        | [], _ => rfl
        | [x], _ => rfl
      have h2 : h.entries = [] := by simp [entries, ho]
      rw [h1, h2]
      refine ⟨by simp, rfl, fun _ => ⟨rfl, ?_⟩, fun _ => rfl⟩
      simp only [compact, compactList_eq]
      exact keepNewest_length _ _
    | some c =>
      obtain ⟨k1, k2, k3, k4⟩ := update_false_order hc cfg s
      have hsrc : ∀ i, ((h.update cfg s false).elems i).source = (h.elems i).source := by
        intro i; rw [k2]; dsimp only; split
        · next h0 => rw [h0]
        · rfl
      have he : (h.update cfg s false).entries = (keepNewest cfg.limit h.order).dropLast.map fun i => (h.elems i).source := by
        unfold entries
        rw [k1]
        exact List.map_congr_left fun i _ => hsrc i
      refine ⟨?_, by simp [Hist.update, hc, compact, setItem], fun hle => ?_, fun hn => absurd rfl (hn s)⟩
      · rw [he]
        unfold entries
        obtain ⟨t, ht⟩ := keepNewest_suffix cfg.limit h.order
        by_cases h0 : keepNewest cfg.limit h.order = []
        · rw [h0]; simp
        · refine ⟨t.map fun i => (h.elems i).source, ?_⟩
          rw [← List.map_append]
          congr 1
          conv => rhs; rw [← ht]
          rw [List.dropLast_append_of_ne_nil h0]
      · rw [he, keepNewest_self hle, k1, keepNewest_self hle]
        exact ⟨rfl, hle⟩
  | prev =>
    have : (h.prev.2).entries = h.entries ∧ h.prev.2.disk = h.disk ∧ h.prev.2.order = h.order := by
      unfold Hist.prev; split
      · exact ⟨rfl, rfl, rfl⟩
      · split <;> exact ⟨rfl, rfl, rfl⟩
    exact ⟨_, rfl, prev_WF w, by rw [this.1]; exact List.suffix_refl _, this.2.1,
      fun hle => ⟨this.1, by rw [this.2.2]; exact hle⟩, fun _ => this.1⟩
  | next =>
    have : (h.nextLine.2).entries = h.entries ∧ h.nextLine.2.disk = h.disk ∧ h.nextLine.2.order = h.order := by
      unfold Hist.nextLine; split
      · exact ⟨rfl, rfl, rfl⟩
      · split <;> exact ⟨rfl, rfl, rfl⟩
    exact ⟨_, rfl, next_WF w, by rw [this.1]; exact List.suffix_refl _, this.2.1,
      fun hle => ⟨this.1, by rw [this.2.2]; exact hle⟩, fun _ => this.1⟩
  | revert => exact ⟨_, rfl, revert_WF w, List.suffix_refl _, rfl, fun hle => ⟨rfl, hle⟩, fun _ => rfl⟩
  | new | reset | enable | disable | close | init => exact ho.elim

/-- C21 for sequences: below the limit, no sequence of browsing operations changes the stored entries. -/
theorem C21_browse (cfg : HCfg) (h : Hist) (w : h.WF) (hle : h.order.length ≤ cfg.limit.toNat) (os : List HOp)
    (hos : ∀ o ∈ os, o.Browse) :
    ∃ h', runHOps cfg os h = .ok h' ∧ h'.entries = h.entries ∧ h'.disk = h.disk := by
  induction os generalizing h with
  | nil => exact ⟨h, rfl, rfl, rfl⟩
  | cons o os ih =>
    obtain ⟨h1, e1, w1, _, d1, k1, _⟩ := C21_entries cfg h w o (hos o (by simp))
    obtain ⟨k2, k3⟩ := k1 hle
    obtain ⟨h2, e2, k4, d2⟩ := ih h1 w1 k3 (fun o ho => hos o (by simp [ho]))
    exact ⟨h2, by simp [runHOps, e1, e2], k4.trans k2, d2.trans d1⟩

/-- C21, back and forth: a successful Prev shows the nearest older entry, and Next then returns to the entry left, in
exactly the state before. -/
theorem C21_prev_next (h h1 : Hist) (w : h.WF) (t : List Rune) (hp : h.prev = (some t, h1)) :
    ∃ a p c b, h.order = a ++ p :: c :: b ∧ h.current = some c ∧ h1.current = some p ∧ t = h.showItem p ∧
      h1.nextLine = (some (h.showItem c), h) := by
  unfold Hist.prev at hp
  cases hc : h.current with
  | none => rw [hc] at hp; simp at hp
  | some c =>
    rw [hc] at hp
    dsimp only at hp
    cases he : h.elemPrev c with
    | none => rw [he] at hp; simp at hp
    | some p =>
      rw [he] at hp
      simp only [Prod.mk.injEq, Option.some.injEq] at hp
      obtain ⟨rfl, rfl⟩ := hp
      obtain ⟨a, b, hab⟩ := (elemPrev_eq_some w.nodup).1 he
      refine ⟨a, p, c, b, hab, rfl, rfl, rfl, ?_⟩
      have hn : ({ h with current := some p } : Hist).elemNext p = some c :=
        (elemNext_eq_some (h := { h with current := some p }) w.nodup).2 ⟨a, b, hab⟩
      unfold Hist.nextLine
      dsimp only
      rw [hn]
      have : ({ h with current := some c } : Hist) = h := by cases h; simp_all
      simp only [Prod.mk.injEq, Option.some.injEq]
      exact ⟨rfl, this⟩

/-- C21, forth and back. -/
theorem C21_next_prev (h h1 : Hist) (w : h.WF) (t : List Rune) (hp : h.nextLine = (some t, h1)) :
    ∃ a p c b, h.order = a ++ c :: p :: b ∧ h.current = some c ∧ h1.current = some p ∧ t = h.showItem p ∧
      h1.prev = (some (h.showItem c), h) := by
  unfold Hist.nextLine at hp
  cases hc : h.current with
  | none => rw [hc] at hp; simp at hp
  | some c =>
    rw [hc] at hp
    dsimp only at hp
    cases he : h.elemNext c with
    | none => rw [he] at hp; simp at hp
    | some p =>
      rw [he] at hp
      simp only [Prod.mk.injEq, Option.some.injEq] at hp
      obtain ⟨rfl, rfl⟩ := hp
      obtain ⟨a, b, hab⟩ := (elemNext_eq_some w.nodup).1 he
      refine ⟨a, p, c, b, hab, rfl, rfl, rfl, ?_⟩
      have hn : ({ h with current := some p } : Hist).elemPrev p = some c :=
        (elemPrev_eq_some (h := { h with current := some p }) w.nodup).2 ⟨a, b, hab⟩
      unfold Hist.prev
      dsimp only
      rw [hn]
      have : ({ h with current := some c } : Hist) = h := by cases h; simp_all
      simp only [Prod.mk.injEq, Option.some.injEq]
      exact ⟨rfl, this⟩

/-- C21, pending edits.  Moving around leaves what every element shows as it is; noting an edit changes what the current
element shows, to exactly the edit, and no other; submitting or cancelling makes every element show its stored text
again. -/
theorem C21_edits (cfg : HCfg) (h : Hist) (w : h.WF) :
    (∀ x, h.prev.2.showItem x = h.showItem x ∧ h.nextLine.2.showItem x = h.showItem x) ∧
    (∀ c s, h.current = some c →
      (h.update cfg s false).showItem c = s ∧ ∀ x, x ≠ c → (h.update cfg s false).showItem x = h.showItem x) ∧
    (∀ x, h.revert.showItem x = (h.elems x).source) ∧
    (h.enable = true → ∀ s h', h.new cfg s = .ok h' → ∀ x ∈ h'.order, h'.showItem x = (h'.elems x).source) := by
  refine ⟨fun x => ⟨?_, ?_⟩, fun c s hc => ?_, fun x => ?_, fun hen s h' hn x hx => ?_⟩
  · unfold Hist.prev; split
    · rfl
    · split <;> rfl
  · unfold Hist.nextLine; split
    · rfl
    · split <;> rfl
  · obtain ⟨k1, k2, k3, k4⟩ := update_false_order hc cfg s
    refine ⟨by simp [showItem, k2, k3], fun x hx => by simp [showItem, k2, k3, hx]⟩
  · have := w.version x
    have h1 : (h.elems x).version ≠ h.ver + 1 := by omega
    simp [showItem, revert, h1]
  · have hv : ∀ g : Hist, g.WF → ∀ g', g.commit cfg s = .ok g' → (∀ i, (g'.elems i).version < g'.ver) := by
      intro g wg g' hg i
      have key : ∀ (k : Hist), k.WF → ((({ k with ver := k.ver + 1 } : Hist).push []).elems i).version <
          (({ k with ver := k.ver + 1 } : Hist).push []).ver := by
        intro k wk
        have := wk.version i
        simp only [push, setItem]
        split
        · simp
        · omega
      unfold Hist.commit at hg
      split at hg
      · cases h0 : g.current with
        | none => rw [h0] at hg; simp at hg
        | some c =>
          rw [h0] at hg
          simp only [R.bind_ok] at hg
          have := Except.ok.inj hg
          subst this
          exact key _ (update_WF (setBack_WF wg) cfg _ true)
      · simp only [R.bind_ok] at hg
        have := Except.ok.inj hg
        subst this
        exact key _ (update_WF wg cfg _ true)
    have hlt : (h'.elems x).version < h'.ver := by
      have hcl : ∀ b, ((h.cleanBack b).elems x).version < (h.cleanBack b).ver := by
        intro b
        have := w.version x
        simp only [cleanBack, setItem]
        split
        · next h0 => subst h0; simp only [Item.clean]; omega
        · omega
      unfold Hist.new at hn
      rw [if_neg (by simp [hen])] at hn
      cases hb : h.back with
      | none =>
        rw [hb] at hn
        dsimp only at hn
        refine hv _ ?_ _ hn x
        split
        · exact { w with cur := by simp, cur_none := by intro _; exact back_none hb }
        · exact w
      | some b =>
        rw [hb] at hn
        dsimp only at hn
        split at hn
        · have := Except.ok.inj hn; subst this; exact hcl b
        · split at hn
          · have := Except.ok.inj hn; subst this; exact hcl b
          · exact hv _ w _ hn x
    have h1 : (h'.elems x).version ≠ h'.ver := by omega
    simp [showItem, h1]

-- "a", "b" stored; recall "b", edit it to "bx", go to "a" and back: the edit is shown; after cancelling it is not
example :
    let h := (runHOps ⟨10, false, false, false⟩ [.new [97], .new [98], .prev, .update [98, 120], .prev] (Hist.fresh [])).toOption
    (h.map fun h => (h.nextLine.1, h.entries)) = some (some [98, 120], [[97], [98]]) ∧
    (h.map fun h => (h.revert.prev.1)) = some (some [98]) := by decide

/-! ## C22: empty lines and repeats are not recorded -/

/-- C22 (partial: once the history has its first element, see `C22_false`).  Saving an empty line or a repeat of the newest
entry changes neither the stored entries nor the file. -/
theorem C22_unchanged_partial (cfg : HCfg) (h : Hist) (w : h.WF) (hne : h.order ≠ []) (s : List Rune)
    (hs : s = [] ∨ h.entries.getLast? = some s) :
    ∃ h', h.new cfg s = .ok h' ∧ h'.WF ∧ h'.entries = h.entries ∧ h'.disk = h.disk := by
  obtain ⟨h', he, w'⟩ := new_ok w cfg s
  refine ⟨h', he, w', ?_⟩
  unfold Hist.new at he
  split at he
  · have := Except.ok.inj he; subst this; exact ⟨rfl, rfl⟩
  · cases hb : h.back with
    | none => exact absurd (back_none hb) hne
    | some b =>
      rw [hb] at he
      dsimp only at he
      have hcl : ((h.cleanBack b).entries = h.entries) ∧ (h.cleanBack b).disk = h.disk := ⟨cleanBack_entries w hb, rfl⟩
      split at he
      · have := Except.ok.inj he; subst this; exact hcl
      · next hr =>
        have hs' : s = [] := by
          rcases hs with h1 | h1
          · exact h1
          · exact absurd ((repeatsNewest_iff w hb s).2 h1) hr
        rw [if_pos (by simp [hs'])] at he
        have := Except.ok.inj he; subst this; exact hcl

/-- On a fresh instance without history file, saving an empty line does record it. -/
theorem C22_false :
    ((Hist.start ⟨10, false, false, false⟩ []).new ⟨10, false, false, false⟩ []).toOption.map Hist.entries = some [[]] := by
  decide

example : (runHOps ⟨10, false, false, false⟩ [.new [97], .new [], .new [97], .new []] (Hist.fresh [])).toOption.map
    Hist.entries = some [[97]] := by decide

end RL
