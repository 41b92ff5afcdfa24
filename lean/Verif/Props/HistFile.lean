import Verif.Proofs.HistFile
/-! # The history file: C23-C25 -/

namespace RL
open Spec Hist

/-! ## C23: round trip -/

/-- C23, reading: a session started on a file made of storable entries has exactly these entries, in order, limited to the
newest `HistoryLimit`; the file then holds all of them or, if there were too many, those kept. -/
theorem C23_load (cfg : HCfg) (hf : cfg.hasFile = true) (ho : cfg.openOK = true) (es : List (List Rune))
    (hes : ∀ e ∈ es, Storable e) :
    (Hist.start cfg (fileOf es)).entries = keepNewest cfg.limit es ∧
    (Hist.start cfg (fileOf es)).disk = (if (es.length : Int) > cfg.limit then fileOf (keepNewest cfg.limit es) else fileOf es) ∧
    (Hist.start cfg (fileOf es)).WF := by
  obtain ⟨k1, k2, k3, _⟩ := start_spec cfg (fileOf es) hf ho
  have ht : fileTexts (fileOf es) = es := by
    have := fileTexts_storable hes []
    simpa [fileTexts, termLines] using this
  have hl : termLines [] (fileOf es) = es.map encode := by
    have := termLines_fileOf (es := es) (fun e he => (hes e he).oneLine) []
    simpa [termLines] using this
  rw [ht] at k1 k2
  rw [hl, List.length_map] at k2
  exact ⟨k1, k2, k3⟩

/-- Saving lines one after the other. -/
def saveAll (cfg : HCfg) : List (List Rune) → Hist → R Hist
  | [], h => .ok h
  | s :: ss, h => h.new cfg s >>= saveAll cfg ss

theorem keepNewest_getLast {α} {n : Int} (hn : 1 ≤ n) (l : List α) : (keepNewest n l).getLast? = l.getLast? := by
  rcases List.eq_nil_or_concat l with rfl | ⟨l', x, rfl⟩
  · simp [keepNewest]
  · simp only [List.concat_eq_append, keepNewest, List.length_append, List.length_singleton]
    rw [List.drop_append_of_le_length (by omega)]
    simp

/-- Saving a storable line in a session. -/
theorem new_record (cfg : HCfg) (hl : 1 ≤ cfg.limit) (h : Hist) (w : h.WF) (hen : h.enable = true) (hc : h.current = h.back)
    (hne : h.order ≠ []) (hfd : h.fd = .opened) (all : List (List Rune)) (he : h.entries = keepNewest cfg.limit all)
    (s : List Rune) :
    ∃ h', h.new cfg s = .ok h' ∧ h'.WF ∧ h'.enable = true ∧ h'.current = h'.back ∧ h'.order ≠ [] ∧ h'.fd = .opened ∧
      h'.entries = keepNewest cfg.limit (record all s) ∧
      ∃ more, record all s = all ++ more ∧ h'.disk = h.disk ++ fileOf more ∧ (∀ e ∈ more, e = s) := by
  have hlast : h.entries.getLast? = all.getLast? := by rw [he, keepNewest_getLast hl]
  cases hb : h.back with
  | none => exact absurd (back_none hb) hne
  | some b =>
    by_cases hr : s = [] ∨ all.getLast? = some s
    · have hnew : h.new cfg s = .ok (h.cleanBack b) := by
        unfold Hist.new
        rw [if_neg (by simp [hen]), hb]
        dsimp only
        by_cases h1 : h.repeatsNewest b s = true
        · rw [if_pos h1]
        · have hs : s = [] := by
            rcases hr with h2 | h2
            · exact h2
            · exact absurd ((repeatsNewest_iff w hb s).2 (hlast.trans h2)) h1
          rw [if_neg h1, if_pos (by simp [hs])]
      refine ⟨_, hnew, cleanBack_WF w hb, hen, ?_, hne, hfd, ?_, [], ?_, ?_, by simp⟩
      · exact hb.symm
      · rw [cleanBack_entries w hb, he, record, if_pos hr]
      · rw [record, if_pos hr]; simp
      · show h.disk = _; simp [fileOf]
    · have hr' : s ≠ [] ∧ all.getLast? ≠ some s := ⟨fun h1 => hr (.inl h1), fun h1 => hr (.inr h1)⟩
      have hnew : h.new cfg s = h.commit cfg s := by
        unfold Hist.new
        rw [if_neg (by simp [hen]), hb]
        dsimp only
        have h1 : ¬ h.repeatsNewest b s = true := fun h1 => hr'.2 (hlast.symm.trans ((repeatsNewest_iff w hb s).1 h1))
        rw [if_neg h1, if_neg (by simp [hr'.1])]
      obtain ⟨h', e1, w1⟩ := commit_ok w cfg s
      obtain ⟨k1, k2, k3, _, _, k6, k7, k8, _⟩ := commit_spec w cfg s e1
      have hcm : committed h s = s := if_pos hc
      rw [hcm] at k1 k8
      refine ⟨h', hnew.trans e1, w1, k7.trans hen, k2, k3, k6.trans hfd, ?_, [s], ?_, ?_, by simp⟩
      · rw [k1, he, keepNewest_append, record, if_neg hr]
      · rw [record, if_neg hr]
      · rw [k8, if_pos ⟨hne, hfd⟩]; simp [fileOf, fileLine]

/-- C23, writing and reading back: a session started on a file of storable entries records any number of storable lines;
the next session has exactly the entries this one ended with: the newest `HistoryLimit` of all lines ever recorded. -/
theorem C23_roundtrip (cfg : HCfg) (hf : cfg.hasFile = true) (ho : cfg.openOK = true) (hl : 1 ≤ cfg.limit)
    (es ss : List (List Rune)) (hes : ∀ e ∈ es, Storable e) (hss : ∀ s ∈ ss, s = [] ∨ Storable s) :
    ∃ h, saveAll cfg ss (Hist.start cfg (fileOf es)) = .ok h ∧
      h.entries = keepNewest cfg.limit (ss.foldl record es) ∧
      (Hist.start cfg h.disk).entries = keepNewest cfg.limit (ss.foldl record es) := by
  obtain ⟨k1, k2, k3, k4, k5, k6, k7⟩ := start_spec cfg (fileOf es) hf ho
  obtain ⟨l1, l2, _⟩ := C23_load cfg hf ho es hes
  -- what the file holds after opening: a list of storable entries with the same newest ones
  obtain ⟨fs, hfs, hfs1, hfs2⟩ : ∃ fs, (Hist.start cfg (fileOf es)).disk = fileOf fs ∧ (∀ e ∈ fs, Storable e) ∧
      ∀ m, keepNewest cfg.limit (fs ++ m) = keepNewest cfg.limit (es ++ m) := by
    by_cases hr : (es.length : Int) > cfg.limit
    · rw [if_pos hr] at l2
      exact ⟨_, l2, fun e he => hes e (mem_keepNewest he), fun m => keepNewest_append _ _ _⟩
    · rw [if_neg hr] at l2
      exact ⟨_, l2, hes, fun m => rfl⟩
  have main : ∀ (ss : List (List Rune)) (h : Hist) (all : List (List Rune)), (∀ s ∈ ss, s = [] ∨ Storable s) → h.WF →
      h.enable = true → h.current = h.back → h.order ≠ [] → h.fd = .opened → h.entries = keepNewest cfg.limit all →
      ∀ fs, h.disk = fileOf fs → (∀ e ∈ fs, Storable e) →
      (∀ m, keepNewest cfg.limit (fs ++ m) = keepNewest cfg.limit (all ++ m)) →
      ∃ h', saveAll cfg ss h = .ok h' ∧ h'.entries = keepNewest cfg.limit (ss.foldl record all) ∧
        ∃ fs', h'.disk = fileOf fs' ∧ (∀ e ∈ fs', Storable e) ∧
          keepNewest cfg.limit fs' = keepNewest cfg.limit (ss.foldl record all) := by
    intro ss
    induction ss with
    | nil =>
      intro h all _ _ _ _ _ _ he fs hd hst hk
      exact ⟨h, rfl, he, fs, hd, hst, by simpa using hk []⟩
    | cons s ss ih =>
      intro h all hss w hen hcb hne hfd he fs hd hst hk
      obtain ⟨h1, n1, w1, en1, c1, o1, f1, e1, more, m1, m2, m3⟩ := new_record cfg hl h w hen hcb hne hfd all he s
      have hmore : ∀ e ∈ more, Storable e := by
        intro e hm
        have hes' := m3 e hm
        subst hes'
        rcases hss e (by simp) with h0 | h0
        · exfalso
          have : more = [] := by
            have hrec := m1
            rw [record, if_pos (.inl h0)] at hrec
            have := congrArg List.length hrec
            simp at this
            exact this
          rw [this] at hm; simp at hm
        · exact h0
      obtain ⟨h2, n2, e2, fs2, d2, s2, k2⟩ := ih h1 (record all s) (fun s hs => hss s (by simp [hs])) w1 en1 c1 o1 f1 e1
        (fs ++ more) (by rw [m2, hd]; simp [fileOf])
        (fun e he => (List.mem_append.1 he).elim (hst e) (hmore e))
        (by intro m; rw [List.append_assoc, hk, m1, List.append_assoc])
      exact ⟨h2, by simp [saveAll, n1, n2], e2, fs2, d2, s2, k2⟩
  obtain ⟨h, n, e, fs', d', st', kk⟩ := main ss _ es hss k3 k5 k6 k7 k4 l1 fs hfs hfs1 hfs2
  refine ⟨h, n, e, ?_⟩
  rw [d', (C23_load cfg hf ho fs' st').1, kk]

/-- Text between blanks. -/
def Trimmed (s t : List Rune) : Prop :=
  ∃ a b, s = a ++ t ++ b ∧ (∀ x ∈ a ++ b, isSpace x = true) ∧ (∀ x, t.head? = some x → isSpace x = false) ∧
    (∀ x, t.getLast? = some x → isSpace x = false)

theorem trimBoth_nl (s : List Rune) : Trimmed s (trimBoth (s ++ [10])) := by
  unfold trimBoth
  obtain ⟨a, h1, h2, h3⟩ := trimLeft_spec (s ++ [10])
  obtain ⟨b, g1, g2, g3⟩ := trimLeft_spec (trimSpaceLeft (s ++ [10])).reverse
  generalize trimSpaceLeft (s ++ [10]) = u at *
  generalize hv : trimSpaceLeft u.reverse = v at *
  have hu : u = v.reverse ++ b.reverse := by
    have := congrArg List.reverse g1
    simpa using this
  rw [hu] at h1 h3
  rcases List.eq_nil_or_concat b.reverse with hb | ⟨b', x, hb⟩
  · -- the newline itself is in `a`, everything is blank
    rw [hb] at h1 hu h3
    rcases List.eq_nil_or_concat v.reverse with hvn | ⟨v', y, hvn⟩
    · rw [hvn] at h1 ⊢
      refine ⟨s, [], by simp, ?_, by simp, by simp⟩
      intro x hx
      simp only [List.append_nil] at hx h1
      exact h2 x (by rw [← h1]; simp [hx])
    · exfalso
      rw [hvn, List.concat_eq_append] at h1
      have hy : y = 10 := by
        rw [List.append_nil, ← List.append_assoc] at h1
        have := congrArg List.getLast? h1
        rw [List.getLast?_concat, List.getLast?_concat] at this
        simpa using this.symm
      have : v.head? = some y := by
        have := congrArg List.reverse hvn
        simp only [List.reverse_reverse, List.concat_eq_append, List.reverse_append] at this
        rw [this]; rfl
      have := g3 y this
      rw [hy] at this
      exact absurd this (by decide)
  · rw [hb, List.concat_eq_append] at h1
    have hbx : ∀ z ∈ b' ++ [x], isSpace z = true := by
      intro z hz
      apply g2
      rw [← List.mem_reverse, hb, List.concat_eq_append]
      exact hz
    have hs : s = a ++ v.reverse ++ b' := by
      have h4 : s ++ [10] = (a ++ v.reverse ++ b') ++ [x] := by rw [h1]; simp
      exact (List.append_inj' h4 rfl).1
    refine ⟨a, b', hs, ?_, ?_, ?_⟩
    · intro z hz
      rcases List.mem_append.1 hz with h0 | h0
      · exact h2 z h0
      · exact hbx z (by simp [h0])
    · intro z hz
      apply h3
      cases hvr : v.reverse with
      | nil => rw [hvr] at hz; simp at hz
      | cons q qs => rw [hvr] at hz; simpa using hz
    · intro z hz
      exact g3 z (by simpa using hz)

/-- C23, other entries: what one line of the file gives is its text without surrounding blanks, and nothing at all if it is
blank. -/
theorem C23_trimmed (cfg : HCfg) (hf : cfg.hasFile = true) (ho : cfg.openOK = true) (hl : 1 ≤ cfg.limit) (s : List Rune)
    (h1 : (10 : Rune) ∉ s) (h2 : ∀ r ∈ s, Scalar r) :
    ∃ t, Trimmed s t ∧ (Hist.start cfg (fileOf [s])).entries = if t = [] then [] else [t] := by
  refine ⟨_, trimBoth_nl s, ?_⟩
  rw [(start_spec cfg _ hf ho).1]
  have : fileTexts (fileOf [s]) = if trimBoth (s ++ [10]) = [] then [] else [trimBoth (s ++ [10])] := by
    unfold fileTexts
    have := termLines_fileOf (es := [s]) (by simpa using h1) []
    rw [List.append_nil] at this
    rw [this]
    simp only [List.map_cons, List.map_nil, termLines, List.append_nil, lineText_encode h2, List.filter_cons, List.filter_nil]
    split <;> simp_all
  rw [this]
  split
  · simp [keepNewest]
  · rw [keepNewest_self]; simp; omega

-- "ab" and "c" survive; " ab " loses its blanks, a line with a newline is split
example : (Hist.start ⟨10, true, false, true⟩ (fileOf [[97, 98], [99]])).entries = [[97, 98], [99]] := by decide
example : (Hist.start ⟨10, true, false, true⟩ (fileOf [[32, 97, 98, 32], [97, 10, 98]])).entries = [[97, 98], [97], [98]] := by decide
example : Storable [97, 98] :=
  ⟨by simp, by simp, by simp [isSpace], by simp [isSpace], by simp [Scalar]⟩

/-! ## C24: crash while appending -/

/-- C24.  The process stops while line `s` is appended to a file of storable entries, having written any part of it.  The
next session has the earlier entries (limited to the newest), and either nothing else or the complete new entry; the latter
exactly if the whole line had been written. -/
theorem C24_crash_append (cfg : HCfg) (hf : cfg.hasFile = true) (ho : cfg.openOK = true) (es : List (List Rune))
    (hes : ∀ e ∈ es, Storable e) (s : List Rune) (hs : Storable s) (written : List Nat)
    (hw : written <+: encode s ++ [10]) :
    (written ≠ encode s ++ [10] → (Hist.start cfg (fileOf es ++ written)).entries = keepNewest cfg.limit es) ∧
    (written = encode s ++ [10] → (Hist.start cfg (fileOf es ++ written)).entries = keepNewest cfg.limit (es ++ [s])) := by
  refine ⟨fun hne => ?_, fun heq => ?_⟩
  · rw [(start_spec cfg _ hf ho).1, fileTexts_storable hes]
    have h10 : 10 ∉ written := by
      obtain ⟨r, hr⟩ := hw
      rcases List.eq_nil_or_concat r with rfl | ⟨r', x, rfl⟩
      · simp at hr; exact absurd hr hne
      · rw [List.concat_eq_append, ← List.append_assoc] at hr
        have := (List.append_inj' hr rfl).1
        intro hm
        exact not_mem_encode hs.oneLine (by rw [← this]; simp [hm])
    simp [fileTexts, termLines_open h10]
  · rw [(start_spec cfg _ hf ho).1, heq]
    have : fileOf es ++ (encode s ++ [10]) = fileOf (es ++ [s]) ++ [] := by simp [fileOf]
    rw [this, fileTexts_storable]
    · simp [fileTexts, termLines]
    · intro e he
      rcases List.mem_append.1 he with h0 | h0
      · exact hes e h0
      · simp only [List.mem_singleton] at h0; rw [h0]; exact hs

/-- After such a crash, however, the rest of the interrupted line stays in the file and is glued to the next line saved:
"abc" was cut after "ab", then "x" is saved; the following session sees "abx", which nobody entered. -/
theorem C24_glued :
    let h := (Hist.start ⟨10, true, false, true⟩ (fileOf [[97]] ++ [97, 98])).new ⟨10, true, false, true⟩ [120]
    h.toOption.map Hist.entries = some [[97], [120]] ∧
    h.toOption.map (fun h => (Hist.start ⟨10, true, false, true⟩ h.disk).entries) = some [[97], [97, 98, 120]] := by
  decide

example : [97, 98] <+: encode [97, 98, 99] ++ [10] := ⟨[99, 10], by decide⟩

/-! ## C25: compaction is atomic -/

/-- C25.  The process stops after any number of the system calls of a rewrite (the content being written in any pieces): the
history file holds the complete old contents or the complete new contents; and the new ones if it does not stop. -/
theorem C25_rewrite_atomic (old : List Nat) (leftover : Option (List Nat)) (chunks : List (List Nat)) (n : Nat) :
    ((execAll ((rewriteSteps chunks).take n) ⟨old, leftover⟩).file = old ∨
      (execAll ((rewriteSteps chunks).take n) ⟨old, leftover⟩).file = chunks.flatten) ∧
    execAll (rewriteSteps chunks) ⟨old, leftover⟩ = ⟨chunks.flatten, none⟩ := by
  have hfull : execAll (rewriteSteps chunks) ⟨old, leftover⟩ = ⟨chunks.flatten, none⟩ := by
    unfold rewriteSteps
    rw [execAll_append]
    simp [execAll, FsStep.exec, execAll_chunks]
  refine ⟨?_, hfull⟩
  by_cases hn : chunks.length + 2 ≤ n
  · right
    rw [List.take_of_length_le (by simp [rewriteSteps]; omega), hfull]
  · left
    match n with
    | 0 => rfl
    | n + 1 =>
      have : (rewriteSteps chunks).take (n + 1) = .create :: (chunks.take n).map .append := by
        simp only [rewriteSteps, List.take_succ_cons, List.cons_append]
        rw [List.take_append_of_le_length (by simp; omega), List.map_take]
      rw [this, execAll, FsStep.exec, execAll_chunks]

/-- The new contents are those the history model has after `Rewrite`: the stored entries, one per line. -/
theorem C25_rewrite_content (cfg : HCfg) (h : Hist) (hf : cfg.hasFile = true) (ho : cfg.openOK = true)
    (chunks : List (List Nat)) (hc : chunks.flatten = rewriteContent h) :
    (execAll (rewriteSteps chunks) ⟨h.disk, none⟩).file = (h.rewrite cfg).disk ∧
    (h.rewrite cfg).disk = fileOf (h.order.map fun i => (h.elems i).source) := by
  rw [(C25_rewrite_atomic h.disk none chunks 0).2]
  simp only [hc, rewriteContent, Hist.rewrite, hf, ho, Bool.true_eq_false, or_self, if_false, fileOf_map, and_self]

/-- Atomicity does not extend to failing writes: on a full device the truncated new contents replace the old file. -/
theorem C25_disk_full (old content : List Nat) (room : Nat) :
    (execAll (rewriteStepsFull room content) ⟨old, none⟩).file = content.take room := by
  simp [rewriteStepsFull, execAll, FsStep.exec]

example : (execAll ((rewriteSteps [[97, 10], [98, 10]]).take 3) ⟨[1, 2, 3], none⟩) = ⟨[1, 2, 3], some [97, 10, 98, 10]⟩ := by decide

end RL
