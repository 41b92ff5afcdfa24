import Verif.Spec.Decode
/-! The decoder on chunks. -/

namespace RL

/-! ### The loop without fuel -/

namespace Dec

theorem readEscKey_len (U : UTables) (s : List TIn) : ∀ (r : Rune) (b : List Rune), (readEscKey U r b s).2.length ≤ s.length := by
  induction s with
  | nil => intro r b; simp only [readEscKey]; split <;> simp
  | cons x s ih =>
    intro r b
    cases x with
    | rune r' =>
      simp only [readEscKey]
      split
      · have := ih r' (b ++ [r]); simp only [List.length_cons]; omega
      · simp
    | eintr => simp only [readEscKey]; split <;> simp

theorem onRune_len (U : UTables) (vim : Bool) (d : Dec) (r : Rune) (s : List TIn) :
    (onRune U vim d r s).2.2.length ≤ s.length := by
  have h := readEscKey_len U s r []
  unfold onRune
  dsimp only
  repeat' split
  all_goals first | exact h | exact Nat.le_refl _

theorem run_fuel (U : UTables) (vim : Bool) : ∀ (n m : Nat) (d : Dec) (s : List TIn), s.length < n → s.length < m →
    run U vim n d s = run U vim m d s := by
  intro n
  induction n with
  | zero => intro m d s h; omega
  | succ n ih =>
    intro m d s h1 h2
    cases m with
    | zero => omega
    | succ m =>
      simp only [run, iter]
      cases s with
      | nil => rfl
      | cons x s =>
        simp only [List.length_cons] at h1 h2
        cases x with
        | eintr => simp only; rw [ih m _ s (by omega) (by omega)]
        | rune r =>
          simp only
          have hl := onRune_len U vim { d with expectNextChar := false } r s
          rw [ih m _ _ (Nat.lt_of_le_of_lt hl (by omega)) (Nat.lt_of_le_of_lt hl (by omega))]

/-- The whole loop from a state. -/
def trace (U : UTables) (vim : Bool) (d : Dec) (s : List TIn) : List TEv := run U vim (s.length + 1) d s

/-- Waiting at the head of the loop. -/
def w (b : Bool) : List TEv := if b then [] else [TEv.wait]

theorem trace_nil (U : UTables) (vim : Bool) (d : Dec) : trace U vim d [] = w d.expectNextChar := rfl

theorem trace_eintr (U : UTables) (vim : Bool) (d : Dec) (s : List TIn) :
    trace U vim d (.eintr :: s) = w d.expectNextChar ++ trace U vim { d with expectNextChar := true } s := rfl

theorem trace_rune (U : UTables) (vim : Bool) (d : Dec) (r : Rune) (s : List TIn) :
    trace U vim d (.rune r :: s) = w d.expectNextChar ++ (onRune U vim { d with expectNextChar := false } r s).1 ++
      trace U vim (onRune U vim { d with expectNextChar := false } r s).2.1 (onRune U vim { d with expectNextChar := false } r s).2.2 := by
  have hl := onRune_len U vim { d with expectNextChar := false } r s
  show run U vim (s.length + 1 + 1) d (.rune r :: s) = _
  rw [run]
  simp only [iter]
  rw [trace, run_fuel U vim (s.length + 1) _ _ _ (Nat.lt_of_le_of_lt hl (by omega)) (Nat.lt_succ_self _)]
  rfl

/-- Outside of a sequence. -/
def N (b : Bool) : Dec := ⟨false, false, false, b⟩
/-- After Escape. -/
def E (b : Bool) : Dec := ⟨true, false, false, b⟩
/-- After `ESC [`. -/
def X (b : Bool) : Dec := ⟨false, true, false, b⟩
/-- After `ESC O`. -/
def S (b : Bool) : Dec := ⟨false, false, true, b⟩

theorem onRune_N (U : UTables) (vim : Bool) (r : Rune) (s : List TIn) :
    onRune U vim (N false) r s = (((N false).emit vim r).1, ((N false).emit vim r).2, s) := rfl

/-- A key, and the wait after it. -/
def step (r : Rune) : List TEv := .key r :: w (!stopKey r)

/-- A key sent outside of sequences. -/
theorem emit_key (vim : Bool) {r : Rune} (h : r ≠ 27 ∨ vim = true) :
    (N false).emit vim r = ([.key r], N (!stopKey r)) := by
  unfold emit
  by_cases e : r = CharEsc
  · rw [if_pos e]
    have hv : vim = true := h.resolve_left (fun n => n e)
    rw [if_pos hv]
    subst e
    rfl
  · rw [if_neg e]
    by_cases hs : stopKey r = true
    · rw [if_pos hs, hs]; rfl
    · rw [if_neg hs, eq_false_of_ne_true hs]; rfl


/-! ### Reading up to the first rune after the introducer -/

theorem trace_expect (U : UTables) (vim : Bool) (d : Dec) (s : List TIn) :
    trace U vim d s = w d.expectNextChar ++ trace U vim { d with expectNextChar := true } s := by
  cases s with
  | nil => rw [trace_nil, trace_nil]; simp [w]
  | cons x s =>
    cases x with
    | eintr => rw [trace_eintr, trace_eintr]; simp [w]
    | rune r => rw [trace_rune, trace_rune]; simp [w]

theorem weave_rune (U : UTables) (vim : Bool) {r : Rune} {l : List Rune} {h : List TIn} (hw : Spec.Weave (r :: l) h) :
    ∃ h', Spec.Weave l h' ∧ ∀ (d : Dec) (s : List TIn), trace U vim d (h ++ s) = w d.expectNextChar ++
      ((onRune U vim { d with expectNextChar := false } r (h' ++ s)).1 ++
      trace U vim (onRune U vim { d with expectNextChar := false } r (h' ++ s)).2.1
        (onRune U vim { d with expectNextChar := false } r (h' ++ s)).2.2) := by
  generalize hk : r :: l = k at hw
  induction hw with
  | nil => cases hk
  | @rune r' l' s' hs _ =>
    cases hk
    refine ⟨s', hs, fun d s => ?_⟩
    rw [List.cons_append, trace_rune, List.append_assoc]
  | @eintr r' l' s' hs ih =>
    obtain ⟨h', w', e⟩ := ih hk
    refine ⟨h', w', fun d s => ?_⟩
    rw [List.cons_append, trace_eintr, e]
    simp [w]

theorem esc_run (U : UTables) (n : Nat) : ∀ {l : List Rune} {h : List TIn},
    Spec.Weave (List.replicate n 27 ++ l) h → ∃ h', Spec.Weave l h' ∧ ∀ (b : Bool) (s : List TIn),
      trace U false (E b) (h ++ s) = w b ++ trace U false (E true) (h' ++ s) := by
  induction n with
  | zero => intro l h hw; exact ⟨h, hw, fun b s => trace_expect U false (E b) _⟩
  | succ n ih =>
    intro l h hw
    rw [List.replicate_succ, List.cons_append] at hw
    obtain ⟨h1, w1, e1⟩ := weave_rune U false hw
    obtain ⟨h2, w2, e2⟩ := ih w1
    refine ⟨h2, w2, fun b s => ?_⟩
    rw [e1]
    show w b ++ ([] ++ trace U false (E true) (h1 ++ s)) = _
    rw [e2]
    rfl

theorem esc_start (U : UTables) {n : Nat} {l : List Rune} {h : List TIn}
    (hw : Spec.Weave (List.replicate (n + 1) 27 ++ l) h) : ∃ h', Spec.Weave l h' ∧ ∀ (b : Bool) (s : List TIn),
      trace U false (N b) (h ++ s) = w b ++ trace U false (E true) (h' ++ s) := by
  rw [List.replicate_succ, List.cons_append] at hw
  obtain ⟨h1, w1, e1⟩ := weave_rune U false hw
  obtain ⟨h2, w2, e2⟩ := esc_run U n w1
  refine ⟨h2, w2, fun b s => ?_⟩
  rw [e1]
  show w b ++ ([] ++ trace U false (E true) (h1 ++ s)) = _
  rw [e2]
  rfl

theorem weave_nil {h : List TIn} (hw : Spec.Weave [] h) : h = [] := by cases hw; rfl

/-! ### The parameters -/

theorem isNumber_zero (U : UTables) : isNumber U 0 = false := rfl

theorem readEscKey_params (U : UTables) {f : Rune} (hf : ¬ Spec.Param U f) (s : List TIn) : ∀ (ps : List Rune),
    (∀ x ∈ ps, Spec.Param U x) → ∀ (r : Rune) (buf t : List Rune), r :: t = ps ++ [f] →
    readEscKey U r buf (t.map .rune ++ s) = (⟨buf ++ ps, f⟩, s) := by
  intro ps
  induction ps with
  | nil =>
    intro _ r buf t e
    cases e
    simp only [List.map_nil, List.nil_append, List.append_nil]
    have hf' : ¬ (f = 59 ∨ isNumber U f = true) := hf
    cases s with
    | nil => rw [readEscKey, if_neg hf']
    | cons x s => cases x <;> rw [readEscKey, if_neg hf']
  | cons p ps ih =>
    intro hp r buf t e
    rw [List.cons_append] at e
    cases e
    have h1 : p = 59 ∨ isNumber U p = true := hp p List.mem_cons_self
    cases ht : ps ++ [f] with
    | nil => simp at ht
    | cons q t =>
      rw [List.map_cons, List.cons_append, readEscKey, if_pos h1,
        ih (fun x hx => hp x (List.mem_cons_of_mem _ hx)) q (buf ++ [p]) t ht.symm]
      simp

theorem readEscKey_cut (U : UTables) : ∀ (ps : List Rune), (∀ x ∈ ps, Spec.Param U x) → ∀ (r : Rune) (buf : List Rune),
    Spec.Param U r → readEscKey U r buf (ps.map .rune) = (⟨buf ++ r :: ps, 0⟩, []) := by
  intro ps
  induction ps with
  | nil => intro _ r buf h; rw [List.map_nil, readEscKey, if_pos (show r = 59 ∨ isNumber U r = true from h)]
  | cons p ps ih =>
    intro hp r buf h
    rw [List.map_cons, readEscKey, if_pos (show r = 59 ∨ isNumber U r = true from h), ih (fun x hx => hp x (List.mem_cons_of_mem _ hx)) p _ (hp p List.mem_cons_self)]
    simp

/-! ### Chunks -/

/-- What a chunk does, waiting included. -/
def acts : Spec.Chunk → List TEv
  | .plain r => step r
  | .esc _ r => step (Spec.metaKey r)
  | .csi _ ps f =>
    if f = 82 then (if (EscKey.get2 ⟨ps, f⟩).isSome then [.size ps] else [])
    else (Spec.Chunk.keys (.csi 0 ps f)).flatMap step
  | .ss3 _ ps f => (Spec.Chunk.keys (.ss3 0 ps f)).flatMap step

theorem escapeKey_meta (r : Rune) : escapeKey r = Spec.metaKey r := by
  unfold escapeKey Spec.metaKey
  by_cases h1 : r = 98
  · rw [if_pos h1, if_pos h1]; rfl
  rw [if_neg h1, if_neg h1]
  by_cases h2 : r = 102
  · rw [if_pos h2, if_pos h2]; rfl
  rw [if_neg h2, if_neg h2]
  by_cases h3 : r = 100
  · rw [if_pos h3, if_pos h3]; rfl
  rw [if_neg h3, if_neg h3]
  by_cases h4 : r = 20
  · subst h4; rfl
  rw [if_neg (show ¬ r = CharTranspose from h4), if_neg h4]
  rfl

/-- The key of a sequence `ESC [`. -/
theorem escapeExKey_eq (ps : List Rune) (f : Rune) :
    Spec.Chunk.keys (.csi 0 ps f) = if escapeExKey ⟨ps, f⟩ = 0 then [] else [escapeExKey ⟨ps, f⟩] := by
  unfold Spec.Chunk.keys escapeExKey Spec.cursorKey
  by_cases h1 : f = 65
  · subst h1; rfl
  by_cases h2 : f = 66
  · subst h2; rfl
  by_cases h3 : f = 67
  · subst h3; rfl
  by_cases h4 : f = 68
  · subst h4; rfl
  by_cases h5 : f = 70
  · subst h5; rfl
  by_cases h6 : f = 72
  · subst h6; rfl
  simp only [h1, h2, h3, h4, h5, h6, if_false]
  by_cases h7 : f = 126
  · by_cases h8 : ps = [51]
    · subst h7 h8; rfl
    · simp [h7, h8]
  · simp [h7]

theorem escapeSS3Key_eq (ps : List Rune) (f : Rune) :
    Spec.Chunk.keys (.ss3 0 ps f) = if escapeSS3Key ⟨ps, f⟩ = 0 then [] else [escapeSS3Key ⟨ps, f⟩] := by
  unfold Spec.Chunk.keys escapeSS3Key Spec.cursorKey
  by_cases h1 : f = 65
  · subst h1; rfl
  by_cases h2 : f = 66
  · subst h2; rfl
  by_cases h3 : f = 67
  · subst h3; rfl
  by_cases h4 : f = 68
  · subst h4; rfl
  by_cases h5 : f = 70
  · subst h5; rfl
  by_cases h6 : f = 72
  · subst h6; rfl
  simp [h1, h2, h3, h4, h5, h6]

theorem escapeExKey_esc (k : EscKey) : escapeExKey k ≠ 27 := by
  unfold escapeExKey
  repeat' split
  all_goals decide

theorem escapeSS3Key_esc (k : EscKey) : escapeSS3Key k ≠ 27 := by
  unfold escapeSS3Key
  repeat' split
  all_goals decide

theorem metaKey_esc {r : Rune} (h : r ≠ 27) : Spec.metaKey r ≠ 27 := by
  unfold Spec.metaKey
  repeat' split
  all_goals first | exact h | decide

/-- Sending a key and going on. -/
theorem emit_trace (U : UTables) (vim : Bool) {r : Rune} (h : r ≠ 27 ∨ vim = true) (s : List TIn) :
    ((N false).emit vim r).1 ++ trace U vim ((N false).emit vim r).2 s = step r ++ trace U vim (N true) s := by
  rw [emit_key vim h]
  show [.key r] ++ trace U vim (N (!stopKey r)) s = _
  rw [trace_expect]
  rfl

/-- After `ESC [`: the rest of the sequence. -/
theorem csi_rest (U : UTables) {ps : List Rune} {f : Rune} (hp : ∀ x ∈ ps, Spec.Param U x) (hf : ¬ Spec.Param U f)
    {h : List TIn} (hw : Spec.Weave ((ps ++ [f]).take 1) h) (n : Nat) (s : List TIn) :
    trace U false (X true) (h ++ (((ps ++ [f]).drop 1).map .rune ++ s)) = acts (.csi n ps f) ++ trace U false (N true) s := by
  cases ht : ps ++ [f] with
  | nil => simp at ht
  | cons q t =>
    rw [ht] at hw
    obtain ⟨h', w', e⟩ := weave_rune U false hw
    cases weave_nil w'
    rw [e]
    have hk := readEscKey_params U hf s ps hp q [] t ht.symm
    simp only [List.nil_append] at hk ⊢
    have ho : onRune U false { X true with expectNextChar := false } q (t.map .rune ++ s) =
        (let (k, s) := readEscKey U q [] (t.map .rune ++ s)
         if k.typ = 82 then (if k.get2.isSome then [TEv.size k.attr] else [], N true, s)
         else if escapeExKey k = 0 then ([], N true, s)
         else (((N false).emit false (escapeExKey k)).1, ((N false).emit false (escapeExKey k)).2, s)) := rfl
    rw [List.drop_succ_cons, List.drop_zero, ho, hk]
    simp only
    simp only [acts]
    by_cases h82 : f = 82
    · simp only [h82, if_true]
      rfl
    · rw [if_neg h82, if_neg h82, escapeExKey_eq]
      by_cases hz : escapeExKey ⟨ps, f⟩ = 0
      · rw [if_pos hz, if_pos hz]; rfl
      · rw [if_neg hz, if_neg hz]
        show [] ++ (_ ++ _) = _
        rw [List.nil_append, emit_trace U false (.inl (escapeExKey_esc _))]
        simp

/-- After `ESC O`: the rest of the sequence. -/
theorem ss3_rest (U : UTables) {ps : List Rune} {f : Rune} (hp : ∀ x ∈ ps, Spec.Param U x) (hf : ¬ Spec.Param U f)
    {h : List TIn} (hw : Spec.Weave ((ps ++ [f]).take 1) h) (n : Nat) (s : List TIn) :
    trace U false (S true) (h ++ (((ps ++ [f]).drop 1).map .rune ++ s)) = acts (.ss3 n ps f) ++ trace U false (N true) s := by
  cases ht : ps ++ [f] with
  | nil => simp at ht
  | cons q t =>
    rw [ht] at hw
    obtain ⟨h', w', e⟩ := weave_rune U false hw
    cases weave_nil w'
    rw [e]
    have hk := readEscKey_params U hf s ps hp q [] t ht.symm
    simp only [List.nil_append] at hk ⊢
    have ho : onRune U false { S true with expectNextChar := false } q (t.map .rune ++ s) =
        (let (k, s) := readEscKey U q [] (t.map .rune ++ s)
         if escapeSS3Key k = 0 then ([], N true, s)
         else (((N false).emit false (escapeSS3Key k)).1, ((N false).emit false (escapeSS3Key k)).2, s)) := rfl
    rw [List.drop_succ_cons, List.drop_zero, ho, hk]
    simp only
    simp only [acts]
    rw [escapeSS3Key_eq]
    by_cases hz : escapeSS3Key ⟨ps, f⟩ = 0
    · rw [if_pos hz, if_pos hz]; rfl
    · rw [if_neg hz, if_neg hz]
      show [] ++ (_ ++ _) = _
      rw [List.nil_append, emit_trace U false (.inl (escapeSS3Key_esc _))]
      simp

/-- One chunk. -/
theorem chunk_trace (U : UTables) {c : Spec.Chunk} (ho : c.Ok U) {h : List TIn} (hw : Spec.Weave c.head h) (b : Bool)
    (s : List TIn) : trace U false (N b) (h ++ c.body.map .rune ++ s) = w b ++ (acts c ++ trace U false (N true) s) := by
  cases c with
  | plain r =>
    obtain ⟨h', w', e⟩ := weave_rune U false hw
    cases weave_nil w'
    simp only [Spec.Chunk.body, List.map_nil, List.append_nil]
    rw [e]
    show w b ++ (((N false).emit false r).1 ++ trace U false ((N false).emit false r).2 s) = _
    rw [emit_trace U false (.inl ho)]
    rfl
  | esc n r =>
    obtain ⟨h1, w1, e1⟩ := esc_start U hw
    obtain ⟨h2, w2, e2⟩ := weave_rune U false w1
    cases weave_nil w2
    simp only [Spec.Chunk.body, List.map_nil, List.append_nil]
    rw [e1, e2]
    have : onRune U false { E true with expectNextChar := false } r ([] ++ s) =
        (((N false).emit false (escapeKey r)).1, ((N false).emit false (escapeKey r)).2, s) := by
      show (if r = CharEscapeEx then _ else if r = CharO then _ else _) = _
      rw [if_neg (show ¬ r = CharEscapeEx from ho.2.1), if_neg (show ¬ r = CharO from ho.2.2)]
      rfl
    rw [this]
    simp only
    rw [emit_trace U false (.inl (by rw [escapeKey_meta]; exact metaKey_esc ho.1)), escapeKey_meta]
    rfl
  | csi n ps f =>
    have hw' : Spec.Weave (List.replicate (n + 1) 27 ++ 91 :: (ps ++ [f]).take 1) h := by
      have := hw; simp only [Spec.Chunk.head, List.append_assoc] at this; exact this
    obtain ⟨h1, w1, e1⟩ := esc_start U hw'
    obtain ⟨h2, w2, e2⟩ := weave_rune U false w1
    simp only [Spec.Chunk.body, List.append_assoc]
    rw [e1, e2]
    show w b ++ ([] ++ ([] ++ trace U false (X true) (h2 ++ (((ps ++ [f]).drop 1).map TIn.rune ++ s)))) = _
    rw [csi_rest U ho.1 ho.2 w2 n]
    rfl
  | ss3 n ps f =>
    have hw' : Spec.Weave (List.replicate (n + 1) 27 ++ 79 :: (ps ++ [f]).take 1) h := by
      have := hw; simp only [Spec.Chunk.head, List.append_assoc] at this; exact this
    obtain ⟨h1, w1, e1⟩ := esc_start U hw'
    obtain ⟨h2, w2, e2⟩ := weave_rune U false w1
    simp only [Spec.Chunk.body, List.append_assoc]
    rw [e1, e2]
    show w b ++ ([] ++ ([] ++ trace U false (S true) (h2 ++ (((ps ++ [f]).drop 1).map TIn.rune ++ s)))) = _
    rw [ss3_rest U ho.1 ho.2 w2 n]
    rfl

/-- A sequence of chunks. -/
theorem chunks_trace (U : UTables) {cs : List Spec.Chunk} (ho : ∀ c ∈ cs, c.Ok U) {s : List TIn} (hr : Spec.Reads cs s)
    (b : Bool) (t : List TIn) : trace U false (N b) (s ++ t) = w b ++ (cs.flatMap acts ++ trace U false (N true) t) := by
  induction hr generalizing b with
  | nil => exact trace_expect U false (N b) t
  | @cons c cs h s hw hs ih =>
    rw [List.append_assoc, chunk_trace U (ho c List.mem_cons_self) hw, ih (fun x hx => ho x (List.mem_cons_of_mem _ hx))]
    simp [w]

/-- A sequence that is cut off delivers nothing. -/
theorem cut_trace (U : UTables) {t : List TIn} (h : Spec.Cut U t) : trace U false (N true) t = [] := by
  have e0 : ∀ d : Dec, d.expectNextChar = true → trace U false d [] = [] := by
    intro d hd; rw [trace_nil, hd]; rfl
  cases h with
  | none => rfl
  | @esc n s hw =>
    rw [← List.append_nil (List.replicate (n + 1) _)] at hw
    obtain ⟨h1, w1, e1⟩ := esc_start U hw
    cases weave_nil w1
    have := e1 true []
    rw [List.append_nil] at this
    rw [this]; rfl
  | @intro n x s hx hw =>
    obtain ⟨h1, w1, e1⟩ := esc_start U hw
    obtain ⟨h2, w2, e2⟩ := weave_rune U false w1
    cases weave_nil w2
    have := e1 true []
    rw [e2, List.append_nil] at this
    rw [this]
    cases hx with
    | inl h => subst h; rfl
    | inr h => subst h; rfl
  | @params n x p ps s hx hp hps hw =>
    obtain ⟨h1, w1, e1⟩ := esc_start U hw
    obtain ⟨h2, w2, e2⟩ := weave_rune U false w1
    obtain ⟨h3, w3, e3⟩ := weave_rune U false w2
    cases weave_nil w3
    rw [e1, e2]
    have hk := readEscKey_cut U ps hps p [] hp
    cases hx with
    | inl h =>
      subst h
      show [] ++ ([] ++ ([] ++ trace U false (X true) (h2 ++ ps.map TIn.rune))) = _
      rw [e3]
      have ho : onRune U false { X true with expectNextChar := false } p ([] ++ ps.map .rune) = ([], N true, []) := by
        show (let (k, s) := readEscKey U p [] (ps.map .rune)
         if k.typ = 82 then (if k.get2.isSome then [TEv.size k.attr] else [], N true, s)
         else if escapeExKey k = 0 then ([], N true, s)
         else (((N false).emit false (escapeExKey k)).1, ((N false).emit false (escapeExKey k)).2, s)) = _
        rw [hk]; rfl
      rw [ho]; rfl
    | inr h =>
      subst h
      show [] ++ ([] ++ ([] ++ trace U false (S true) (h2 ++ ps.map TIn.rune))) = _
      rw [e3]
      have ho : onRune U false { S true with expectNextChar := false } p ([] ++ ps.map .rune) = ([], N true, []) := by
        show (let (k, s) := readEscKey U p [] (ps.map .rune)
         if escapeSS3Key k = 0 then ([], N true, s)
         else (((N false).emit false (escapeSS3Key k)).1, ((N false).emit false (escapeSS3Key k)).2, s)) = _
        rw [hk]; rfl
      rw [ho]; rfl

/-! ### Vim mode -/

theorem vim_trace (U : UTables) {l : List Rune} {s : List TIn} (hw : Spec.Weave l s) (b : Bool) :
    trace U true (N b) s = w b ++ l.flatMap step := by
  induction l generalizing s b with
  | nil => cases weave_nil hw; rw [trace_nil]; simp [N]
  | cons r l ih =>
    obtain ⟨h', w', e⟩ := weave_rune U true hw
    have e := e (N b) []
    rw [List.append_nil, List.append_nil] at e
    rw [e]
    show w b ++ (((N false).emit true r).1 ++ trace U true ((N false).emit true r).2 h') = _
    rw [emit_trace U true (.inr rfl), ih w']
    simp [w]

end Dec

/-! ### Position reports -/

theorem splitSemi_none : ∀ (l cur : List Rune), (∀ x ∈ l, x ≠ 59) → splitSemi cur l = [cur ++ l]
  | [], cur, _ => by simp [splitSemi]
  | r :: l, cur, h => by
    rw [splitSemi, if_neg (h r List.mem_cons_self), splitSemi_none l _ fun x hx => h x (List.mem_cons_of_mem _ hx)]
    simp

theorem splitSemi_some : ∀ (a cur rest : List Rune), (∀ x ∈ a, x ≠ 59) →
    splitSemi cur (a ++ 59 :: rest) = (cur ++ a) :: splitSemi [] rest
  | [], cur, rest, _ => by simp [splitSemi]
  | r :: a, cur, rest, h => by
    rw [List.cons_append, splitSemi, if_neg (h r List.mem_cons_self),
      splitSemi_some a _ rest fun x hx => h x (List.mem_cons_of_mem _ hx)]
    simp

theorem first_semi : ∀ l : List Rune, (∀ x ∈ l, x ≠ 59) ∨ ∃ a b, l = a ++ 59 :: b ∧ ∀ x ∈ a, x ≠ 59
  | [] => .inl (by simp)
  | r :: l => by
    by_cases h : r = 59
    · exact .inr ⟨[], l, by simp [h], by simp⟩
    · rcases first_semi l with h1 | ⟨a, b, e, ha⟩
      · exact .inl (by intro x hx; rcases List.mem_cons.mp hx with rfl | hx; exact h; exact h1 x hx)
      · refine .inr ⟨r :: a, b, by simp [e], ?_⟩
        intro x hx
        rcases List.mem_cons.mp hx with rfl | hx
        · exact h
        · exact ha x hx

theorem digitsVal_iff : ∀ (l : List Rune) (acc n : Nat), digitsVal acc l = some n ↔
    (∀ x ∈ l, 48 ≤ x ∧ x ≤ 57) ∧ n = l.foldl (fun n x => n * 10 + (x - 48).toNat) acc
  | [], acc, n => by simp [digitsVal, eq_comm]
  | r :: l, acc, n => by
    rw [digitsVal]
    by_cases h : 48 ≤ r ∧ r ≤ 57
    · rw [if_pos h, digitsVal_iff l]
      simp [h]
    · rw [if_neg h]
      simp only [List.forall_mem_cons, h, false_and, reduceCtorEq]

theorem atoi_iff (l : List Rune) : (atoi l).isSome = true ↔ l ≠ [] ∧ (∀ x ∈ l, 48 ≤ x ∧ x ≤ 57) ∧
    l.foldl (fun n x => n * 10 + (x - 48).toNat) 0 < 2 ^ 63 := by
  unfold atoi
  by_cases h : l = []
  · rw [if_pos h]; simp [h]
  · rw [if_neg h]
    cases e : digitsVal 0 l with
    | some n =>
      have ⟨h1, h2⟩ := (digitsVal_iff l 0 n).mp e
      dsimp only
      by_cases hn : n < 2 ^ 63
      · rw [if_pos hn]; simp only [Option.isSome_some, true_iff]; exact ⟨h, h1, h2 ▸ hn⟩
      · rw [if_neg hn]
        simp only [Option.isSome_none, Bool.false_eq_true, false_iff]
        rintro ⟨-, -, h3⟩
        exact hn (h2 ▸ h3)
    | none =>
      simp only [Option.isSome_none, Bool.false_eq_true, false_iff]
      rintro ⟨-, h2, -⟩
      rw [(digitsVal_iff l 0 _).mpr ⟨h2, rfl⟩] at e
      cases e

theorem get2_iff (ps : List Rune) (f : Rune) : (EscKey.get2 ⟨ps, f⟩).isSome = true ↔ Spec.Position ps := by
  have hsome : ∀ (a b : List Rune) (t : List (List Rune)), splitSemi [] ps = a :: b :: t →
      ((EscKey.get2 ⟨ps, f⟩).isSome = true ↔ (atoi a).isSome = true ∧ (atoi b).isSome = true) := by
    intro a b t h
    unfold EscKey.get2
    rw [h]
    dsimp only
    cases atoi a <;> cases atoi b <;> simp
  have hd : ∀ {l : List Rune}, (∀ x ∈ l, 48 ≤ x ∧ x ≤ 57) → ∀ x ∈ l, x ≠ 59 := by
    intro l h x hx; have := h x hx; omega
  constructor
  · intro h
    rcases first_semi ps with h1 | ⟨a, r, e, ha⟩
    · unfold EscKey.get2 at h
      rw [splitSemi_none ps [] h1] at h
      cases h
    · rcases first_semi r with h2 | ⟨b, c, e2, hb⟩
      · have hs := splitSemi_some a [] r ha
        rw [← e, splitSemi_none r [] h2] at hs
        have ⟨h3, h4⟩ := (hsome _ _ _ hs).mp h
        have ⟨a1, a2, a3⟩ := (atoi_iff _).mp h3
        have ⟨b1, b2, b3⟩ := (atoi_iff _).mp h4
        exact ⟨a, r, [], .inl e, a1, b1, a2, b2, a3, b3⟩
      · have hs := splitSemi_some a [] r ha
        rw [← e, e2, splitSemi_some b [] c hb] at hs
        have ⟨h3, h4⟩ := (hsome _ _ _ hs).mp h
        have ⟨a1, a2, a3⟩ := (atoi_iff _).mp h3
        have ⟨b1, b2, b3⟩ := (atoi_iff _).mp h4
        exact ⟨a, b, c, .inr (by rw [e, e2]; simp), a1, b1, a2, b2, a3, b3⟩
  · rintro ⟨a, b, c, h, a1, b1, a2, b2, a3, b3⟩
    have ha := (atoi_iff a).mpr ⟨a1, a2, a3⟩
    have hb := (atoi_iff b).mpr ⟨b1, b2, b3⟩
    rcases h with h | h
    · have hs : splitSemi [] ps = a :: b :: [] := by
        rw [h, splitSemi_some a [] b (hd a2), splitSemi_none b [] (hd b2)]; rfl
      exact (hsome _ _ _ hs).mpr ⟨ha, hb⟩
    · have hs : splitSemi [] ps = a :: b :: splitSemi [] c := by
        rw [h, List.append_assoc, List.cons_append, splitSemi_some a [] _ (hd a2), splitSemi_some b [] c (hd b2)]; rfl
      exact (hsome _ _ _ hs).mpr ⟨ha, hb⟩

/-! ### Keys, waits and reports of a sequence of chunks -/

/-- The position reports sent. -/
def sizesOf : List TEv → List (List Rune)
  | [] => []
  | .size a :: es => a :: sizesOf es
  | _ :: es => sizesOf es

theorem keysOf_append : ∀ a b : List TEv, keysOf (a ++ b) = keysOf a ++ keysOf b
  | [], _ => rfl
  | .key r :: a, b => by simp [keysOf, keysOf_append a b]
  | .wait :: a, b => by simp [keysOf, keysOf_append a b]
  | .size _ :: a, b => by simp [keysOf, keysOf_append a b]

theorem sizesOf_append : ∀ a b : List TEv, sizesOf (a ++ b) = sizesOf a ++ sizesOf b
  | [], _ => rfl
  | .key r :: a, b => by simp [sizesOf, sizesOf_append a b]
  | .wait :: a, b => by simp [sizesOf, sizesOf_append a b]
  | .size _ :: a, b => by simp [sizesOf, sizesOf_append a b]

/-- Step in the wording of the specification. -/
theorem step_eq (k : Rune) : Dec.step k = if k = 3 ∨ k = 13 ∨ k = 10 ∨ k = 4 then [.key k, .wait] else [.key k] := by
  unfold Dec.step Dec.w stopKey
  by_cases h : k = 3 ∨ k = 13 ∨ k = 10 ∨ k = 4
  · rw [if_pos h]
    rcases h with rfl | rfl | rfl | rfl <;> rfl
  · rw [if_neg h]
    simp only [not_or] at h
    have h1 : (k == CharInterrupt) = false := beq_eq_false_iff_ne.mpr h.1
    have h2 : (k == CharEnter) = false := beq_eq_false_iff_ne.mpr h.2.1
    have h3 : (k == CharCtrlJ) = false := beq_eq_false_iff_ne.mpr h.2.2.1
    have h4 : (k == CharDelete) = false := beq_eq_false_iff_ne.mpr h.2.2.2
    rw [h1, h2, h3, h4]; rfl

theorem acts_noSize (c : Spec.Chunk) : Spec.noSize (Dec.acts c) = c.keys.flatMap Dec.step := by
  have hst : ∀ k, Spec.noSize (Dec.step k) = Dec.step k := by
    intro k; rw [step_eq]; split <;> rfl
  have hfl : ∀ ks : List Rune, Spec.noSize (ks.flatMap Dec.step) = ks.flatMap Dec.step := by
    intro ks
    induction ks with
    | nil => rfl
    | cons k ks ih =>
      rw [List.flatMap_cons]
      show List.filter _ _ = _
      rw [List.filter_append]
      show Spec.noSize _ ++ Spec.noSize _ = _
      rw [hst, ih]
  cases c with
  | plain r => simpa [Dec.acts, Spec.Chunk.keys] using hst r
  | esc n r => simpa [Dec.acts, Spec.Chunk.keys] using hst (Spec.metaKey r)
  | csi n ps f =>
    simp only [Dec.acts]
    by_cases h : f = 82
    · subst h
      rw [if_pos rfl]
      show Spec.noSize _ = []
      split <;> rfl
    · rw [if_neg h, hfl]; rfl
  | ss3 n ps f => exact hfl _

theorem acts_sizes (c : Spec.Chunk) : sizesOf (Dec.acts c) = match c with
    | .csi _ ps f => if f = 82 ∧ (EscKey.get2 ⟨ps, f⟩).isSome then [ps] else []
    | _ => [] := by
  have hst : ∀ k, sizesOf (Dec.step k) = [] := by
    intro k; rw [step_eq]; split <;> rfl
  have hfl : ∀ ks : List Rune, sizesOf (ks.flatMap Dec.step) = [] := by
    intro ks
    induction ks with
    | nil => rfl
    | cons k ks ih => rw [List.flatMap_cons, sizesOf_append, hst, ih]; rfl
  cases c with
  | plain r => exact hst r
  | esc n r => exact hst _
  | csi n ps f =>
    simp only [Dec.acts]
    by_cases h : f = 82
    · rw [if_pos h]
      by_cases hg : (EscKey.get2 ⟨ps, f⟩).isSome = true
      · rw [if_pos hg, if_pos ⟨h, hg⟩]; rfl
      · rw [if_neg hg, if_neg (fun a => hg a.2)]; rfl
    · rw [if_neg h, hfl, if_neg (fun a => h a.1)]
  | ss3 n ps f => exact hfl _

theorem reports_sizes {cs : List Spec.Chunk} {rs : List (List Rune)} (h : Spec.Reports cs rs) :
    sizesOf (cs.flatMap Dec.acts) = rs := by
  induction h with
  | nil => rfl
  | @report n ps cs rs hp _ ih =>
    rw [List.flatMap_cons, sizesOf_append, ih, acts_sizes]
    simp only
    rw [if_pos ⟨trivial, (get2_iff ps 82).mpr hp⟩]; rfl
  | @other c cs rs hc _ ih =>
    rw [List.flatMap_cons, sizesOf_append, ih, acts_sizes]
    cases c with
    | csi n ps f =>
      simp only
      rw [if_neg]; · rfl
      rintro ⟨rfl, hg⟩
      exact hc n ps rfl ((get2_iff ps 82).mp hg)
    | _ => rfl

/-! ### Every input is a sequence of chunks and a rest that is cut off -/

theorem weave_map : ∀ l : List Rune, Spec.Weave l (l.map .rune)
  | [] => .nil
  | _ :: l => .rune (weave_map l)

theorem Spec.Chunk.runes_eq (c : Chunk) : c.runes = c.head ++ c.body := by
  cases c with
  | plain r => rfl
  | esc n r => simp [runes, head, body]
  | csi n ps f => simp only [runes, head, body, List.append_assoc]; rw [List.take_append_drop]
  | ss3 n ps f => simp only [runes, head, body, List.append_assoc]; rw [List.take_append_drop]

theorem reads_map (cs : List Spec.Chunk) : Spec.Reads cs ((cs.flatMap Spec.Chunk.runes).map .rune) := by
  induction cs with
  | nil => exact .nil
  | cons c cs ih =>
    rw [List.flatMap_cons, List.map_append, Spec.Chunk.runes_eq, List.map_append]
    exact .cons (weave_map _) ih

theorem span_params (U : UTables) : ∀ l : List Rune, (∀ x ∈ l, Spec.Param U x) ∨
    ∃ ps f r, l = ps ++ f :: r ∧ (∀ x ∈ ps, Spec.Param U x) ∧ ¬ Spec.Param U f
  | [] => .inl (by simp)
  | x :: l => by
    by_cases h : Spec.Param U x
    · rcases span_params U l with h1 | ⟨ps, f, r, e, hp, hf⟩
      · left; intro y hy; rcases List.mem_cons.mp hy with rfl | hy
        · exact h
        · exact h1 y hy
      · right
        refine ⟨x :: ps, f, r, by simp [e], ?_, hf⟩
        intro y hy; rcases List.mem_cons.mp hy with rfl | hy
        · exact h
        · exact hp y hy
    · exact .inr ⟨[], x, l, rfl, by simp, h⟩

theorem span_esc : ∀ l : List Rune, ∃ n r, l = List.replicate n 27 ++ r ∧ ∀ x t, r = x :: t → x ≠ 27
  | [] => ⟨0, [], rfl, by simp⟩
  | x :: l => by
    by_cases h : x = 27
    · obtain ⟨n, r, e, hr⟩ := span_esc l
      exact ⟨n + 1, r, by rw [List.replicate_succ, List.cons_append, ← e, h], hr⟩
    · exact ⟨0, x :: l, rfl, fun y t e => by cases e; exact h⟩

theorem chunk_split (U : UTables) (l : List Rune) : ∃ (cs : List Spec.Chunk) (t : List Rune), (∀ c ∈ cs, c.Ok U) ∧
    l = cs.flatMap Spec.Chunk.runes ++ t ∧ Spec.Cut U (t.map .rune) := by
  generalize hm : l.length = m
  induction m using Nat.strongRecOn generalizing l with
  | _ m ih =>
    subst hm
    have go : ∀ (c : Spec.Chunk) (r : List Rune), c.Ok U → l = c.runes ++ r → r.length < l.length →
        ∃ (cs : List Spec.Chunk) (t : List Rune), (∀ c ∈ cs, c.Ok U) ∧
          l = cs.flatMap Spec.Chunk.runes ++ t ∧ Spec.Cut U (t.map .rune) := by
      intro c r ho e hl
      obtain ⟨cs, t, h1, h2, h3⟩ := ih r.length hl r rfl
      refine ⟨c :: cs, t, ?_, ?_, h3⟩
      · intro x hx; rcases List.mem_cons.mp hx with rfl | hx
        · exact ho
        · exact h1 x hx
      · rw [List.flatMap_cons, List.append_assoc, ← h2, e]
    obtain ⟨n, r, e, hr⟩ := span_esc l
    cases n with
    | zero =>
      cases r with
      | nil => exact ⟨[], [], by simp, by rw [e]; rfl, .none⟩
      | cons x r =>
        exact go (.plain x) r (hr x r rfl) (by rw [e]; rfl) (by rw [e]; simp)
    | succ n =>
      cases r with
      | nil => exact ⟨[], l, by simp, by simp, by rw [e, List.append_nil]; exact .esc (weave_map _)⟩
      | cons x r =>
        have hx := hr x r rfl
        have hlen : ∀ r' : List Rune, r'.length ≤ r.length → r'.length < l.length := by
          intro r' h; rw [e]; simp; omega
        by_cases h91 : x = 91 ∨ x = 79
        · cases r with
          | nil => exact ⟨[], l, by simp, by simp, by rw [e]; exact .intro h91 (weave_map _)⟩
          | cons p r =>
            rcases span_params U (p :: r) with h1 | ⟨ps, f, r', e', hp, hf⟩
            · refine ⟨[], l, by simp, by simp, ?_⟩
              have : l = (List.replicate (n + 1) 27 ++ [x, p]) ++ r := by rw [e]; simp
              rw [this, List.map_append]
              exact .params h91 (h1 p List.mem_cons_self) (fun y hy => h1 y (List.mem_cons_of_mem _ hy)) (weave_map _)
            · have hl' : r'.length ≤ (p :: r).length := by rw [e']; simp; omega
              rcases h91 with rfl | rfl
              · exact go (.csi n ps f) r' ⟨hp, hf⟩ (by rw [e, e']; simp [Spec.Chunk.runes]) (hlen r' hl')
              · exact go (.ss3 n ps f) r' ⟨hp, hf⟩ (by rw [e, e']; simp [Spec.Chunk.runes]) (hlen r' hl')
        · simp only [not_or] at h91
          exact go (.esc n x) r ⟨hx, h91.1, h91.2⟩ (by rw [e]; simp [Spec.Chunk.runes]) (hlen r (Nat.le_refl _))

end RL
