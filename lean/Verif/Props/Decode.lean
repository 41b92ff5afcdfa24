import Verif.Proofs.Decode
import Verif.Proofs.Utf8
import Verif.Props.Utf8
import Verif.Spec.Session
/-!
# C38, C39: the key decoder

`termTrace U vim s` is what the terminal goroutine does with the input `s`, `termKeys` the keys it delivers.
-/

namespace RL

theorem termTrace_chunks {U : UTables} {cs : List Spec.Chunk} {s t : List TIn} (ho : ∀ c ∈ cs, c.Ok U)
    (hr : Spec.Reads cs s) (ht : Spec.Cut U t) : termTrace U false (s ++ t) = .wait :: cs.flatMap Dec.acts := by
  show Dec.trace U false (Dec.N false) (s ++ t) = _
  rw [Dec.chunks_trace U ho hr, Dec.cut_trace U ht, List.append_nil]
  rfl

theorem noSize_acts (cs : List Spec.Chunk) :
    Spec.noSize (cs.flatMap Dec.acts) = (cs.flatMap Spec.Chunk.keys).flatMap Dec.step := by
  induction cs with
  | nil => rfl
  | cons c cs ih =>
    rw [List.flatMap_cons, List.flatMap_cons, List.flatMap_append, ← ih, ← acts_noSize]
    exact List.filter_append ..

theorem delivered_eq (ks : List Rune) : Spec.delivered ks = .wait :: ks.flatMap Dec.step := by
  unfold Spec.delivered
  rw [show Dec.step = _ from funext step_eq]

theorem keysOf_noSize : ∀ es : List TEv, keysOf (Spec.noSize es) = keysOf es
  | [] => rfl
  | .key r :: es => congrArg (r :: ·) (keysOf_noSize es)
  | .wait :: es => keysOf_noSize es
  | .size _ :: es => keysOf_noSize es

theorem keysOf_steps : ∀ ks : List Rune, keysOf (ks.flatMap Dec.step) = ks
  | [] => rfl
  | k :: ks => by
    rw [List.flatMap_cons, keysOf_append, keysOf_steps ks, step_eq]
    split <;> rfl

/-- **C38 (emacs mode).**  The input is any sequence of chunks (text, `ESC x`, `ESC [ … f`, `ESC O … f`), read with any
number of interrupted system calls in between, followed by any sequence that the end of input cuts off.  The terminal
delivers exactly the keys of the chunks, in order, and waits to be kicked exactly at the start and after each Ctrl-C,
Enter, Ctrl-J, Ctrl-D. -/
theorem C38_decode {U : UTables} {cs : List Spec.Chunk} {s t : List TIn} (ho : ∀ c ∈ cs, c.Ok U) (hr : Spec.Reads cs s)
    (ht : Spec.Cut U t) : Spec.noSize (termTrace U false (s ++ t)) = Spec.delivered (cs.flatMap Spec.Chunk.keys) := by
  rw [termTrace_chunks ho hr ht, delivered_eq, ← noSize_acts]
  rfl

/-- **C38.**  The keys of `C38_decode` alone: decoding a chunk depends neither on what precedes nor on what follows. -/
theorem C38_keys {U : UTables} {cs : List Spec.Chunk} {s t : List TIn} (ho : ∀ c ∈ cs, c.Ok U) (hr : Spec.Reads cs s)
    (ht : Spec.Cut U t) : termKeys U false (s ++ t) = cs.flatMap Spec.Chunk.keys := by
  unfold termKeys
  rw [← keysOf_noSize, C38_decode ho hr ht, delivered_eq]
  exact keysOf_steps _

/-- **C38.**  `C38_decode` covers every input: any sequence of runes is a sequence of chunks and a rest cut off by the end
of input. -/
theorem C38_total (U : UTables) (l : List Rune) : ∃ (cs : List Spec.Chunk) (t : List Rune), (∀ c ∈ cs, c.Ok U) ∧
    l = cs.flatMap Spec.Chunk.runes ++ t ∧ Spec.Reads cs ((cs.flatMap Spec.Chunk.runes).map .rune) ∧
    Spec.Cut U (t.map .rune) := by
  obtain ⟨cs, t, h1, h2, h3⟩ := chunk_split U l
  exact ⟨cs, t, h1, h2, reads_map cs, h3⟩

/-- **C38.**  Position reports `ESC [ n ; m R` are handed over, in order, and nothing else is. -/
theorem C38_reports {U : UTables} {cs : List Spec.Chunk} {s t : List TIn} {rs : List (List Rune)} (ho : ∀ c ∈ cs, c.Ok U)
    (hr : Spec.Reads cs s) (ht : Spec.Cut U t) (hp : Spec.Reports cs rs) : sizesOf (termTrace U false (s ++ t)) = rs := by
  rw [termTrace_chunks ho hr ht]
  exact reports_sizes hp

/-- **C38.**  `Get2` reads the row and the column of a report in this order, whatever follows them. -/
theorem C38_row_column {a b c : List Rune} (f : Rune) (ha : a ≠ []) (hb : b ≠ []) (da : ∀ x ∈ a, 48 ≤ x ∧ x ≤ 57) (db : ∀ x ∈ b, 48 ≤ x ∧ x ≤ 57)
    (ra : a.foldl (fun n x => n * 10 + (x - 48).toNat) 0 < 2 ^ 63) (rb : b.foldl (fun n x => n * 10 + (x - 48).toNat) 0 < 2 ^ 63)
    (hc : c = [] ∨ c.head? = some 59) :
    EscKey.get2 ⟨a ++ 59 :: b ++ c, f⟩ =
      some (a.foldl (fun n x => n * 10 + (x - 48).toNat) 0, b.foldl (fun n x => n * 10 + (x - 48).toNat) 0) := by
  have at2 : ∀ {l : List Rune}, l ≠ [] → (∀ x ∈ l, 48 ≤ x ∧ x ≤ 57) → l.foldl (fun n x => n * 10 + (x - 48).toNat) 0 < 2 ^ 63 →
      atoi l = some (l.foldl (fun n x => n * 10 + (x - 48).toNat) 0) := by
    intro l h1 h2 h3
    unfold atoi
    rw [if_neg h1, (digitsVal_iff l 0 _).mpr ⟨h2, rfl⟩]
    exact if_pos h3
  have hd : ∀ {l : List Rune}, (∀ x ∈ l, 48 ≤ x ∧ x ≤ 57) → ∀ x ∈ l, x ≠ 59 := by
    intro l h x hx; have := h x hx; omega
  have hs : ∃ t, splitSemi [] (a ++ 59 :: b ++ c) = a :: b :: t := by
    rw [List.append_assoc, List.cons_append, splitSemi_some a [] _ (hd da)]
    rcases hc with rfl | hc
    · exact ⟨[], by rw [List.append_nil, splitSemi_none b [] (hd db)]; rfl⟩
    · cases c with
      | nil => cases hc
      | cons x c =>
        cases hc
        exact ⟨splitSemi [] c, by rw [splitSemi_some b [] c (hd db)]; rfl⟩
  obtain ⟨t, hs⟩ := hs
  unfold EscKey.get2
  rw [hs]
  simp only [at2 ha da ra, at2 hb db rb]

/-- The report `ESC [ 12 ; 5 R`. -/
example : EscKey.get2 ⟨[49, 50, 59, 53], 82⟩ = some (12, 5) :=
  C38_row_column (a := [49, 50]) (b := [53]) (c := []) 82 (by decide) (by decide) (by decide) (by decide) (by decide) (by decide) (.inl rfl)

/-- A sequence and the control character documented for the same key (/repo/doc/shortcut.md): the arrows, Home and End as
`ESC [` or `ESC O` with any numeric parameters, Delete as `ESC [ 3 ~`. -/
inductive SameKey : Spec.Chunk → Rune → Prop
  | csi (n : Nat) (ps : List Rune) {f k : Rune} : (f, k) ∈ [(65, CharPrev), (66, CharNext), (67, CharForward),
      (68, CharBackward), (72, CharLineStart), (70, CharLineEnd)] → SameKey (.csi n ps f) k
  | ss3 (n : Nat) (ps : List Rune) {f k : Rune} : (f, k) ∈ [(65, CharPrev), (66, CharNext), (67, CharForward),
      (68, CharBackward), (72, CharLineStart), (70, CharLineEnd)] → SameKey (.ss3 n ps f) k
  | delete (n : Nat) : SameKey (.csi n [51] 126) CharDelete

/-- **C38.**  In any surroundings, the sequence of a cursor key produces the same keys and the same waits as the documented
control character. -/
theorem C38_same_partial {U : UTables} {as bs : List Spec.Chunk} {c : Spec.Chunk} {k : Rune} (hk : SameKey c k)
    {s s' t t' : List TIn} (ho : ∀ x ∈ as ++ c :: bs, x.Ok U) (hr : Spec.Reads (as ++ c :: bs) s)
    (hr' : Spec.Reads (as ++ .plain k :: bs) s') (ht : Spec.Cut U t) (ht' : Spec.Cut U t') :
    Spec.noSize (termTrace U false (s ++ t)) = Spec.noSize (termTrace U false (s' ++ t')) := by
  have hc : c.keys = [k] ∧ k ≠ 27 := by
    cases hk with
    | csi n ps h =>
      simp only [List.mem_cons, Prod.mk.injEq, List.not_mem_nil, or_false] at h
      rcases h with ⟨rfl, rfl⟩ | ⟨rfl, rfl⟩ | ⟨rfl, rfl⟩ | ⟨rfl, rfl⟩ | ⟨rfl, rfl⟩ | ⟨rfl, rfl⟩ <;> exact ⟨rfl, by decide⟩
    | ss3 n ps h =>
      simp only [List.mem_cons, Prod.mk.injEq, List.not_mem_nil, or_false] at h
      rcases h with ⟨rfl, rfl⟩ | ⟨rfl, rfl⟩ | ⟨rfl, rfl⟩ | ⟨rfl, rfl⟩ | ⟨rfl, rfl⟩ | ⟨rfl, rfl⟩ <;> exact ⟨rfl, by decide⟩
    | delete n => exact ⟨rfl, by decide⟩
  have ho' : ∀ x ∈ as ++ .plain k :: bs, x.Ok U := by
    intro x hx
    rcases List.mem_append.mp hx with h | h
    · exact ho x (List.mem_append.mpr (.inl h))
    · rcases List.mem_cons.mp h with rfl | h
      · exact hc.2
      · exact ho x (List.mem_append.mpr (.inr (List.mem_cons_of_mem _ h)))
  rw [C38_decode ho hr ht, C38_decode ho' hr' ht']
  simp only [List.flatMap_append, List.flatMap_cons, hc.1]
  rfl

/-- **C38.**  Escape followed by `b`, `f`, `d` or Backspace delivers the Meta keys. -/
theorem C38_meta {U : UTables} {as bs : List Spec.Chunk} {n : Nat} {x : Rune} {s t : List TIn}
    (hx : x ∈ [98, 102, 100, CharBackspace]) (ho : ∀ c ∈ as ++ .esc n x :: bs, c.Ok U)
    (hr : Spec.Reads (as ++ .esc n x :: bs) s) (ht : Spec.Cut U t) : ∃ k, (x, k) ∈ [((98 : Rune), MetaBackward),
      (102, MetaForward), (100, MetaDelete), (CharBackspace, MetaBackspace)] ∧
      termKeys U false (s ++ t) = as.flatMap Spec.Chunk.keys ++ k :: bs.flatMap Spec.Chunk.keys := by
  rw [C38_keys ho hr ht]
  simp only [List.flatMap_append, List.flatMap_cons]
  simp only [List.mem_cons, List.not_mem_nil, or_false] at hx
  rcases hx with rfl | rfl | rfl | rfl
  · exact ⟨MetaBackward, by simp, rfl⟩
  · exact ⟨MetaForward, by simp, rfl⟩
  · exact ⟨MetaDelete, by simp, rfl⟩
  · exact ⟨MetaBackspace, by simp, rfl⟩

/-- **C38.**  The same on bytes: the UTF-8 encoding of any Unicode text is decoded to the keys of its chunks. -/
theorem C38_bytes {U : UTables} {cs : List Spec.Chunk} {t : List Rune} (ho : ∀ c ∈ cs, c.Ok U)
    (hv : ∀ r ∈ cs.flatMap Spec.Chunk.runes ++ t, Spec.Scalar r) (ht : Spec.Cut U (t.map .rune)) :
    termKeys U false (readBytes (encode (cs.flatMap Spec.Chunk.runes ++ t))) = cs.flatMap Spec.Chunk.keys := by
  unfold readBytes
  rw [(C60_roundtrip _).2 hv, List.map_append]
  exact C38_keys ho (reads_map cs) ht

/-- Non-trivial case of `C38_keys`: "a", an interrupted read, Ctrl-Left as `ESC [ 1 ; 5 D`, "b", Enter, and a sequence the
end of input cuts off. -/
example : Spec.Reads [.plain 97, .csi 0 [49, 59, 53] 68, .plain 98, .plain 13]
      [.rune 97, .eintr, .rune 27, .rune 91, .eintr, .rune 49, .rune 59, .rune 53, .rune 68, .rune 98, .rune 13] ∧
    (∀ c ∈ [Spec.Chunk.plain 97, .csi 0 [49, 59, 53] 68, .plain 98, .plain 13], c.Ok U0) ∧
    Spec.Cut U0 [.rune 27, .rune 91, .rune 49] := by
  refine ⟨?_, ?_, ?_⟩
  · exact .cons (c := .plain 97) (.rune .nil) (.cons (c := .csi 0 [49, 59, 53] 68)
      (.eintr (.rune (.rune (.eintr (.rune .nil))))) (.cons (c := .plain 98) (.rune .nil)
      (.cons (c := .plain 13) (.rune .nil) .nil)))
  · simp only [List.mem_cons, List.not_mem_nil, or_false, forall_eq_or_imp, forall_eq, Spec.Chunk.Ok, Spec.Param]
    decide
  · exact .params (n := 0) (x := 91) (p := 49) (ps := []) (.inl rfl) (.inr rfl) (by simp) (.rune (.rune (.rune .nil)))

example : termTrace U0 false [.rune 97, .eintr, .rune 27, .rune 91, .eintr, .rune 49, .rune 59, .rune 53, .rune 68, .rune 98,
    .rune 13, .rune 27, .rune 91, .rune 49] = [.wait, .key 97, .key 2, .key 98, .key 13, .wait] := by decide

/-- A position report between two runes. -/
example : termTrace U0 false (([97, 27, 91, 49, 50, 59, 51, 82, 98] : List Rune).map .rune) =
    [.wait, .key 97, .size [49, 50, 59, 51], .key 98] := by decide

/-- Bytes to line: `a`, `b`, left arrow, `é`, Enter read from a terminal give the line "aéb". -/
example : firstResult c0 (o0 (termKeys U0 false (readBytes [97, 98, 27, 91, 68, 0xC3, 0xA9, 13]))) =
    .ok (.line [97, 0xE9, 98]) := by decide

/-- **C38 is false in vim mode**: no sequence is decoded, the up arrow arrives as Escape, `[` and `A`. -/
theorem C38_false_vim : termKeys U0 true ([.rune 27, .rune 91, .rune 65]) = [27, 91, 65] ∧
    termKeys U0 false ([.rune 27, .rune 91, .rune 65]) = [CharPrev] := by decide

/-- **C38 is false for Delete with a modifier**: `ESC [ 3 ; 5 ~` (Ctrl-Delete) delivers nothing, other keys do ignore their
parameters. -/
theorem C38_false_delete : termKeys U0 false (([27, 91, 51, 59, 53, 126] : List Rune).map .rune) = [] ∧
    termKeys U0 false (([27, 91, 49, 59, 53, 67] : List Rune).map .rune) = [CharForward] := by decide

/-! ### C39 -/

/-- **C39 (emacs mode).**  Text without Escape is delivered rune by rune, in order, nothing added or dropped. -/
theorem C39_text {U : UTables} {l : List Rune} (h : ∀ r ∈ l, r ≠ 27) {s : List TIn} (hw : Spec.Weave l s) :
    termKeys U false s = l ∧ termTrace U false s = Spec.delivered l := by
  have hr : ∀ {l : List Rune} {s : List TIn}, Spec.Weave l s → Spec.Reads (l.map Spec.Chunk.plain) s := by
    intro l
    induction l with
    | nil => intro s hw; cases hw; exact .nil
    | cons r l ih =>
      intro s hw
      generalize hk : r :: l = k at hw
      have : ∃ h' s', s = h' ++ s' ∧ Spec.Weave [r] h' ∧ Spec.Weave l s' := by
        induction hw with
        | nil => cases hk
        | @rune r' l' s' hs _ => cases hk; exact ⟨[.rune r], s', rfl, .rune .nil, hs⟩
        | @eintr r' l' s' hs ih =>
          obtain ⟨h', s'', e, h1, h2⟩ := ih hk
          exact ⟨.eintr :: h', s'', by rw [e]; rfl, .eintr h1, h2⟩
      obtain ⟨h', s', rfl, h1, h2⟩ := this
      have := Spec.Reads.cons (c := .plain r) h1 (ih h2)
      subst hk
      simpa [Spec.Chunk.body] using this
  have ho : ∀ c ∈ l.map Spec.Chunk.plain, c.Ok U := by
    intro c hc
    obtain ⟨r, hr, rfl⟩ := List.mem_map.mp hc
    exact h r hr
  have ht := termTrace_chunks ho (hr hw) .none
  rw [List.append_nil] at ht
  have ha : (l.map Spec.Chunk.plain).flatMap Dec.acts = l.flatMap Dec.step := by
    rw [List.flatMap_map]; rfl
  rw [ha] at ht
  refine ⟨?_, by rw [ht, delivered_eq]⟩
  unfold termKeys
  rw [ht]
  exact keysOf_steps l

/-- **C39 (vim mode).**  Everything is delivered rune by rune, Escape included. -/
theorem C39_vim {U : UTables} {l : List Rune} {s : List TIn} (hw : Spec.Weave l s) :
    termKeys U true s = l ∧ termTrace U true s = Spec.delivered l := by
  have ht : termTrace U true s = .wait :: l.flatMap Dec.step := Dec.vim_trace U hw false
  refine ⟨?_, by rw [ht, delivered_eq]⟩
  unfold termKeys
  rw [ht]
  exact keysOf_steps l

/-- **C39.**  In any surroundings, a sequence `ESC [ parameters final` that is none of the known ones is swallowed completely:
the keys are those of the input without it.  The parameters are numbers and semicolons; the statement is false for
sequences with other parameter bytes (`C39_false`). -/
theorem C39_swallow_partial {U : UTables} {as bs : List Spec.Chunk} {n : Nat} {ps : List Rune} {f : Rune}
    (hf : f ∉ [65, 66, 67, 68, 70, 72]) (hd : f = 126 → ps ≠ [51]) {s s' t t' : List TIn}
    (ho : ∀ c ∈ as ++ .csi n ps f :: bs, c.Ok U) (hr : Spec.Reads (as ++ .csi n ps f :: bs) s)
    (hr' : Spec.Reads (as ++ bs) s') (ht : Spec.Cut U t) (ht' : Spec.Cut U t') :
    Spec.noSize (termTrace U false (s ++ t)) = Spec.noSize (termTrace U false (s' ++ t')) := by
  have ho' : ∀ x ∈ as ++ bs, x.Ok U := by
    intro x hx
    rcases List.mem_append.mp hx with h | h
    · exact ho x (List.mem_append.mpr (.inl h))
    · exact ho x (List.mem_append.mpr (.inr (List.mem_cons_of_mem _ h)))
  rw [C38_decode ho hr ht, C38_decode ho' hr' ht']
  have hk : Spec.Chunk.keys (.csi n ps f) = [] := by
    simp only [List.mem_cons, List.not_mem_nil, or_false, not_or] at hf
    obtain ⟨h1, h2, h3, h4, h5, h6⟩ := hf
    unfold Spec.Chunk.keys Spec.cursorKey
    simp only [h1, h2, h3, h4, h5, h6, if_false]
    rw [if_neg (fun a => hd a.1 a.2)]
  simp only [List.flatMap_append, List.flatMap_cons, hk, List.nil_append]

/-- **C39 is false** for sequences with a private marker: of `ESC [ ? 2 5 h` only the first three runes are swallowed, and
"25h" is delivered as if it had been typed. -/
theorem C39_false : termKeys U0 false (([97, 27, 91, 63, 50, 53, 104] : List Rune).map .rune) = [97, 50, 53, 104] ∧
    firstResult c0 (o0 (termKeys U0 false (([97, 27, 91, 63, 50, 53, 104, 13] : List Rune).map .rune))) =
      .ok (.line [97, 50, 53, 104]) := by decide

end RL
