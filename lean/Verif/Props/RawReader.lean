import Verif.Spec.Keyboard
import Verif.Props.Decode
/-! # C72: the keyboard of the Windows console -/

namespace RL.Win
open Spec RawReader

/-! ### What the reader sends -/

theorem reads_none {r r' : RawReader} {e : Ev} (h : r.event e = (r', none)) (es : List Ev) : r.reads (e :: es) = r'.reads es := by
  rw [reads, h]

theorem reads_some {r r' : RawReader} {e : Ev} {b : List Nat} (h : r.event e = (r', some b)) (es : List Ev) :
    r.reads (e :: es) = b :: r'.reads es := by
  rw [reads, h]

theorem noise_event {e : Ev} (h : Noise e) (r : RawReader) : r.event e = (r, none) := by
  cases h with
  | other h => simp [event, h]
  | up h1 h2 h3 =>
    simp only [List.mem_cons, List.not_mem_nil, or_false, not_or] at h3
    simp [event, h1, h2, VK_RCONTROL, VK_LCONTROL, VK_MENU, h3]
  | dead h1 h2 h3 h4 =>
    simp only [List.mem_cons, List.not_mem_nil, or_false, not_or] at h4
    simp [event, h1, h2, h3, VK_RCONTROL, VK_LCONTROL, VK_MENU, VK_LEFT, VK_RIGHT, VK_UP, VK_DOWN, h4]

/-- The events of characters, when each is sent as `f` and the held key changes nothing. -/
theorem reads_chars {hold : Option Nat} {cs : List Nat} {es : List Ev} (h : Chars hold cs es) (r : RawReader) (f : Nat → List Nat)
    (hh : ∀ vk n, hold = some vk → r.event { vk := vk, rep := n } = (r, none))
    (hf : ∀ c ∈ cs, ∀ vk, r.event { ch := c, vk := vk } = (r, some (f c))) (rest : List Ev) :
    (r.reads (es ++ rest)).flatten = cs.flatMap f ++ (r.reads rest).flatten := by
  induction h with
  | nil => rfl
  | noise hn _ ih => rw [List.cons_append, reads_none (noise_event hn r)]; exact ih hf
  | again hv _ ih => rw [List.cons_append, reads_none (hh _ _ hv)]; exact ih hf
  | char vk _ ih =>
    rw [List.cons_append, reads_some (hf _ (List.mem_cons_self ..) vk), List.flatten_cons,
      ih (fun c hc => hf c (List.mem_cons_of_mem _ hc)), List.flatMap_cons, List.append_assoc]

/-- The chunks of a press. -/
def chunks : Press → List Chunk
  | .text c => [.plain c]
  | .arrow vk => [.plain (arrowKey vk)]
  | .esc c => [.esc 0 c]
  | .alt cs => cs.map fun c => .esc 0 (altRune c)
  | .ctrl _ cs => cs.map fun c => .plain (ctrlChar c)

theorem encode_flatMap {α : Type} (f : α → List Rune) (l : List α) : l.flatMap (fun c => encode (f c)) = encode (l.flatMap f) := by
  induction l with
  | nil => rfl
  | cons a l ih => rw [List.flatMap_cons, List.flatMap_cons, encode_append, ih]

theorem event_char {c : Nat} (h : 0 < c) (vk : Nat) : (⟨false, false⟩ : RawReader).event { ch := c, vk := vk } = (⟨false, false⟩, some (encode [(c : Int)])) := by
  have : c ≠ 0 := by omega
  simp [event, this, put]

theorem encode27 (c : Rune) : encode [27, c] = 27 :: encode [c] := rfl

theorem event_alt {c : Nat} (h : 0 < c) (vk : Nat) : (⟨false, true⟩ : RawReader).event { ch := c, vk := vk } =
    (⟨false, true⟩, some (encode [27, altRune c])) := by
  have : c ≠ 0 := by omega
  have e : ((c : Int) = (VK_BACK : Int)) ↔ c = 8 := by simp only [VK_BACK]; omega
  simp only [event, this, putEsc, altRune, Bool.true_eq_false, if_false, if_true, Bool.false_eq_true]
  by_cases h8 : c = 8
  · rw [if_pos (e.2 h8), if_pos h8, encode27]
  · rw [if_neg (fun h => h8 (e.1 h)), if_neg h8, encode27]

theorem event_ctrl {c : Nat} (h : (0 < c ∧ c < 32 ∧ c ≠ 27) ∨ c ∈ [65, 69, 82, 83]) (vk : Nat) :
    (⟨true, false⟩ : RawReader).event { ch := c, vk := vk } = (⟨true, false⟩, some (encode [ctrlChar c])) := by
  simp only [List.mem_cons, List.not_mem_nil, or_false] at h
  rcases h with h | rfl | rfl | rfl | rfl
  · have h0 : c ≠ 0 := by omega
    simp only [event, h0, ctrlChar, Bool.true_eq_false, if_false, if_true, put]
    rw [if_neg (by omega), if_neg (by omega), if_neg (by omega), if_neg (by omega), if_neg (by omega)]
  · rfl
  · rfl
  · rfl
  · rfl

theorem event_arrow {vk : Nat} (h : 0x25 ≤ vk ∧ vk ≤ 0x28) : (⟨false, false⟩ : RawReader).event { vk := vk } =
    (⟨false, false⟩, some (encode [arrowKey vk])) := by
  have : vk = 0x25 ∨ vk = 0x26 ∨ vk = 0x27 ∨ vk = 0x28 := by omega
  rcases this with rfl | rfl | rfl | rfl <;> rfl

theorem reads_presses {ps : List Press} {es : List Ev} (h : Events ps es) (hok : ∀ p ∈ ps, p.Ok) :
    ((⟨false, false⟩ : RawReader).reads es).flatten = encode ((ps.flatMap chunks).flatMap Chunk.runes) := by
  induction h with
  | nil => rfl
  | noise hn _ ih => rw [reads_none (noise_event hn _)]; exact ih hok
  | @text c vk ps es _ ih =>
    have h1 : Char16 c := hok (.text c) (List.mem_cons_self ..)
    rw [reads_some (event_char h1.1 vk), List.flatten_cons, ih (fun p hp => hok p (List.mem_cons_of_mem _ hp)), ← encode_append]
    rfl
  | @arrow vk ps es _ ih =>
    have h1 : 0x25 ≤ vk ∧ vk ≤ 0x28 := hok (.arrow vk) (List.mem_cons_self ..)
    rw [reads_some (event_arrow h1), List.flatten_cons, ih (fun p hp => hok p (List.mem_cons_of_mem _ hp)), ← encode_append]
    rfl
  | @esc c vk ps es es' hc _ ih =>
    have h1 : Char16 c ∧ c ≠ 91 ∧ c ≠ 79 := hok (.esc c) (List.mem_cons_self ..)
    rw [List.cons_append, reads_some (event_char (c := 27) (by omega) vk), List.flatten_cons,
      reads_chars hc _ (fun c => encode [(c : Int)]) (by intro vk n h; cases h)
        (by intro x hx vk; rw [List.mem_singleton.mp hx]; exact event_char h1.1.1 vk),
      ih (fun p hp => hok p (List.mem_cons_of_mem _ hp)), encode_flatMap, ← encode_append, ← encode_append]
    rfl
  | @alt cs ps es es' hc _ ih =>
    have h1 : ∀ c ∈ cs, Char16 c ∧ c ≠ 91 ∧ c ≠ 79 := hok (.alt cs) (List.mem_cons_self ..)
    rw [List.cons_append, reads_none (r' := ⟨false, true⟩) rfl,
      reads_chars hc _ (fun c => encode [27, altRune c]) (by intro vk n h; cases h; rfl) (by intro x hx vk; exact event_alt (h1 x hx).1.1 vk),
      reads_none (r' := ⟨false, false⟩) rfl, ih (fun p hp => hok p (List.mem_cons_of_mem _ hp)), encode_flatMap, ← encode_append,
      List.flatMap_cons, List.flatMap_append, chunks, List.flatMap_map]
    rfl
  | @ctrl vk cs ps es es' hc _ ih =>
    have h1 : (vk = 0xA2 ∨ vk = 0xA3) ∧ ∀ c ∈ cs, (0 < c ∧ c < 32 ∧ c ≠ 27) ∨ c ∈ [65, 69, 82, 83] := hok (.ctrl vk cs) (List.mem_cons_self ..)
    have e1 : ∀ n, (⟨false, false⟩ : RawReader).event { vk := vk, rep := n } = (⟨true, false⟩, none) := by
      intro n; rcases h1.1 with rfl | rfl <;> rfl
    have e2 : ∀ n, (⟨true, false⟩ : RawReader).event { vk := vk, rep := n } = (⟨true, false⟩, none) := by
      intro n; rcases h1.1 with rfl | rfl <;> rfl
    have e3 : (⟨true, false⟩ : RawReader).event { vk := vk, down := false } = (⟨false, false⟩, none) := by
      rcases h1.1 with rfl | rfl <;> rfl
    rw [List.cons_append, reads_none (e1 1),
      reads_chars hc _ (fun c => encode [ctrlChar c]) (by intro vk n h; cases h; exact e2 n) (by intro x hx vk; exact event_ctrl (h1.2 x hx) vk),
      reads_none e3, ih (fun p hp => hok p (List.mem_cons_of_mem _ hp)), encode_flatMap, ← encode_append,
      List.flatMap_cons, List.flatMap_append, chunks, List.flatMap_map]
    rfl

theorem char16_scalar {c : Nat} (h : Char16 c) : Scalar (c : Int) := by
  obtain ⟨h1, h2, h3, h4⟩ := h
  unfold Scalar; omega

theorem altRune_cases (c : Nat) : altRune c = (c : Int) ∨ altRune c = 127 := by
  unfold altRune; split
  · exact .inr rfl
  · exact .inl rfl

theorem control_range {c : Nat} (h : (0 < c ∧ c < 32 ∧ c ≠ 27) ∨ c ∈ [65, 69, 82, 83]) : 0 < ctrlChar c ∧ ctrlChar c < 32 ∧ ctrlChar c ≠ 27 := by
  simp only [List.mem_cons, List.not_mem_nil, or_false] at h
  unfold ctrlChar
  split <;> omega

theorem arrowKey_range (vk : Nat) : 0 < arrowKey vk ∧ arrowKey vk < 27 := by
  unfold arrowKey; split
  · decide
  · split
    · decide
    · split <;> decide

theorem chunk_ok {U : UTables} {p : Press} (h : p.Ok) : ∀ c ∈ chunks p, c.Ok U ∧ ∀ r ∈ c.runes, Scalar r := by
  intro c hc
  cases p with
  | text x =>
    have hx : Char16 x := h
    obtain rfl := List.mem_singleton.mp hc
    refine ⟨by show (x : Int) ≠ 27; have := hx.2.1; omega, fun r hr => ?_⟩
    rw [List.mem_singleton.mp hr]; exact char16_scalar hx
  | arrow vk =>
    obtain rfl := List.mem_singleton.mp hc
    have := arrowKey_range vk
    refine ⟨by show arrowKey vk ≠ 27; omega, fun r hr => ?_⟩
    rw [List.mem_singleton.mp hr]; unfold Scalar; omega
  | esc x =>
    obtain ⟨hx, h1, h2⟩ : Char16 x ∧ x ≠ 91 ∧ x ≠ 79 := h
    obtain rfl := List.mem_singleton.mp hc
    refine ⟨?_, fun r hr => ?_⟩
    · show (x : Int) ≠ 27 ∧ (x : Int) ≠ 91 ∧ (x : Int) ≠ 79
      have := hx.2.1; omega
    · rcases List.mem_cons.mp (show r ∈ [27, (x : Int)] from hr) with rfl | hr
      · unfold Scalar; omega
      · rw [List.mem_singleton.mp hr]; exact char16_scalar hx
  | alt cs =>
    obtain ⟨x, hx, rfl⟩ := List.mem_map.mp hc
    obtain ⟨hx, h1, h2⟩ : Char16 x ∧ x ≠ 91 ∧ x ≠ 79 := h x hx
    refine ⟨?_, fun r hr => ?_⟩
    · show altRune x ≠ 27 ∧ altRune x ≠ 91 ∧ altRune x ≠ 79
      have := hx.2.1
      rcases altRune_cases x with e | e <;> rw [e] <;> omega
    · rcases List.mem_cons.mp (show r ∈ [27, altRune x] from hr) with rfl | hr
      · unfold Scalar; omega
      · rw [List.mem_singleton.mp hr]
        rcases altRune_cases x with e | e <;> rw [e]
        · exact char16_scalar hx
        · unfold Scalar; omega
  | ctrl vk cs =>
    obtain ⟨x, hx, rfl⟩ := List.mem_map.mp hc
    have := control_range (h.2 x hx)
    refine ⟨this.2.2, fun r hr => ?_⟩
    rw [List.mem_singleton.mp hr]; unfold Scalar; omega

theorem chunks_keys (p : Press) : (chunks p).flatMap Chunk.keys = p.keys ∧ (chunks p).flatMap Chunk.runes = p.vimKeys := by
  cases p with
  | text c => exact ⟨rfl, rfl⟩
  | arrow vk => exact ⟨rfl, rfl⟩
  | esc c => exact ⟨rfl, rfl⟩
  | alt cs =>
    refine ⟨?_, ?_⟩
    · rw [chunks, List.flatMap_map, Press.keys, List.map_eq_flatMap]; rfl
    · simp only [chunks, List.flatMap_map, Press.vimKeys]; rfl
  | ctrl vk cs =>
    refine ⟨?_, ?_⟩
    · rw [chunks, List.flatMap_map, Press.keys, List.map_eq_flatMap]; rfl
    · rw [chunks, List.flatMap_map, Press.vimKeys, List.map_eq_flatMap]; rfl

/-- **C72, the part that holds.**  Whatever is typed (characters of the Basic Multilingual Plane, arrows, Escape and Alt with a key, the left and right Ctrl
key with a ctrlChar character or one of four letters), with any other events in between: the terminal delivers exactly the keys
meant, in emacs and in vim mode.  Missing: `C72_false_*`. -/
theorem C72_keys_partial (U : UTables) {ps : List Press} {es : List Ev} (h : Events ps es) (hok : ∀ p ∈ ps, p.Ok) :
    termKeys U false (readBytes ((RawReader.reads {} es).flatten)) = ps.flatMap Press.keys ∧
    termKeys U true (readBytes ((RawReader.reads {} es).flatten)) = ps.flatMap Press.vimKeys := by
  have he : ((RawReader.reads {} es).flatten) = _ := reads_presses h hok
  have ho : ∀ c ∈ ps.flatMap chunks, c.Ok U ∧ ∀ r ∈ c.runes, Scalar r := by
    intro c hc
    obtain ⟨p, hp, hc⟩ := List.mem_flatMap.mp hc
    exact chunk_ok (hok p hp) c hc
  have hs : ∀ r ∈ (ps.flatMap chunks).flatMap Chunk.runes, Scalar r := by
    intro r hr
    obtain ⟨c, hc, hr⟩ := List.mem_flatMap.mp hr
    exact (ho c hc).2 r hr
  have hk : (ps.flatMap chunks).flatMap Chunk.keys = ps.flatMap Press.keys := by
    rw [List.flatMap_assoc]; exact congrArg (List.flatMap · ps) (funext fun p => (chunks_keys p).1)
  have hv : (ps.flatMap chunks).flatMap Chunk.runes = ps.flatMap Press.vimKeys := by
    rw [List.flatMap_assoc]; exact congrArg (List.flatMap · ps) (funext fun p => (chunks_keys p).2)
  rw [he]
  constructor
  · have := C38_bytes (U := U) (t := []) (fun c hc => (ho c hc).1) (by rwa [List.append_nil]) .none
    rw [List.append_nil] at this
    rw [this, hk]
  · unfold readBytes
    rw [(C60_roundtrip _).2 hs, hv]
    have weave : ∀ l : List Rune, Weave l (l.map .rune) := by
      intro l
      induction l with
      | nil => exact .nil
      | cons a l ih => exact .rune ih
    exact (C39_vim (weave _)).1

/-- The keys delivered in emacs mode for events. -/
def typed (es : List Ev) : List Rune := termKeys U0 false (readBytes ((RawReader.reads {} es).flatten))

/-- **C72 is false outside the Basic Multilingual Plane**: the two halves of U+1F600 arrive as two replacement characters. -/
theorem C72_false_surrogates : typed [{ ch := 0xD83D }, { ch := 0xDE00 }] = [0xFFFD, 0xFFFD] := by decide

/-- **C72 is false for held keys**: an event that stands for three presses is delivered once. -/
theorem C72_false_repeat : typed [{ ch := 97, vk := 65, rep := 3 }] = [97] := by decide

/-- **C72 is false for Home, End and Delete**: nothing is delivered. -/
theorem C72_false_keys : typed [{ vk := 0x24 }, { vk := 0x23 }, { vk := 0x2E }] = [] := by decide

/-- **C72 is false for AltGr**: where brackets are typed with AltGr (Ctrl and Alt in one), `[` begins a sequence, and it and the character after it are lost. -/
theorem C72_false_altgr : typed [{ vk := 0x11 }, { vk := 0x12 }, { ch := 91, vk := 56 }, { vk := 56, down := false }, { vk := 0x11, down := false },
    { vk := 0x12, down := false }, { ch := 120, vk := 88 }, { ch := 121, vk := 89 }] = [121] := by decide

/-- **C72 is false for Ctrl with another letter**: Ctrl-K delivers `K`, and Ctrl with a small `a` delivers `a`. -/
theorem C72_false_ctrl : typed [{ vk := 0xA2 }, { ch := 75, vk := 75 }, { ch := 97, vk := 65 }] = [75, 97] := by decide

/-- **C72 is false for Alt that is released elsewhere**: if the window loses the focus while Alt is down (Alt-Tab), everything typed afterwards is taken as
typed with Alt. -/
theorem C72_false_alt_tab : typed [{ vk := 0x12 }, { key := false }, { key := false }, { ch := 98, vk := 66 }, { ch := 100, vk := 68 }] = [-1, -3] := by
  decide

/-! ### A non-trivial case: `aé`, a mouse event, left arrow, Alt-b with Alt repeating, Alt-Backspace, Ctrl-A, Escape f -/

def sampleP : List Press := [.text 97, .text 0xE9, .arrow 0x25, .alt [98, 8], .ctrl 0xA2 [65], .esc 102]

def sampleE : List Ev := [{ ch := 97, vk := 65 }, { vk := 65, ch := 97, down := false }, { ch := 0xE9, vk := 50 }, { key := false }, { vk := 0x25 },
  { vk := 0x12 }, { ch := 98, vk := 66 }, { vk := 0x12, rep := 4 }, { ch := 8, vk := 8 }, { vk := 0x12, down := false },
  { vk := 0xA2 }, { ch := 65, vk := 65 }, { vk := 0xA2, down := false }, { ch := 27, vk := 27 }, { vk := 27, down := false }, { ch := 102, vk := 70 }]

example : Events sampleP sampleE := by
  refine .text 65 (.noise (.up rfl rfl (by decide)) (.text 50 (.noise (.other rfl) (.arrow ?_))))
  refine .alt (es := [{ ch := 98, vk := 66 }, { vk := 0x12, rep := 4 }, { ch := 8, vk := 8 }]) (.char 66 (.again rfl (.char 8 .nil))) ?_
  refine .ctrl (es := [{ ch := 65, vk := 65 }]) (.char 65 .nil) ?_
  exact .esc 27 (es := [{ vk := 27, down := false }, { ch := 102, vk := 70 }]) (es' := []) (.noise (.up rfl rfl (by decide)) (.char 70 .nil)) .nil

example : ∀ p ∈ sampleP, p.Ok := by
  simp only [sampleP, List.mem_cons, List.not_mem_nil, or_false, forall_eq_or_imp, forall_eq, Press.Ok, Char16]
  decide

example : typed sampleE = [97, 0xE9, 2, -1, -4, 1, -2] := by decide

end RL.Win
