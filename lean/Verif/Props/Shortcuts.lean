import Verif.Spec.Shortcuts
import Verif.Props.Study
import Verif.Props.Restart
import Verif.Props.Small
/-! # C90: the keys of doc/shortcut.md do what is documented, from the bytes sent to the lines returned -/

namespace RL
open Spec RB Ed Hist

namespace Spec

/-- The key the decoder delivers. -/
def Combo.key : Combo → Rune
  | .text r => r
  | .ctrl c => (c.toNat : Int) - 64
  | .alt c => metaKey c.toNat
  | .up => 16
  | .down => 14
  | .right => 6
  | .left => 2
  | .tab => 9
  | .enter => 13
  | .backspace => 127
  | .altBackspace => -4

def Combo.chunk (app : Bool) : Combo → Chunk
  | .text r => .plain r
  | .ctrl c => .plain ((c.toNat : Int) - 64)
  | .alt c => .esc 0 c.toNat
  | .up => if app then .ss3 0 [] 65 else .csi 0 [] 65
  | .down => if app then .ss3 0 [] 66 else .csi 0 [] 66
  | .right => if app then .ss3 0 [] 67 else .csi 0 [] 67
  | .left => if app then .ss3 0 [] 68 else .csi 0 [] 68
  | .tab => .plain 9
  | .enter => .plain 13
  | .backspace => .plain 127
  | .altBackspace => .esc 0 127

theorem Combo.chunk_runes (app : Bool) (k : Combo) : (k.chunk app).runes = k.sent app := by
  cases k <;> cases app <;> rfl

theorem Combo.chunk_keys (app : Bool) (k : Combo) : (k.chunk app).keys = [k.key] := by
  cases k <;> cases app <;> rfl

/-- A key that can be told apart from the beginning of a sequence. -/
def Combo.Fine : Combo → Prop
  | .text r => r ≠ 27 ∧ Scalar r
  | .ctrl c => c ∈ ['A', 'B', 'C', 'D', 'E', 'F', 'G', 'H', 'I', 'J', 'K', 'M', 'N', 'P', 'R', 'S', 'T', 'U', 'W']
  | .alt c => c ∈ ['b', 'd', 'f']
  | _ => True

theorem Combo.chunk_ok {U : UTables} (app : Bool) {k : Combo} (h : k.Fine) : (k.chunk app).Ok U := by
  have np : ∀ f : Rune, 65 ≤ f → f ≤ 68 → ¬ Param U f := by
    intro f h1 h2 a
    rw [C38_params U (by omega) (by omega)] at a
    simp only [List.mem_cons, List.not_mem_nil, or_false] at a
    omega
  cases k with
  | text r => exact h.1
  | ctrl c =>
    simp only [Fine, List.mem_cons, List.not_mem_nil, or_false] at h
    show ((c.toNat : Int) - 64) ≠ 27
    rcases h with rfl | rfl | rfl | rfl | rfl | rfl | rfl | rfl | rfl | rfl | rfl | rfl | rfl | rfl | rfl | rfl | rfl | rfl | rfl <;> decide
  | alt c =>
    simp only [Fine, List.mem_cons, List.not_mem_nil, or_false] at h
    rcases h with rfl | rfl | rfl <;> exact ⟨by decide, by decide, by decide⟩
  | up => cases app <;> exact ⟨by simp, np _ (by decide) (by decide)⟩
  | down => cases app <;> exact ⟨by simp, np _ (by decide) (by decide)⟩
  | right => cases app <;> exact ⟨by simp, np _ (by decide) (by decide)⟩
  | left => cases app <;> exact ⟨by simp, np _ (by decide) (by decide)⟩
  | tab => show (9 : Rune) ≠ 27; decide
  | enter => show (13 : Rune) ≠ 27; decide
  | backspace => show (127 : Rune) ≠ 27; decide
  | altBackspace => exact ⟨by decide, by decide, by decide⟩

theorem Combo.sent_scalar {app : Bool} {k : Combo} (h : k.Fine) : ∀ r ∈ k.sent app, Scalar r := by
  have sc : ∀ r : Rune, 0 ≤ r → r < 256 → Scalar r := fun r h1 h2 => ⟨h1, by omega, by omega⟩
  have seq : ∀ f : Rune, 0 ≤ f → f < 256 → ∀ r ∈ [27, if app then 79 else 91, f], Scalar r := by
    intro f h1 h2 r hr
    simp only [List.mem_cons, List.not_mem_nil, or_false] at hr
    rcases hr with rfl | rfl | rfl
    · exact sc _ (by decide) (by decide)
    · cases app <;> exact sc _ (by decide) (by decide)
    · exact sc _ h1 h2
  have one : ∀ f : Rune, 0 ≤ f → f < 256 → ∀ r ∈ [f], Scalar r := by
    intro f h1 h2 r hr
    rw [List.mem_singleton.1 hr]
    exact sc _ h1 h2
  cases k with
  | text r => intro x hx; rw [List.mem_singleton.1 hx]; exact h.2
  | ctrl c =>
    simp only [Fine, List.mem_cons, List.not_mem_nil, or_false] at h
    refine one _ ?_ ?_ <;>
      rcases h with rfl | rfl | rfl | rfl | rfl | rfl | rfl | rfl | rfl | rfl | rfl | rfl | rfl | rfl | rfl | rfl | rfl | rfl | rfl <;> decide
  | alt c =>
    simp only [Fine, List.mem_cons, List.not_mem_nil, or_false] at h
    intro x hx
    simp only [sent, List.mem_cons, List.not_mem_nil, or_false] at hx
    rcases hx with rfl | rfl
    · exact sc _ (by decide) (by decide)
    · rcases h with rfl | rfl | rfl <;> exact sc _ (by decide) (by decide)
  | up => exact seq _ (by decide) (by decide)
  | down => exact seq _ (by decide) (by decide)
  | right => exact seq _ (by decide) (by decide)
  | left => exact seq _ (by decide) (by decide)
  | tab => exact one _ (by decide) (by decide)
  | enter => exact one _ (by decide) (by decide)
  | backspace => exact one _ (by decide) (by decide)
  | altBackspace =>
    intro x hx
    simp only [sent, List.mem_cons, List.not_mem_nil, or_false] at hx
    rcases hx with rfl | rfl <;> exact sc _ (by decide) (by decide)

/-- Keys with the mode of the keypad in which they are pressed: what the terminal sends. -/
def sentAll (ks : List (Combo × Bool)) : List Rune := ks.flatMap fun k => k.1.sent k.2

/-- **C90.**  The bytes of documented keys are decoded to these keys. -/
theorem C90_decoded {U : UTables} {ks : List (Combo × Bool)} (h : ∀ k ∈ ks, k.1.Fine) :
    termKeys U false (readBytes (encode (sentAll ks))) = ks.map fun k => k.1.key := by
  have e1 : sentAll ks = (ks.map fun k => k.1.chunk k.2).flatMap Chunk.runes := by
    unfold sentAll
    rw [List.flatMap_map]
    congr 1
    funext k
    exact (Combo.chunk_runes _ _).symm
  have e2 : (ks.map fun k => k.1.chunk k.2).flatMap Chunk.keys = ks.map fun k => k.1.key := by
    rw [List.flatMap_map]
    simp only [Combo.chunk_keys]
    exact List.map_eq_flatMap.symm
  have h1 : ∀ c ∈ ks.map fun k => k.1.chunk k.2, Chunk.Ok U c := by
    intro c hc
    obtain ⟨k, h2, rfl⟩ := List.mem_map.1 hc
    exact Combo.chunk_ok _ (h k h2)
  have h2 : ∀ r ∈ (ks.map fun k => k.1.chunk k.2).flatMap Chunk.runes ++ [], Scalar r := by
    rw [List.append_nil, ← e1]
    intro r hr
    obtain ⟨k, h2, h3⟩ := List.mem_flatMap.1 hr
    exact Combo.sent_scalar (h k h2) r h3
  have := C38_bytes (U := U) (t := []) h1 h2 .none
  rw [List.append_nil, ← e1, e2] at this
  exact this

/-! ### The tables -/

theorem DocEdit.edits {k : Combo} {z z' : Line} (h : DocEdit k z z') : Edits k.key z z' := by
  cases h with
  | @text r _ h1 h2 =>
    refine .inl ?_
    show editKey r z = _
    unfold editKey
    rw [if_neg (by omega), if_neg (by omega), if_neg (by omega), if_neg (by omega), if_neg (by omega), if_neg (by omega), if_neg (by omega), if_neg (by omega),
      if_neg (by omega), if_pos h1]
  | ctrlA => exact .inl rfl
  | ctrlB h => rcases h with rfl | rfl <;> exact .inl rfl
  | altB h1 h2 => exact .inr (.inl ⟨rfl, _, h1, h2⟩)
  | ctrlD h =>
    refine .inl ?_
    show (if z.text = [] then none else some z.delete) = _
    rw [if_neg h]
  | altD h => exact .inr (.inr (.inr (.inr (.inl ⟨rfl, h⟩))))
  | ctrlE => exact .inl rfl
  | ctrlF h => rcases h with rfl | rfl <;> exact .inl rfl
  | altF h1 h2 => exact .inr (.inr (.inl ⟨rfl, _, h1, h2⟩))
  | ctrlH h => rcases h with rfl | rfl <;> exact .inl rfl
  | ctrlK => exact .inl rfl
  | ctrlT h => exact .inr (.inr (.inr (.inr (.inr ⟨rfl, h⟩))))
  | ctrlU => exact .inl rfl
  | ctrlW h1 h2 => rcases h1 with rfl | rfl <;> exact .inr (.inr (.inr (.inl ⟨by decide, h2⟩)))

theorem DocEdit.other {k : Combo} {z z' : Line} (h : DocEdit k z z') (ho : k.Other) : k.key < 32 ∧ k.key ≠ 8 ∧ (k = .ctrl 'D' ∨ k.key ≠ 4) ∧
    (k = .ctrl 'K' ∨ k.key ≠ 11) := by
  obtain ⟨o1, o2, o3, _⟩ := ho
  cases h with
  | text _ _ => exact (o1 _ rfl).elim
  | ctrlB h => rcases h with rfl | rfl <;> decide
  | ctrlF h => rcases h with rfl | rfl <;> decide
  | ctrlH h =>
    rcases h with rfl | rfl
    · exact (o3 rfl).elim
    · exact (o2 rfl).elim
  | ctrlW h _ => rcases h with rfl | rfl <;> decide
  | _ => decide

theorem DocMove.nav {n cols : Nat} {k : Combo} {i j : Nat} (h : DocMove n cols k i j) : NavKey k.key ∧ Nav n cols k.key i j := by
  cases h with
  | ctrlF h =>
    refine ⟨by unfold NavKey; decide, .inl ⟨.inl rfl, ?_⟩⟩
    split
    · next e => exact .inr ⟨e, rfl⟩
    · exact .inl ⟨by omega, rfl⟩
  | ctrlB h =>
    refine ⟨by unfold NavKey; decide, .inr (.inl ⟨rfl, ?_⟩)⟩
    split
    · next e => exact .inr ⟨e, by omega⟩
    · exact .inl ⟨by omega, by omega⟩
  | ctrlN h => exact ⟨by unfold NavKey; decide, .inr (.inr (.inr (.inr (.inl ⟨rfl, h⟩))))⟩
  | ctrlP h => exact ⟨by unfold NavKey; decide, .inr (.inr (.inr (.inr (.inr ⟨rfl, h⟩))))⟩
  | ctrlA h1 h2 => exact ⟨by unfold NavKey; decide, .inr (.inr (.inl ⟨rfl, h1, h2⟩))⟩
  | ctrlE h1 h2 h3 => exact ⟨by unfold NavKey; decide, .inr (.inr (.inr (.inl ⟨rfl, h1, h2, h3⟩)))⟩

theorem DocKey.study {p : StudyCfg} {k : Combo} {s s' : Study} (h : DocKey p k s s') : StudyKey p k.key s s' := by
  induction h with
  | @edit k b ds z b' h e => subst e; exact .desk (.plain (.edit h.edits)) id
  | cancel e => subst e; exact .desk .bell id
  | @complete k b ds m z m' b' hk h e =>
    subst e
    have hh : ¬ Highlight 9 m := by cases h <;> exact id
    rcases hk with rfl | rfl <;> exact .desk (.tab h) hh
  | next hk e => subst e; rcases hk with rfl | rfl <;> exact .desk (.plain .newer) id
  | prev hk e => subst e; rcases hk with rfl | rfl <;> exact .desk (.plain .older) id
  | @search k b ds m fwd hk h1 h2 =>
    subst hk
    cases fwd
    · exact .search (r := 18) (.inl rfl) h1 h2
    · exact .search (r := 19) (.inr rfl) h1 h2
  | @searched r b ds f v i h1 h2 h3 h4 =>
    have := StudyKey.seek (p := p) (ds := ds) (f := f) (SearchStep.text h1 h2 h3) h4
    rwa [if_neg (by omega)] at this
  | @again k b ds f v i fwd hk h1 h2 =>
    subst hk
    cases fwd
    · exact StudyKey.seek (p := p) (ds := ds) (f := f) (SearchStep.again (r := 18) (.inl rfl) h1) h2
    · exact StudyKey.seek (p := p) (ds := ds) (f := f) (SearchStep.again (r := 19) (.inr rfl) h1) h2
  | @rub k b ds f v i hk h1 h2 h3 =>
    rcases hk with rfl | rfl
    · exact StudyKey.seek (p := p) (ds := ds) (f := f) (SearchStep.back (r := 127) (.inl rfl) h1 h2) h3
    · exact StudyKey.seek (p := p) (ds := ds) (f := f) (SearchStep.back (r := 8) (.inr rfl) h1 h2) h3
  | revert hk e => rcases hk with rfl | rfl <;> exact .giveUp (by decide) e
  | @exitSearch k b ds f s ho h _ =>
    cases h with
    | edit h e =>
      obtain ⟨a1, a2, a3, _⟩ := h.other ho
      rcases a3 with rfl | a3
      · subst e
        cases h with
        | ctrlD _ => exact .delete rfl
        | ctrlB h => simp at h
        | ctrlF h => simp at h
        | ctrlH h => simp at h
        | ctrlW h => simp at h
      · subst e
        exact .keep (.edit h.edits) a1 a2 a3
    | cancel _ => exact (ho.2.2.2.1 rfl).elim
    | complete hk h e => rcases hk with rfl | rfl <;> exact .tab h e
    | next hk e => subst e; rcases hk with rfl | rfl <;> exact .keep .newer (by decide) (by decide) (by decide)
    | prev hk e => subst e; rcases hk with rfl | rfl <;> exact .keep .older (by decide) (by decide) (by decide)
    | @search _ _ _ _ fwd hk _ _ =>
      cases fwd
      · exact (ho.2.2.2.2.2.1 hk).elim
      · exact (ho.2.2.2.2.2.2 hk).elim
  | follow h1 h2 h3 e => subst e; exact .desk (.text h1 h2 h3) id
  | @putAway k b ds t cs off s ho n1 n2 n3 h _ =>
    cases h with
    | edit h e =>
      obtain ⟨a1, a2, a3, a4⟩ := h.other ho
      subst e
      rcases a3 with rfl | a3
      · cases h with
        | ctrlD _ => exact .desk .delete id
        | ctrlB h => simp at h
        | ctrlF h => simp at h
        | ctrlH h => simp at h
        | ctrlW h => simp at h
      · exact .desk (.close (.edit h.edits) a1 a2 (a4.resolve_left n3) a3) id
    | cancel _ => exact (ho.2.2.2.1 rfl).elim
    | complete hk h e => exact (hk.elim n2 n1).elim
    | next hk e => subst e; rcases hk with rfl | rfl <;> exact .desk (.close .newer (by decide) (by decide) (by decide) (by decide)) id
    | prev hk e => subst e; rcases hk with rfl | rfl <;> exact .desk (.close .older (by decide) (by decide) (by decide) (by decide)) id
    | @search _ _ _ _ fwd hk _ _ =>
      cases fwd
      · exact (ho.2.2.2.2.2.1 hk).elim
      · exact (ho.2.2.2.2.2.2 hk).elim
  | dismiss hk e => subst e; rcases hk with rfl | rfl <;> exact .desk (.leave (by decide)) id
  | move hc h => exact .list (.move h.nav.1 hc h.nav.2) (.inl h.nav.1)
  | use hx e => subst e; exact .desk (.take (.inl rfl) hx) (by
      show ¬ (NavKey 13 ∨ (13 : Rune) = 7 ∨ (13 : Rune) = 3)
      unfold NavKey
      decide)
  | leave hk => rcases hk with rfl | rfl <;> exact .list (.drop (by decide)) (.inr (by decide))
  | @exitSelect k b ds cs off i s z b' hk h e es =>
    subst e es
    have ho : k.Other ∧ ¬ NavKey k.key ∧ k.key ≠ 13 ∧ k.key ≠ 10 ∧ k.key ≠ 7 ∧ k.key ≠ 3 ∧ k.key ≠ 11 := by
      simp only [List.mem_cons, List.not_mem_nil, or_false] at hk
      unfold NavKey
      rcases hk with rfl | rfl | rfl | rfl | rfl | rfl | rfl | rfl <;>
        exact ⟨⟨by simp, by decide, by decide, by decide, by decide, by decide, by decide⟩, by decide, by decide, by decide, by decide, by decide, by decide⟩
    obtain ⟨o1, o2, o3, o4, o5, o6, o7⟩ := ho
    obtain ⟨a1, a2, a3, _⟩ := h.other o1
    refine .desk (.through o2 o3 o4 o5 o6 o7 ?_) (by rintro (a | a | a) <;> contradiction)
    rcases a3 with rfl | a3
    · cases h with
      | ctrlD _ => exact .delete
      | ctrlB h => simp at h
      | ctrlF h => simp at h
      | ctrlH h => simp at h
      | ctrlW h => simp at h
    · exact .close (.edit h.edits) a1 a2 o7 a3

/-- Documented keys are fine, if the text typed is Unicode. -/
theorem DocEdit.fine {k : Combo} {z z' : Line} (h : DocEdit k z z') (ht : ∀ r, k = .text r → Scalar r) : k.Fine := by
  cases h with
  | text h1 h2 => exact ⟨by omega, ht _ rfl⟩
  | ctrlB h => rcases h with rfl | rfl <;> simp [Combo.Fine]
  | ctrlF h => rcases h with rfl | rfl <;> simp [Combo.Fine]
  | ctrlH h => rcases h with rfl | rfl <;> simp [Combo.Fine]
  | ctrlW h _ => rcases h with rfl | rfl <;> simp [Combo.Fine]
  | _ => simp [Combo.Fine]

theorem DocKey.fine {p : StudyCfg} {k : Combo} {s s' : Study} (h : DocKey p k s s') (ht : ∀ r, k = .text r → Scalar r) : k.Fine := by
  have two : ∀ {a b : Combo}, k = a ∨ k = b → a.Fine → b.Fine → k.Fine := by
    rintro a b (rfl | rfl) h1 h2 <;> assumption
  induction h with
  | edit h _ => exact h.fine ht
  | cancel _ => simp [Combo.Fine]
  | complete hk _ _ => exact two hk (by simp [Combo.Fine]) (by simp [Combo.Fine])
  | next hk _ => exact two hk (by simp [Combo.Fine]) (by simp [Combo.Fine])
  | prev hk _ => exact two hk (by simp [Combo.Fine]) (by simp [Combo.Fine])
  | @search _ _ _ _ fwd hk _ _ => subst hk; cases fwd <;> simp [Combo.Fine]
  | searched h1 _ _ _ => exact ⟨by omega, ht _ rfl⟩
  | @again _ _ _ _ _ _ fwd hk _ _ => subst hk; cases fwd <;> simp [Combo.Fine]
  | rub hk _ _ _ => exact two hk (by simp [Combo.Fine]) (by simp [Combo.Fine])
  | revert hk _ => exact two hk (by simp [Combo.Fine]) (by simp [Combo.Fine])
  | exitSearch _ _ ih => exact ih ht two
  | follow h1 _ _ _ => exact ⟨by omega, ht _ rfl⟩
  | putAway _ _ _ _ _ ih => exact ih ht two
  | dismiss hk _ => exact two hk (by simp [Combo.Fine]) (by simp [Combo.Fine])
  | move _ h => cases h <;> simp [Combo.Fine]
  | use _ _ => simp [Combo.Fine]
  | leave hk => exact two hk (by simp [Combo.Fine]) (by simp [Combo.Fine])
  | exitSelect _ h _ _ => exact h.fine ht

theorem DocEnd.fine {save : Bool} {p : StudyCfg} {k : Combo} {s : Study} {e : Event} {a ds : List (List Rune)} {b : Book} (h : DocEnd save p k s e a b ds) : k.Fine := by
  cases h with
  | lineFeed hk _ => rcases hk with rfl | rfl | rfl <;> simp [Combo.Fine]
  | found hk => rcases hk with rfl | rfl | rfl <;> simp [Combo.Fine]
  | ctrlC => simp [Combo.Fine]
  | ctrlD _ => simp [Combo.Fine]

theorem DocKeys.study {p : StudyCfg} {ks : List Combo} {s s' : Study} (h : DocKeys p ks s s') : StudyKeys p (ks.map Combo.key) s s' := by
  induction h with
  | nil => exact .nil
  | cons h _ ih => exact .cons h.study ih

theorem DocKeys.fine {p : StudyCfg} {ks : List Combo} {s s' : Study} (h : DocKeys p ks s s') (ht : ∀ r, .text r ∈ ks → Scalar r) : ∀ k ∈ ks, k.Fine := by
  induction h with
  | nil => simp
  | cons h _ ih =>
    intro k hk
    rcases List.mem_cons.1 hk with rfl | hk
    · exact h.fine fun r e => ht r (by rw [e]; exact .head _)
    · exact ih (fun r hr => ht r (.tail _ hr)) k hk

theorem DocRun.fine {save : Bool} {p : StudyCfg} {ks : List Combo} {b b' : Book} {ds ds' : List (List Rune)} {es : List Event} {as : List (List Rune)}
    (h : DocRun save p ks b ds es as b' ds') (ht : ∀ r, .text r ∈ ks → Scalar r) : ∀ k ∈ ks, k.Fine := by
  induction h with
  | done => simp
  | call h1 h2 _ ih =>
    intro x hx
    rcases List.mem_append.1 hx with hx | hx
    · exact h1.fine (fun r hr => ht r (List.mem_append_left _ hr)) x hx
    · rcases List.mem_cons.1 hx with rfl | hx
      · exact h2.fine
      · exact ih (fun r hr => ht r (List.mem_append_right _ (.tail _ hr))) x hx

theorem DocEnd.study {save : Bool} {p : StudyCfg} {k : Combo} {s : Study} {e : Event} {a ds : List (List Rune)} {b : Book} (h : DocEnd save p k s e a b ds)
    (hp : s.book.pages ≠ []) : StudyEnd save p k.key s e a b ds := by
  cases h with
  | @lineFeed k b ds m hk hm =>
    have hk' : k.key = 13 ∨ k.key = 10 := by rcases hk with rfl | rfl | rfl <;> decide
    have hb : BookEnd save p.limit k.key b (.line b.line.text) (b.submit save p.limit) := .enter hk' fun _ => .inl hp
    cases m with
    | closed => exact .desk (.plain hb)
    | listed s cs off => exact .desk (.listed hb hk')
    | chosen cs off i => exact (hm cs off i rfl).elim
  | found hk => exact .found (by rcases hk with rfl | rfl | rfl <;> decide)
  | ctrlC => exact .desk (.plain .interrupt)
  | ctrlD h => exact .desk (.plain (.eof h))

/-! ### There is always a page -/

theorem note_pages {limit : Int} (hl : 0 < limit) (b : Book) : (b.note limit).pages ≠ [] := by
  unfold Book.note
  split
  · simp
  · next h =>
    intro a
    have := congrArg List.length a
    simp only [keepNewest, List.length_drop, List.length_set, List.length_nil] at this
    have : b.pages.length ≠ 0 := fun a => h (List.length_eq_zero_iff.1 a)
    omega

theorem DocKey.pages {p : StudyCfg} (hl : 0 < p.limit) {k : Combo} {s s' : Study} (h : DocKey p k s s') (hp : s.book.pages ≠ []) : s'.book.pages ≠ [] := by
  induction h with
  | exitSearch _ _ ih => exact ih hp
  | putAway _ _ _ _ _ ih => exact ih hp
  | edit _ e => subst e; exact note_pages hl _
  | cancel e => subst e; exact note_pages hl _
  | complete _ _ e => subst e; exact note_pages hl _
  | next _ e => subst e; exact note_pages hl _
  | prev _ e => subst e; exact note_pages hl _
  | revert _ e => subst e; exact note_pages hl _
  | follow _ _ _ e => subst e; exact note_pages hl _
  | dismiss _ e => subst e; exact note_pages hl _
  | use _ e => subst e; exact note_pages hl _
  | exitSelect _ _ e es => subst e es; exact note_pages hl _
  | _ => exact hp

theorem DocKeys.pages {p : StudyCfg} (hl : 0 < p.limit) {ks : List Combo} {s s' : Study} (h : DocKeys p ks s s') : s.book.pages ≠ [] → s'.book.pages ≠ [] := by
  induction h with
  | nil => exact id
  | cons h _ ih => exact fun hp => ih (h.pages hl hp)

theorem DocEnd.pages {save : Bool} {p : StudyCfg} {k : Combo} {s : Study} {e : Event} {a ds : List (List Rune)} {b : Book} (h : DocEnd save p k s e a b ds)
    (hp : s.book.pages ≠ []) : b.pages ≠ [] := by
  have sub : ∀ (b : Book) t, b.pages ≠ [] → (b.submitAs save p.limit t).pages ≠ [] := by
    intro b t h
    unfold Book.submitAs
    split
    · simp
    · exact h
  cases h with
  | lineFeed _ _ =>
    unfold Book.submit
    split
    · simp
    · exact hp
  | found _ => exact sub _ _ hp
  | ctrlC => simp [Book.cancel, show ¬ _ = [] from hp]
  | ctrlD _ => simp [Book.cancel, show ¬ _ = [] from hp]

end Spec

/-! ### Sessions -/

theorem session90 {c : OCfg} (hf : Op.Friendly c) (hp : Op.Plain c) (hl : 0 < c.h.limit) {f : Completer} (ha : c.auto = some f) {w : Nat}
    {keys : List Combo} {b b' : Book} {ds ds' as : List (List Rune)} {es : List Event}
    (hr : DocRun (!c.noSave) ⟨⟨f, w, widthAll c.U, c.h.limit⟩, c.h.fold⟩ keys b ds es as b' ds') :
    ∀ {o : Op}, Ready c o → o.Tidy → o.rb.width = w → Op.Shows c o b → o.hist.drafts = ds → o.inp = keys.map Combo.key → o.hist.fd = .opened →
    b.pages ≠ [] → ∀ {fuel : Nat}, keys.length < fuel →
    ∃ o', calls c fuel es.length o = .ok es ∧ after c fuel es.length o = .ok o' ∧ Ready c o' ∧ o'.inp = [] ∧ Op.Shows c o' b' ∧
      o'.hist.disk = o.hist.disk ++ fileOf as := by
  induction hr with
  | done => intro o h _ _ hs _ hi _ _ fuel _; exact ⟨o, rfl, rfl, h, hi, hs, by simp [fileOf]⟩
  | @call ks k keys b ds s b2 ds2 b3 ds3 e a es as hk he _ ih =>
    intro o h ht hw hs hd hi ho hpg fuel hfuel
    subst hd
    simp only [List.length_append, List.length_cons] at hfuel
    have hpg1 := hk.pages hl hpg
    obtain ⟨o1, e1, e2, e3, e4, e5, e6, e7, e8, e9⟩ := C82_readline_partial hf hp hl ha h ht hw hs (rest := keys.map Combo.key) (by rw [hi]; simp) hk.study
      (he.study hpg1) (fuel := fuel) (by rw [List.length_map]; omega)
    obtain ⟨o2, f1, f2, f3, f4, f5, f6⟩ := ih e2 e3 e6 e5 e7 e4 (e8.trans ho) (he.pages hpg1) (fuel := fuel) (by omega)
    refine ⟨o2, ?_, ?_, f3, f4, f5, ?_⟩
    · show calls c fuel (es.length + 1) o = _
      unfold calls
      rw [e1, R.bind_ok]
      dsimp only
      rw [f1]
      rfl
    · show after c fuel (es.length + 1) o = _
      unfold after
      rw [e1, R.bind_ok]
      exact f2
    · rw [f6, e9 ho hpg1, fileOf_append, List.append_assoc]

/-- **C90, partial.**  A program starts on a history file, and documented keys are pressed, in whichever mode the keypad is.  Then, from the
bytes the terminal sends, the calls of `Readline` return what the tables say, and the lines recorded are appended to the file.  Missing: the rows
that are false (below) and the uses of keys that `DocEdit` and `DocKey` leave out. -/
theorem C90_session_partial {c : OCfg} (hf : Op.Friendly c) (hp : Op.Plain c) (hl : 2 ≤ c.h.limit) {f : Completer} (ha : c.auto = some f)
    (hfile : c.h.hasFile = true) (hopen : c.h.openOK = true) {prompt : List Rune} {w : Nat} {pw : Nat} (hw : 0 < w)
    (hpr : (RB.new prompt true w).promptLen c.U = .ok pw) (hdvd : 0 < pw → ¬ (w : Int) ∣ (pw : Int)) (hpaint : c.d.painter ≠ none)
    {es : List (List Rune)} (hes : ∀ e ∈ es, Storable e) {ks : List (Combo × Bool)} {evs : List Event} {as ds' : List (List Rune)} {b' : Book}
    (hr : DocRun (!c.noSave) ⟨⟨f, w, widthAll c.U, c.h.limit⟩, c.h.fold⟩ (ks.map (·.1)) (Book.opened (keepNewest c.h.limit es))
      (List.replicate ((keepNewest c.h.limit es).length + 1) []) evs as b' ds')
    (ht : ∀ r, .text r ∈ ks.map (·.1) → Scalar r) {fuel : Nat} (hfu : ks.length < fuel) :
    ∃ o', calls c fuel evs.length (Op.init prompt true w (Hist.start c.h (fileOf es)) (termKeys c.U false (readBytes (encode (sentAll ks))))) = .ok evs ∧
      after c fuel evs.length (Op.init prompt true w (Hist.start c.h (fileOf es)) (termKeys c.U false (readBytes (encode (sentAll ks))))) = .ok o' ∧
      Op.Shows c o' b' ∧ o'.inp = [] ∧ o'.hist.disk = fileOf (keepNewest c.h.limit es ++ as) := by
  have hfine := hr.fine ht
  rw [C90_decoded (fun k hk => hfine k.1 (List.mem_map_of_mem hk))]
  obtain ⟨_, d2, d3⟩ := C23_load c.h hfile hopen es hes
  have hdisk : (Hist.start c.h (fileOf es)).disk = fileOf (keepNewest c.h.limit es) := by
    rw [d2]
    split
    · rfl
    · rw [keepNewest_self (by omega)]
  obtain ⟨_, _, _, g4, _⟩ := start_spec c.h (fileOf es) hfile hopen
  have hs := C67_start_file hl hfile hopen prompt w hes (ks.map fun k => k.1.key)
  have hds : (Hist.start c.h (fileOf es)).drafts = List.replicate ((keepNewest c.h.limit es).length + 1) [] := by
    rw [C82_start c.h hfile hopen]
    have := hs.hist.length
    rw [show (Hist.start c.h (fileOf es)).order.length = _ from this.symm]
    simp [Book.opened]
  obtain ⟨o', q1, q2, q3, q4, q5, q6⟩ := session90 hf hp (by omega) ha hr (o := Op.init prompt true w (Hist.start c.h (fileOf es)) (ks.map fun k => k.1.key))
    (init_Ready (by omega) hpr hdvd hpaint d3) (fun _ => ⟨rfl, rfl⟩) rfl hs hds (by simp [Op.init, List.map_map, Function.comp_def]) g4 (by simp [Book.opened])
    (fuel := fuel) (by simpa using hfu)
  refine ⟨o', q1, q2, q5, q4, ?_⟩
  rw [q6, fileOf_append]
  exact congrArg (· ++ fileOf as) hdisk

/-! ### An example -/

def desk90 : OCfg := { desk1 with h := ⟨500, true, false, true⟩ }

/-- "b" is in the history file.  First line: "a", Tab lists "xa" and "yb", Tab highlights the first, Ctrl-F the second, Enter takes it, Enter.  Second
line: the up arrow recalls "ayb", the left arrow, Ctrl-K, Enter. -/
def keys90 : List (Combo × Bool) := [(.text 97, false), (.tab, false), (.tab, false), (.ctrl 'F', false), (.enter, false), (.enter, false),
  (.up, false), (.left, true), (.ctrl 'K', false), (.enter, false)]

theorem run90 : ∃ b ds, DocRun true cfg82 (keys90.map (·.1)) (Book.opened [[98]]) [[], []] [.line [97, 121, 98], .line [97, 121]] [[97, 121, 98], [97, 121]] b ds := by
  refine ⟨_, _, .call (ks := [.text 97, .tab, .tab, .ctrl 'F', .enter]) (a := [[97, 121, 98]]) (as := [[97, 121]]) (e := .line [97, 121, 98])
    (.cons (.edit (.text (r := 97) (by decide) (by decide)) rfl)
    (.cons (.complete (.inr rfl) (.first (cs := [[120, 97], [121, 98]]) (off := 0) rfl (by decide) lcp_afterOne) rfl)
    (.cons (.complete (.inr rfl) (.select (z := ⟨[97], [], []⟩) (by decide)) rfl)
    (.cons (.move (by decide) (.ctrlF (i := 0) (by decide)))
    (.cons (.use (x := [121, 98]) rfl rfl) .nil))))) (.lineFeed (.inl rfl) (fun _ _ _ h => by cases h))
    (.call (ks := [.up, .left, .ctrl 'K']) (a := [[97, 121]]) (as := []) (e := .line [97, 121])
      (.cons (.prev (.inr rfl) rfl) (.cons (.edit (.ctrlB (.inr rfl)) rfl) (.cons (.edit .ctrlK rfl) .nil)))
      (.lineFeed (.inl rfl) (fun _ _ _ h => by cases h)) .done)⟩

/-- The hypotheses of `C90_session_partial` hold for it. -/
example : ∃ o' : Op, calls desk90 20 2 (Op.init (str "> ") true 80 (Hist.start desk90.h (fileOf [[98]])) (termKeys U0 false (readBytes (encode (sentAll keys90))))) =
      .ok [.line [97, 121, 98], .line [97, 121]] ∧ o'.hist.disk = fileOf [[98], [97, 121, 98], [97, 121]] := by
  obtain ⟨b, ds, hr⟩ := run90
  obtain ⟨o', h1, _, _, _, h2⟩ := C90_session_partial (c := desk90) (f := afterOne) (w := 80) (pw := 2) (prompt := str "> ") (fuel := 20) (es := [[98]])
    ⟨friendly_desk1.1, friendly_desk1.2⟩ ⟨rfl, by simp [Op.Observer, desk90, desk1, c0]⟩ (by decide) rfl rfl rfl (by decide) rfl (by decide) (by decide)
    (by intro e he; rw [List.mem_singleton.1 he]; exact ⟨by decide, by decide, by decide, by decide, by unfold Scalar; decide⟩) hr
    (by
      intro r hr
      simp only [keys90, List.map_cons, List.map_nil, List.mem_cons, Combo.text.injEq, reduceCtorEq, or_false, List.not_mem_nil] at hr
      subst hr
      unfold Scalar
      decide) (by decide)
  exact ⟨o', h1, h2⟩

/-! ### Rows that are false -/

/-- "Ctrl+C: Send io.EOF": `Readline` returns `ErrInterrupt`. -/
theorem C90_false_interrupt : firstResult c0 (o0 ((Combo.ctrl 'C').sent false)) = .ok (.interrupt []) := by decide

/-- "Tab / Enter: Use the word on cursor to complete": Tab goes on to the next candidate.  With "xa" and "yb" to choose from, the third Tab does not
take "xa", so that Enter takes "yb". -/
theorem C90_false_tab : firstResult desk1 (o0 (sentAll [(.text 97, false), (.tab, false), (.tab, false), (.tab, false), (.enter, false), (.enter, false)])) =
    .ok (.line [97, 121, 98]) := by decide +kernel

/-- "Meta+T: Transpose words (TODO)": Meta-T types a `t`; Escape Ctrl-T, which the decoder takes for that key, puts a rune into the line that is no
character. -/
theorem C90_false_transpose :
    firstResult c0 (o0 (termKeys U0 false (readBytes (encode (sentAll [(.alt 't', false), (.enter, false)]))))) = .ok (.line [116]) ∧
    firstResult c0 (o0 (termKeys U0 false (readBytes [27, 20, 13]))) = .ok (.line [-5]) := by decide +kernel

/-- "Ctrl+W: Cut previous word": in the first word the whole line goes, and cannot be pasted back.  "ab cd", back to the first word, Ctrl-W, Ctrl-Y. -/
theorem C90_false_word : firstResult c0 (o0 (sentAll [(.text 97, false), (.text 98, false), (.text 32, false), (.text 99, false), (.ctrl 'B', false),
    (.ctrl 'B', false), (.ctrl 'W', false), (.ctrl 'Y', false), (.enter, false)])) = .ok (.line []) := by decide +kernel

end RL
