import Verif.Model.Multiline
import Verif.Spec.Multiline
import Verif.Props.Shelf
import Verif.Props.Small
/-! # C92: the program that reads commands of several lines -/

namespace RL
open Spec Hist RB

/-! ### The strings -/

theorem isSpace_blank (c : Rune) : isSpace c = true ↔ Blank c := C23_blank c

theorem trimSpaceLeft_blank {a : List Rune} (h : ∀ c ∈ a, Blank c) (s : List Rune) : trimSpaceLeft (a ++ s) = trimSpaceLeft s := by
  induction a with
  | nil => rfl
  | cons x a ih =>
    have hx : isSpace x = true := (isSpace_blank x).2 (h x (by simp))
    show trimSpaceLeft (x :: (a ++ s)) = _
    rw [trimSpaceLeft, if_neg (by rw [hx]; simp)]
    exact ih fun c hc => h c (by simp [hc])

theorem trimSpaceLeft_text {t : List Rune} (h : ∀ c, t.head? = some c → ¬ Blank c) : trimSpaceLeft t = t := by
  cases t with
  | nil => rfl
  | cons x t =>
    have hx : isSpace x = false := by
      cases e : isSpace x with
      | false => rfl
      | true => exact (h x rfl ((isSpace_blank x).1 e)).elim
    rw [trimSpaceLeft, if_pos hx]

/-- Stripping gives one result, that of the code. -/
theorem trimSpace_stripped {s t : List Rune} (h : Stripped s t) : trimSpace s = t := by
  obtain ⟨a, b, rfl, ha, hb, h1, h2⟩ := h
  unfold trimSpace
  rw [List.append_assoc, trimSpaceLeft_blank ha]
  have hr : ∀ c, t.reverse.head? = some c → ¬ Blank c := by
    intro c hc
    rw [List.head?_reverse] at hc
    exact h2 c hc
  cases t with
  | nil =>
    rw [List.nil_append]
    have : trimSpaceLeft b = [] := by
      have := trimSpaceLeft_blank hb []
      rw [List.append_nil] at this
      exact this
    rw [this]; rfl
  | cons x t =>
    have : trimSpaceLeft ((x :: t) ++ b) = (x :: t) ++ b := trimSpaceLeft_text fun c hc => h1 c (by simpa using hc)
    rw [this, List.reverse_append, trimSpaceLeft_blank fun c hc => hb c (List.mem_reverse.1 hc), trimSpaceLeft_text hr, List.reverse_reverse]

/-- Every text can be stripped. -/
theorem stripped_exists (s : List Rune) : ∃ t, Stripped s t := by
  have left : ∀ s : List Rune, ∃ a t, s = a ++ t ∧ (∀ c ∈ a, Blank c) ∧ (∀ c, t.head? = some c → ¬ Blank c) := by
    intro s
    induction s with
    | nil => exact ⟨[], [], rfl, by simp, by simp⟩
    | cons x s ih =>
      by_cases hx : Blank x
      · obtain ⟨a, t, rfl, h1, h2⟩ := ih
        refine ⟨x :: a, t, rfl, ?_, h2⟩
        intro c hc
        rcases List.mem_cons.1 hc with rfl | hc
        · exact hx
        · exact h1 c hc
      · exact ⟨[], x :: s, rfl, by simp, by simpa using hx⟩
  obtain ⟨a, t, rfl, h1, h2⟩ := left s
  obtain ⟨b, u, e, h3, h4⟩ := left t.reverse
  have e' : t = u.reverse ++ b.reverse := by rw [← List.reverse_append, ← e, List.reverse_reverse]
  refine ⟨u.reverse, a, b.reverse, by rw [e', List.append_assoc], h1, fun c hc => h3 c (List.mem_reverse.1 hc), fun c hc => ?_, fun c hc => ?_⟩
  · refine h2 c ?_
    rw [e', List.head?_append, hc]; rfl
  · rw [List.getLast?_reverse] at hc
    exact h4 c hc

theorem joinSpace_joined (ts : List (List Rune)) : joinSpace ts = joined ts := by
  unfold joined
  induction ts with
  | nil => rfl
  | cons t ts ih =>
    cases ts with
    | nil => simp [joinSpace, List.intercalate]
    | cons u ts =>
      rw [joinSpace, ih]
      · simp [List.intercalate, List.intersperse]
      · simp

/-- The last line of a command decides how it ends. -/
theorem joined_snoc (ts : List (List Rune)) (t : List Rune) : ∃ p, joined (ts ++ [t]) = p ++ t := by
  unfold joined
  induction ts with
  | nil => exact ⟨[], by simp [List.intercalate]⟩
  | cons u ts ih =>
    obtain ⟨p, hp⟩ := ih
    cases ts with
    | nil => exact ⟨u ++ [32], by simp [List.intercalate, List.intersperse]⟩
    | cons v ts =>
      refine ⟨u ++ [32] ++ p, ?_⟩
      rw [List.append_assoc _ p t, ← hp]
      simp [List.intercalate, List.intersperse]

theorem joined_cons (t : List Rune) (ts : List (List Rune)) : ∃ p, joined (t :: ts) = t ++ p := by
  unfold joined
  cases ts with
  | nil => exact ⟨[], by simp [List.intercalate]⟩
  | cons v ts => exact ⟨32 :: List.intercalate [32] (v :: ts), by simp [List.intercalate, List.intersperse]⟩

theorem joined_mem {ts : List (List Rune)} {c : Rune} (h : c ∈ joined ts) : c = 32 ∨ ∃ t ∈ ts, c ∈ t := by
  unfold joined at h
  induction ts with
  | nil => simp [List.intercalate] at h
  | cons t ts ih =>
    cases ts with
    | nil => exact .inr ⟨t, by simp, by simpa [List.intercalate] using h⟩
    | cons v ts =>
      have e : List.intercalate [32] (t :: v :: ts) = t ++ 32 :: List.intercalate [32] (v :: ts) := by simp [List.intercalate, List.intersperse]
      rw [e] at h
      rcases List.mem_append.1 h with h | h
      · exact .inr ⟨t, by simp, h⟩
      · rcases List.mem_cons.1 h with h | h
        · exact .inl h
        · rcases ih h with a | ⟨u, hu, a⟩
          · exact .inl a
          · exact .inr ⟨u, by simp only [List.mem_cons] at hu ⊢; exact .inr hu, a⟩

theorem stripped_storable {l t : List Rune} (h : Stripped (l.map scalarize) t) (hn : t ≠ []) (hl : (10 : Rune) ∉ l.map scalarize) : Storable t := by
  obtain ⟨a, b, e, _, _, h1, h2⟩ := h
  have hm : ∀ c ∈ t, c ∈ l.map scalarize := fun c hc => by rw [e]; simp [hc]
  have hs : ∀ {c}, ¬ Blank c → isSpace c = false := by
    intro c hc
    cases e : isSpace c with
    | false => rfl
    | true => exact (hc ((isSpace_blank c).1 e)).elim
  refine ⟨hn, fun c => hl (hm _ c), fun c hc => hs (h1 c hc), fun c hc => hs (h2 c hc), fun c hc => ?_⟩
  obtain ⟨x, _, rfl⟩ := List.mem_map.1 (hm c hc)
  exact (encodeRune_utf8 x).2

theorem joined_storable {ts : List (List Rune)} (h : ∀ t ∈ ts, Storable t) (hn : ts ≠ []) : Storable (joined ts) := by
  obtain ⟨t, ts', rfl⟩ : ∃ t ts', ts = t :: ts' := by
    cases ts with
    | nil => exact (hn rfl).elim
    | cons t ts' => exact ⟨t, ts', rfl⟩
  obtain ⟨p, hp⟩ := joined_cons t ts'
  rcases List.eq_nil_or_concat (t :: ts') with e | ⟨i, z, e⟩
  · cases e
  rw [List.concat_eq_append] at e
  obtain ⟨q, hq⟩ := joined_snoc i z
  have ht := h t (by simp)
  have hz := h z (by rw [e]; simp)
  obtain ⟨x, t', rfl⟩ : ∃ x t', t = x :: t' := by
    cases t with
    | nil => exact (ht.nonempty rfl).elim
    | cons x t' => exact ⟨x, t', rfl⟩
  refine ⟨by rw [hp]; simp, fun hc => ?_, fun c hc => ?_, fun c hc => ?_, fun c hc => ?_⟩
  · rcases joined_mem hc with a | ⟨u, hu, a⟩
    · cases a
    · exact (h u hu).oneLine a
  · rw [hp] at hc
    exact ht.first c (by simpa using hc)
  · rw [e, hq, List.getLast?_append] at hc
    cases hl : z.getLast? with
    | none => exact (hz.nonempty (List.getLast?_eq_none_iff.1 hl)).elim
    | some y =>
      rw [hl] at hc
      exact hz.last c (hl.trans hc)
  · rcases joined_mem hc with rfl | ⟨u, hu, a⟩
    · unfold Scalar; omega
    · exact (h u hu).scalar c a

/-! ### What the commands are -/

/-- The commands are exactly those that the lines entered make: each ends at the first line that ends with a semicolon. -/
theorem C92_commands {limit : Int} {pend keys : List (List Rune)} {ks : List Rune} {b b' : Book} {es : List Event} {cs : List (List Rune)}
    (h : Dialogue limit pend ks b es cs keys b') (hp : ∀ t ∈ pend, ¬ Final t) : ∃ ts, Entered es ts ∧ Commands (pend ++ ts) cs keys := by
  induction h with
  | wait => exact ⟨[], .nil, [], by simp, rfl, by simp, hp⟩
  | stop _ _ hn => exact ⟨[], .stop hn, [], by simp, rfl, by simp, hp⟩
  | blank _ _ hs _ ih =>
    obtain ⟨ts, h1, h2⟩ := ih hp
    exact ⟨ts, .blank hs h1, h2⟩
  | more _ _ hs hn hf _ ih =>
    obtain ⟨ts, h1, h2⟩ := ih (fun t ht => (List.mem_append.1 ht).elim (hp t) fun a => by rw [List.mem_singleton.1 a]; exact hf)
    exact ⟨_ :: ts, .text hs hn h1, by simpa using h2⟩
  | @command pend _ _ _ _ _ _ _ l t es cs _ _ _ hs hf _ _ ih =>
    obtain ⟨ts, h1, gs, g1, g2, g3, g4⟩ := ih (by simp)
    have hn : t ≠ [] := by
      rintro rfl
      exact absurd hf (by simp [Final])
    refine ⟨t :: ts, .text hs hn h1, (pend ++ [t]) :: gs, ?_, by rw [g2]; rfl, ?_, g4⟩
    · rw [List.nil_append] at g1
      rw [List.flatten_cons, g1]
      simp
    · intro g hg
      rcases List.mem_cons.1 hg with rfl | hg
      · exact ⟨pend, t, rfl, hf, hp⟩
      · exact g3 g hg

/-- There is only one way to make commands of lines. -/
theorem C92_commands_unique {ts : List (List Rune)} {cs cs' rest rest' : List (List Rune)} (h : Commands ts cs rest) (h' : Commands ts cs' rest') :
    cs = cs' ∧ rest = rest' := by
  obtain ⟨gs, a1, rfl, a3, a4⟩ := h
  obtain ⟨gs', b1, rfl, b3, b4⟩ := h'
  have key : ∀ gs gs' : List (List (List Rune)), (∀ g ∈ gs, ∃ init last, g = init ++ [last] ∧ Final last ∧ ∀ t ∈ init, ¬ Final t) →
      (∀ g ∈ gs', ∃ init last, g = init ++ [last] ∧ Final last ∧ ∀ t ∈ init, ¬ Final t) → gs.flatten ++ rest = gs'.flatten ++ rest' → gs = gs' ∧ rest = rest' := by
    have split : ∀ (i i' : List (List Rune)) (z z' : List Rune) (u u' : List (List Rune)), Final z → Final z' → (∀ t ∈ i, ¬ Final t) → (∀ t ∈ i', ¬ Final t) →
        i ++ z :: u = i' ++ z' :: u' → i = i' ∧ z = z' ∧ u = u' := by
      intro i
      induction i with
      | nil =>
        intro i' z z' u u' hz _ _ hi' e
        cases i' with
        | nil => simpa using e
        | cons x i' =>
          simp only [List.nil_append, List.cons_append, List.cons.injEq] at e
          exact (hi' x (by simp) (e.1 ▸ hz)).elim
      | cons y i ih =>
        intro i' z z' u u' hz hz' hi hi' e
        cases i' with
        | nil =>
          simp only [List.nil_append, List.cons_append, List.cons.injEq] at e
          exact (hi y (by simp) (e.1 ▸ hz')).elim
        | cons x i' =>
          simp only [List.cons_append, List.cons.injEq] at e
          obtain ⟨q1, q2, q3⟩ := ih i' z z' u u' hz hz' (fun t ht => hi t (by simp [ht])) (fun t ht => hi' t (by simp [ht])) e.2
          exact ⟨by rw [e.1, q1], q2, q3⟩
    intro gs
    induction gs with
    | nil =>
      intro gs' _ h' e
      cases gs' with
      | nil => exact ⟨rfl, by simpa using e⟩
      | cons g gs' =>
        obtain ⟨i, z, rfl, hz, _⟩ := h' _ List.mem_cons_self
        exact (a4 z (by
          have : z ∈ rest := by
            rw [List.flatten_nil, List.nil_append] at e
            rw [e]; simp
          exact this) hz).elim
    | cons g gs ih =>
      intro gs' h h' e
      obtain ⟨i, z, rfl, hz, hi⟩ := h _ List.mem_cons_self
      cases gs' with
      | nil =>
        exact (b4 z (by
          have : z ∈ rest' := by
            rw [List.flatten_nil, List.nil_append] at e
            rw [← e]; simp
          exact this) hz).elim
      | cons g' gs' =>
        obtain ⟨i', z', rfl, hz', hi'⟩ := h' _ List.mem_cons_self
        have e2 : i ++ z :: (gs.flatten ++ rest) = i' ++ z' :: (gs'.flatten ++ rest') := by simpa using e
        obtain ⟨q1, q2, q3⟩ := split _ _ _ _ _ _ hz hz' hi hi' e2
        obtain ⟨r1, r2⟩ := ih gs' (fun g hg => h g (by simp [hg])) (fun g hg => h' g (by simp [hg])) q3
        exact ⟨by rw [q1, q2, r1], r2⟩
  obtain ⟨q1, q2⟩ := key gs gs' a3 b3 (a1.symm.trans b1)
  exact ⟨by rw [q1], q2⟩

/-! ### What the program does -/

/-- The width of the window and the prompt stay what they are while a line is read. -/
theorem Op.readline_same {c : OCfg} {fuel : Nat} {o o' : Op} {e : Event} (h : o.readline c fuel = .ok (e, o')) : SameDisp o.rb o'.rb := by
  have aw : ∀ (n : Nat) (o : Op), Op.await c n o = .ok (e, o') → SameDisp o.rb o'.rb := by
    intro n
    induction n with
    | zero =>
      intro o h
      unfold Op.await at h
      split at h
      · cases h; exact SameDisp.refl _
      · cases h
    | succ n ih =>
      intro o h
      unfold Op.await at h
      split at h
      · cases h; exact SameDisp.refl _
      · dsimp only at h
        split at h
        · cases h
        · obtain ⟨o1, h1, h2⟩ := R.bind_inv h
          exact (Op.iter_same o1 h1).trans (ih o1 h2)
  obtain ⟨o1, h1, h2⟩ := R.bind_inv h
  exact SameDisp.trans (Op.refreshNil_same o1 h1) (aw fuel o1.kickRead h2)

/-- What the program needs. -/
structure Multi (c : OCfg) (w : Nat) : Prop where
  plain : Op.Plain c
  manual : c.noSave = true
  limit : 2 ≤ c.h.limit
  painter : c.d.painter ≠ none
  one : GoodPrompt c.U w prompt1
  two : GoodPrompt c.U w prompt2

/-- Between two calls of `Readline`. -/
structure Talks (c : OCfg) (w : Nat) (o : Op) (pend : List (List Rune)) (b : Book) : Prop where
  ready : Ready c o
  width : o.rb.width = w
  prompt : o.rb.prompt = if pend = [] then prompt1 else prompt2
  book : Op.Shows c o b
  fd : o.hist.fd = .opened
  pages : b.pages ≠ []

variable {c : OCfg} {w : Nat}

theorem Ready.prompt (hm : c.d.painter ≠ none) {o : Op} (h : Ready c o) (hw : o.rb.width = w) {q : List Rune} (hq : GoodPrompt c.U w q) :
    Ready c (o.setPrompt q) := by
  obtain ⟨p, p1, p2⟩ := hq
  have hq := h.quiet
  have hrb : RBok c.U c.d (o.setPrompt q).rb := by
    refine ⟨hq.base.rb.width, .inr ⟨hm, hq.base.rb.width, p, p1, ?_⟩, ⟨p, p1⟩, hq.base.rb.good⟩
    show 0 < p → ¬ o.rb.width ∣ (p : Int)
    rw [hw]; exact p2
  exact ⟨⟨⟨hrb, hq.base.hist, hq.base.sw, hq.base.cw, hq.base.col⟩, hq.smode, hq.marks, hq.cmode, hq.nosel⟩, h.emacs, h.events, h.running⟩

theorem bookEnd_last {limit : Int} {r : Rune} {b b' : Book} {e : Event} (h : BookEnd false limit r b e b') (hp : b.pages ≠ []) :
    b'.pages ≠ [] ∧ b'.stored = b.stored := by
  cases h with
  | enter => exact ⟨hp, rfl⟩
  | interrupt => exact ⟨by simp [Book.cancel, hp], rfl⟩
  | eof => exact ⟨by simp [Book.cancel, hp], rfl⟩

/-- One call of `Readline`. -/
theorem Talks.call (hm : Multi c w) {o : Op} {pend : List (List Rune)} {b b1 b2 : Book} (h : Talks c w o pend b) {ks rest : List Rune} {r : Rune} {e : Event}
    (hi : o.inp = ks ++ r :: rest) (hk : BookKeys c.h.limit ks b b1) (hr : BookEnd false c.h.limit r b1 e b2) {fuel : Nat} (hf : ks.length < fuel) :
    ∃ o', o.readline c fuel = .ok (e, o') ∧ Talks c w o' pend b2 ∧ o'.inp = rest ∧ o'.hist.disk = o.hist.disk ∧
      b2.stored.getLast? = b.stored.getLast? := by
  have hl : 0 < c.h.limit := by have := hm.limit; omega
  obtain ⟨p1, p2⟩ := BookKeys.last hm.limit hk h.pages
  obtain ⟨q1, q2⟩ := bookEnd_last hr p1
  have hr' : BookEnd (!c.noSave) c.h.limit r b1 e b2 := by rw [hm.manual]; exact hr
  obtain ⟨o', e1, e2, e3, e4, e5, e6⟩ := C67_readline hm.plain hl h.ready h.book hi hk hr' hf
  have hs := Op.readline_same e1
  refine ⟨o', e1, ⟨e2, hs.width.trans h.width, hs.prompt.trans h.prompt, e4, e5.trans h.fd, q1⟩, e3, ?_, by rw [q2, p2]⟩
  rw [e6 h.fd p1, hm.manual]
  have : added (!true) b1.stored e = [] := by cases e <;> simp [added]
  rw [this]
  simp [fileOf]

/-- `SaveHistory` with the book open at its last page. -/
theorem Talks.record (hm : Multi c w) {o : Op} {b : Book} (h : Talks c w o [] b) (hpos : b.pages.length ≤ b.pos + 1) {t : List Rune} (ht : t ≠ []) :
    ∃ o', o.saveHistory c t = .ok o' ∧ Talks c w o' [] (b.archived c.h.limit t) ∧ o'.inp = o.inp ∧
      o'.hist.disk = o.hist.disk ++ fileOf (if b.stored.getLast? = some t then [] else [t]) ∧ (b.archived c.h.limit t).stored.getLast? = some t := by
  have hl : 0 < c.h.limit := by have := hm.limit; omega
  obtain ⟨h1, e1, e2, e3, e4, e5, e6, _, e8⟩ := Hist.Shows.added (cfg := c.h) hl h.ready.quiet.base.hist h.book.enable h.book.hist (t := t) (.inr ht)
  have had : b.adds t o.hist.drafts = if b.stored.getLast? = some t then [] else [t] := by
    unfold Book.adds
    by_cases hr : b.stored.getLast? = some t
    · rw [if_pos (.inr hr), if_pos hr]
    · rw [if_neg (fun a => a.elim ht hr), if_neg hr, if_neg (by omega)]
  rw [had] at e6 e8
  have hbook : Book.filled (if (if b.stored.getLast? = some t then [] else [t]) = [] then b.stored
      else keepNewest c.h.limit (b.stored ++ (if b.stored.getLast? = some t then [] else [t]))) b.line = b.archived c.h.limit t := by
    unfold Book.archived
    by_cases hr : b.stored.getLast? = some t
    · simp [hr]
    · simp [hr]
  rw [hbook] at e6
  have hq := h.ready.quiet
  have hfits : Fits c.h.limit (b.archived c.h.limit t) := by
    have hfit := h.book.fits
    have hlen := h.book.hist.length
    have hlim := hm.limit
    unfold Fits at hfit
    have hs1 : b.stored.length = b.pages.length - 1 := by rw [← h.book.hist.stored, hlen, Hist.entries]; simp
    have key : (if b.stored.getLast? = some t then b.stored else keepNewest c.h.limit (b.stored ++ [t])).length ≤ c.h.limit.toNat := by
      split
      · omega
      · exact Hist.keepNewest_length _ _
    unfold Book.archived Fits Book.filled
    simp only [List.length_append, List.length_singleton]
    omega
  refine ⟨{ o with hist := h1 }, ?_, ⟨⟨⟨⟨hq.base.rb, e2, hq.base.sw, hq.base.cw, hq.base.col⟩, hq.smode, hq.marks, hq.cmode, hq.nosel⟩, h.ready.emacs,
    h.ready.events, h.ready.running⟩, h.width, h.prompt, ⟨e6, h.book.line, fun a => ?_, e3, hfits⟩, e5.trans h.fd, by simp [Book.archived, Book.filled]⟩, rfl,
    e8 h.pages h.fd, ?_⟩
  · unfold Op.saveHistory
    rw [e1]; rfl
  · rw [hm.manual] at a; cases a
  · show (if b.stored.getLast? = some t then b.stored else keepNewest c.h.limit (b.stored ++ [t])).getLast? = some t
    split
    · assumption
    · exact RL.keepNewest_newest hl _ _

/-- **C92**, where the last line of each command is entered on the last page: the program prints the commands of the conversation, appends
each to the history file unless it repeats the one before, and shows the prompt `>>> ` exactly while a command is not complete. -/
theorem C92_multiline_partial (hm : Multi c w) {pend pend' : List (List Rune)} {keys rest : List Rune} {b b' : Book} {es : List Event} {cs : List (List Rune)}
    (h : Dialogue c.h.limit pend keys b es cs pend' b') {o : Op} (ht : Talks c w o pend b) (hi : o.inp = keys ++ rest) {fuel : Nat} (hf : keys.length < fuel) :
    ∃ o' stopped, multiline c fuel es.length pend o = .ok (cs, stopped, o') ∧ Talks c w o' pend' b' ∧ o'.inp = rest ∧
      (stopped = true ↔ ∃ e ∈ es, ∀ l, e ≠ .line l) ∧
      o'.hist.disk = o.hist.disk ++ fileOf (unrepeated b.stored.getLast? cs) := by
  induction h generalizing o with
  | wait => exact ⟨o, false, rfl, ht, hi, by simp, by simp [unrepeated, fileOf]⟩
  | @stop pend ks r b b1 b2 e hk hr hn =>
    obtain ⟨o', e1, e2, e3, e4, _⟩ := ht.call hm (by simpa using hi) hk hr (fuel := fuel) (by simp at hf; omega)
    refine ⟨o', true, ?_, e2, e3, by simpa using hn, by rw [e4]; simp [unrepeated, fileOf]⟩
    show multiline c fuel (0 + 1) pend o = _
    rw [multiline, e1, R.bind_ok]
    cases e with
    | line l => exact (hn l rfl).elim
    | interrupt l => rfl
    | eof => rfl
  | @blank pend ks r keys b b1 b2 b3 l es cs pend' hk hr hs _ ih =>
    obtain ⟨o1, e1, e2, e3, e4, e5⟩ := ht.call hm (by simpa using hi) hk hr (fuel := fuel) (by simp at hf; omega)
    obtain ⟨o', st, f1, f2, f3, f4, f5⟩ := ih e2 e3 (by simp at hf; omega)
    refine ⟨o', st, ?_, f2, f3, by rw [f4]; simp, by rw [f5, e4, e5]⟩
    show multiline c fuel (es.length + 1) pend o = _
    rw [multiline, e1, R.bind_ok]
    dsimp only
    rw [decode_encode, trimSpace_stripped hs, if_pos (show ([] : List Rune).length = 0 from rfl)]
    exact f1
  | @more pend ks r keys b b1 b2 b3 l t es cs pend' hk hr hs hn hfin _ ih =>
    obtain ⟨o1, e1, e2, e3, e4, e5⟩ := ht.call hm (by simpa using hi) hk hr (fuel := fuel) (by simp at hf; omega)
    have e2' : Talks c w (o1.setPrompt prompt2) (pend ++ [t]) b2 :=
      ⟨e2.ready.prompt hm.painter e2.width hm.two, e2.width, by rw [if_neg (by simp)]; rfl,
        ⟨e2.book.hist, e2.book.line, e2.book.noted, e2.book.enable, e2.book.fits⟩, e2.fd, e2.pages⟩
    obtain ⟨o', st, f1, f2, f3, f4, f5⟩ := ih e2' e3 (by simp at hf; omega)
    refine ⟨o', st, ?_, f2, f3, by rw [f4]; simp, ?_⟩
    · show multiline c fuel (es.length + 1) pend o = _
      rw [multiline, e1, R.bind_ok]
      dsimp only
      rw [decode_encode, trimSpace_stripped hs, if_neg (fun a => hn (List.length_eq_zero_iff.1 a)), if_pos (show ¬ t.getLast? = some 59 from hfin)]
      exact f1
    · rw [f5, ← e5]
      show o1.hist.disk ++ _ = _
      rw [e4]
  | @command pend ks r keys b b1 b2 b3 l t es cs pend' hk hr hs hfin hpos _ ih =>
    obtain ⟨o1, e1, e2, e3, e4, e5⟩ := ht.call hm (by simpa using hi) hk hr (fuel := fuel) (by simp at hf; omega)
    have hn : t ≠ [] := by
      rintro rfl
      exact absurd hfin (by simp [Final])
    have e2' : Talks c w (o1.setPrompt prompt1) [] b2 :=
      ⟨e2.ready.prompt hm.painter e2.width hm.one, e2.width, rfl,
        ⟨e2.book.hist, e2.book.line, e2.book.noted, e2.book.enable, e2.book.fits⟩, e2.fd, e2.pages⟩
    have hj : joined (pend ++ [t]) ≠ [] := by
      obtain ⟨p, hp⟩ := joined_snoc pend t
      rw [hp]; simp [hn]
    obtain ⟨o2, g1, g2, g3, g4, g5⟩ := e2'.record hm hpos hj
    obtain ⟨o', st, f1, f2, f3, f4, f5⟩ := ih g2 (g3.trans e3) (by simp at hf; omega)
    refine ⟨o', st, ?_, f2, f3, by rw [f4]; simp, ?_⟩
    · show multiline c fuel (es.length + 1) pend o = _
      rw [multiline, e1, R.bind_ok]
      dsimp only
      rw [decode_encode, trimSpace_stripped hs, if_neg (fun a => hn (List.length_eq_zero_iff.1 a)), if_neg (not_not_intro (show t.getLast? = some 59 from hfin)), joinSpace_joined, g1, R.bind_ok, f1, R.bind_ok]
    · rw [f5, g4, g5, ← e5]
      show o1.hist.disk ++ _ ++ _ = _
      rw [e4, List.append_assoc, ← fileOf_append]
      congr 2
      rw [unrepeated]
      split
      · next a => rw [a]; rfl
      · rfl

/-- The program starts on a history file with the entries `es`. -/
theorem C92_start (hm : Multi c w) (hw : 0 < w) (hf : c.h.hasFile = true) (ho : c.h.openOK = true) {es : List (List Rune)} (hes : ∀ e ∈ es, Storable e)
    (keys : List Rune) : Talks c w (Op.init prompt1 true w (Hist.start c.h (fileOf es)) keys) [] (Book.opened (keepNewest c.h.limit es)) := by
  obtain ⟨_, _, d3⟩ := C23_load c.h hf ho es hes
  obtain ⟨_, _, _, g4, _⟩ := start_spec c.h (fileOf es) hf ho
  obtain ⟨p, p1, p2⟩ := hm.one
  exact ⟨init_Ready (by omega) p1 p2 hm.painter d3, rfl, rfl, C67_start_file hm.limit hf ho prompt1 w hes keys, g4, by simp [Book.opened]⟩

theorem unrepeated_mem {prev : Option (List Rune)} {cs : List (List Rune)} {x : List Rune} (h : x ∈ unrepeated prev cs) : x ∈ cs := by
  induction cs generalizing prev with
  | nil => simp [unrepeated] at h
  | cons y cs ih =>
    rw [unrepeated] at h
    split at h
    · exact .tail _ (ih h)
    · rcases List.mem_cons.1 h with rfl | h
      · exact .head _
      · exact .tail _ (ih h)

/-- The commands made of lines without line breaks can be stored. -/
theorem dialogue_storable {limit : Int} {pend pend' : List (List Rune)} {keys : List Rune} {b b' : Book} {es : List Event} {cs : List (List Rune)}
    (h : Dialogue limit pend keys b es cs pend' b') (hp : ∀ t ∈ pend, Storable t) (hl : ∀ l, Event.line l ∈ es → (10 : Rune) ∉ l.map scalarize) :
    ∀ t ∈ cs, Storable t := by
  induction h with
  | wait => simp
  | stop => simp
  | blank _ _ _ _ ih => exact ih hp fun l hm => hl l (.tail _ hm)
  | more _ _ hs hn _ _ ih =>
    refine ih (fun t ht => (List.mem_append.1 ht).elim (hp t) fun a => ?_) fun l hm => hl l (.tail _ hm)
    rw [List.mem_singleton.1 a]
    exact stripped_storable hs hn (hl _ (.head _))
  | @command pend _ _ _ _ _ _ _ l t es cs _ _ _ hs hfin _ _ ih =>
    have hn : t ≠ [] := by
      rintro rfl
      exact absurd hfin (by simp [Final])
    intro x hx
    rcases List.mem_cons.1 hx with rfl | hx
    · refine joined_storable (fun u hu => (List.mem_append.1 hu).elim (hp u) fun a => ?_) (by simp)
      rw [List.mem_singleton.1 a]
      exact stripped_storable hs hn (hl _ (.head _))
    · exact ih (by simp) (fun l hm => hl l (.tail _ hm)) x hx

/-- A run of the program on a history file: the commands are printed, and the next run finds the file with each of them (without
repetitions) as one entry. -/
theorem C92_restart_partial (hm : Multi c w) (hw : 0 < w) (hf : c.h.hasFile = true) (ho : c.h.openOK = true) {es : List (List Rune)}
    (hes : ∀ e ∈ es, Storable e) {keys : List Rune} {evs : List Event} {cs pend : List (List Rune)} {b : Book}
    (h : Dialogue c.h.limit [] keys (Book.opened (keepNewest c.h.limit es)) evs cs pend b)
    (hl : ∀ l, Event.line l ∈ evs → (10 : Rune) ∉ l.map scalarize) {fuel : Nat} (hfu : keys.length < fuel) :
    ∃ o stopped, multiline c fuel evs.length [] (Op.init prompt1 true w (Hist.start c.h (fileOf es)) keys) = .ok (cs, stopped, o) ∧
      o.hist.disk = fileOf (keepNewest c.h.limit es ++ unrepeated es.getLast? cs) ∧
      ∀ keys', Talks c w (Op.init prompt1 true w (Hist.start c.h o.hist.disk) keys') []
        (Book.opened (keepNewest c.h.limit (es ++ unrepeated es.getLast? cs))) := by
  obtain ⟨_, d2, _⟩ := C23_load c.h hf ho es hes
  have hdisk : (Hist.start c.h (fileOf es)).disk = fileOf (keepNewest c.h.limit es) := by
    rw [d2]
    split
    · rfl
    · rw [keepNewest_self (by omega)]
  obtain ⟨o, st, e1, _, _, _, e5⟩ := C92_multiline_partial hm h (C92_start hm hw hf ho hes keys) (rest := []) (by simp [Op.init]) hfu
  have e5 : o.hist.disk = (Hist.start c.h (fileOf es)).disk ++ fileOf (unrepeated (keepNewest c.h.limit es).getLast? cs) := e5
  have hlim := hm.limit
  rw [hdisk, ← fileOf_append, keepNewest_getLast (by omega)] at e5
  refine ⟨o, st, e1, e5, fun keys' => ?_⟩
  rw [e5, ← keepNewest_append]
  refine C92_start hm hw hf ho (fun x hx => ?_) keys'
  rcases List.mem_append.1 hx with a | a
  · exact hes x ((keepNewest_suffix _ _).subset a)
  · exact dialogue_storable h (by simp) hl x (unrepeated_mem a)

/-- The program's configuration. -/
def c92 : OCfg := { c0 with h := ⟨500, true, false, true⟩, noSave := true }

theorem multi92 : Multi c92 80 :=
  ⟨⟨rfl, by simp [Op.Observer, c92, c0]⟩, rfl, by decide, by decide, ⟨2, rfl, by decide⟩, ⟨4, rfl, by decide⟩⟩

/-- "a", Enter, " b; ", Enter, "c", Enter, Ctrl-D: the command "a b;". -/
theorem C92_example : ∃ b, Dialogue 500 [] [97, 13, 32, 98, 59, 32, 13, 99, 13, 4] (Book.opened [])
    [.line [97], .line [32, 98, 59, 32], .line [99], .eof] [[97, 32, 98, 59]] [[99]] b := by
  have sc : ∀ l : List Rune, (∀ r ∈ l, 0 ≤ r ∧ r < 128) → l.map scalarize = l := by
    intro l hl
    induction l with
    | nil => rfl
    | cons r l ih =>
      have := hl r (by simp)
      rw [List.map_cons, ih fun x hx => hl x (by simp [hx]), scalarize, if_pos (by unfold Scalar; omega)]
  have s1 : Stripped ([97].map scalarize) [97] := by
    rw [sc _ (by decide)]
    exact ⟨[], [], rfl, by simp, by simp, by simp [Blank], by simp [Blank]⟩
  have s2 : Stripped ([32, 98, 59, 32].map scalarize) [98, 59] := by
    rw [sc _ (by decide)]
    exact ⟨[32], [32], rfl, by simp [Blank], by simp [Blank], by simp [Blank], by simp [Blank]⟩
  have s3 : Stripped ([99].map scalarize) [99] := by
    rw [sc _ (by decide)]
    exact ⟨[], [], rfl, by simp, by simp, by simp [Blank], by simp [Blank]⟩
  exact ⟨_, .more (ks := [97]) (.cons (.edit (.inl rfl)) .nil) (.enter (.inl rfl) nofun) s1 (by decide) (by unfold Final; decide)
    (.command (pend := [[97]]) (t := [98, 59]) (ks := [32, 98, 59, 32])
      (.cons (.edit (.inl rfl)) (.cons (.edit (.inl rfl)) (.cons (.edit (.inl rfl)) (.cons (.edit (.inl rfl)) .nil)))) (.enter (.inl rfl) nofun) s2 rfl
      (by decide)
      (.more (ks := [99]) (.cons (.edit (.inl rfl)) .nil) (.enter (.inl rfl) nofun) s3 (by decide) (by unfold Final; decide)
        (.stop (ks := []) .nil (.eof rfl) (by simp))))⟩

/-- The last line of a command need not be entered on the last page.  With "b;" in the file: "a", Enter, Ctrl-P, Enter.  The program prints
"a b;", but what it records is "b;". -/
theorem C92_false_recall : ((multiline c92 20 3 [] (Op.init prompt1 true 80 (Hist.start c92.h (fileOf [[98, 59]])) [97, 13, 16, 13, 4])).map
    fun r => (r.1, r.2.1, r.2.2.hist.disk)) = .ok ([[97, 32, 98, 59]], true, fileOf [[98, 59], [98, 59]]) := by decide +kernel

end RL
