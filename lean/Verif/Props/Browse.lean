import Verif.Spec.Book
import Verif.Props.Record
import Verif.Props.Operation
import Verif.Props.HistFile
import Verif.Props.Search
/-! # C67: a session behaves like a notebook -/

namespace RL
open Spec RB Ed Hist

theorem showItem_update {h : Hist} {x : Nat} (hc : h.current = some x) (cfg : HCfg) (s : List Rune) :
    (h.update cfg s false).showItem = fun y => if y = x then s else h.showItem y := by
  obtain ⟨_, k2, k3, _⟩ := update_false_order hc cfg s
  funext y
  by_cases hy : y = x
  · simp [showItem, k2, k3, hy]
  · simp [showItem, k2, k3, hy]

theorem map_set_of_nodup {l : List Nat} (hn : l.Nodup) {f : Nat → List Rune} {i x : Nat} (hx : l[i]? = some x) (s : List Rune) :
    l.map (fun y => if y = x then s else f y) = (l.map f).set i s := by
  induction l generalizing i with
  | nil => simp at hx
  | cons a l ih =>
    obtain ⟨h1, h2⟩ := List.nodup_cons.1 hn
    cases i with
    | zero =>
      simp only [List.getElem?_cons_zero, Option.some.injEq] at hx
      subst hx
      simp only [List.map_cons, List.set_cons_zero, if_pos]
      congr 1
      apply List.map_congr_left
      intro y hy
      rw [if_neg]
      rintro rfl
      exact h1 hy
    | succ i =>
      simp only [List.getElem?_cons_succ] at hx
      have hne : a ≠ x := by
        rintro rfl
        exact h1 (List.mem_of_getElem? hx)
      simp only [List.map_cons, List.set_cons_succ, if_neg hne]
      rw [ih h2 hx]

/-- The history file: its contents and the state of the handle. -/
def Hist.file (h : Hist) : List Nat × Fd := (h.disk, h.fd)

theorem update_file (h : Hist) (cfg : HCfg) (s : List Rune) : (h.update cfg s false).file = h.file := by
  unfold Hist.update
  cases h.current <;> rfl

theorem commit_fd {cfg : HCfg} {h h1 : Hist} {s : List Rune} (e : h.commit cfg s = .ok h1) : h1.fd = h.fd := by
  have upd : ∀ (g : Hist) (t), (g.update cfg t true).fd = g.fd := by
    intro g t
    unfold Hist.update
    cases g.current with
    | none => rfl
    | some c =>
      dsimp only
      rw [if_pos rfl]
      split <;> rfl
  unfold Hist.commit at e
  dsimp only at e
  split at e
  · split at e
    · cases e
    · rw [R.bind_ok] at e
      cases e
      exact upd _ _
  · rw [R.bind_ok] at e
    cases e
    exact upd _ _

theorem new_fd {cfg : HCfg} {h h1 : Hist} {s : List Rune} (e : h.new cfg s = .ok h1) : h1.fd = h.fd := by
  unfold Hist.new at e
  split at e
  · cases e; rfl
  split at e
  · refine (commit_fd e).trans ?_
    split <;> rfl
  · split at e
    · cases e; rfl
    split at e
    · cases e; rfl
    · exact commit_fd e

/-- What the history shows is the book, except for the line.  A single page cannot be left and come back to, so its text
does not matter. -/
structure Hist.Shows (h : Hist) (b : Book) : Prop where
  stored : h.entries = b.stored
  length : b.pages.length = h.order.length
  pages : h.order.length ≠ 1 → h.order.map h.showItem = b.pages
  pos : b.pages ≠ [] → ∃ x, h.current = some x ∧ h.order[b.pos]? = some x
  empty : b.pages = [] → h.current = none
  rest : ∀ x, h.back = some x → (h.elems x).source = b.rest

/-- The open page is not torn out at the next key. -/
def Fits (limit : Int) (b : Book) : Prop :=
  b.pages.length ≤ limit.toNat ∨ (b.pages.length = limit.toNat + 1 ∧ b.pos = limit.toNat ∧ 2 ≤ limit)

theorem getElem?_keepNewest {α} {n : Int} {l : List α} {i : Nat} (h : l.length - n.toNat ≤ i) :
    (keepNewest n l)[i - (l.length - n.toNat)]? = l[i]? := by
  unfold keepNewest
  rw [List.getElem?_drop]
  congr 1
  omega

theorem Hist.Shows.note {cfg : HCfg} (hl : 0 < cfg.limit) {h : Hist} (w : h.WF) {b : Book} (s : h.Shows b)
    (hk : b.pages.length - cfg.limit.toNat ≤ b.pos) :
    (h.update cfg b.line.text false).Shows (b.note cfg.limit) ∧ (b.note cfg.limit).pages ≠ [] ∧
      (b.note cfg.limit).pages.length ≤ cfg.limit.toNat := by
  by_cases hp : b.pages = []
  · have hc := s.empty hp
    have ho := w.cur_none hc
    have hu : h.update cfg b.line.text false = (h.push b.line.text).compact cfg := by simp [Hist.update, hc]
    have hord : ((h.push b.line.text).compact cfg).order = [h.next] := by
      simp only [compact, compactList_eq, push, ho, List.nil_append]
      exact keepNewest_self (by simp; omega)
    have hst : b.stored = [] := by rw [← s.stored, Hist.entries, ho]; rfl
    rw [hu, Book.note, if_pos hp]
    refine ⟨⟨?_, by rw [hord]; rfl, fun a => (a (by rw [hord]; rfl)).elim, fun _ => ⟨h.next, rfl, by rw [hord]; rfl⟩, fun a => by simp at a, fun x hx => ?_⟩, by simp, by simp; omega⟩
    · rw [Hist.entries, hord, hst]; rfl
    · rw [Hist.back, hord] at hx
      cases hx
      simp [compact, push, setItem]
  · obtain ⟨x, hc, hx⟩ := s.pos hp
    obtain ⟨k1, k2, k3, k4⟩ := update_false_order hc cfg b.line.text
    have hlen := s.length
    rw [Book.note, if_neg hp]
    have hsrc : ∀ y, ((h.update cfg b.line.text false).elems y).source = (h.elems y).source := by
      intro y
      rw [k2]
      by_cases hy : y = x
      · simp [hy]
      · simp [hy]
    have hne : (keepNewest cfg.limit h.order) ≠ [] := by
      intro a
      have := congrArg List.length a
      rw [keepNewest, List.length_drop] at this
      have h0 : b.pages.length ≠ 0 := fun a => hp (List.length_eq_zero_iff.1 a)
      simp at this
      omega
    have hkl : (keepNewest cfg.limit (b.pages.set b.pos b.line.text)).length = (keepNewest cfg.limit h.order).length := by
      simp [keepNewest, hlen]
    have hne' : keepNewest cfg.limit (b.pages.set b.pos b.line.text) ≠ [] := by
      intro a
      rw [a] at hkl
      exact hne (List.length_eq_zero_iff.1 hkl.symm)
    refine ⟨⟨?_, by rw [k1]; exact hkl, ?_, fun _ => ⟨x, k4, ?_⟩, fun a => (hne' a).elim, fun y hy => ?_⟩, hne', ?_⟩
    · unfold Hist.entries
      rw [k1, keepNewest_dropLast hl, keepNewest_map]
      congr 1
      rw [← s.stored, Hist.entries]
      exact List.map_congr_left fun y _ => hsrc y
    · rw [k1]
      intro a
      rw [showItem_update hc, keepNewest_map, map_set_of_nodup w.nodup hx, s.pages]
      intro e
      apply a
      rw [keepNewest_self (by omega), e]
    · rw [k1]
      show (keepNewest cfg.limit h.order)[b.pos - (b.pages.length - cfg.limit.toNat)]? = some x
      rw [hlen, getElem?_keepNewest (by omega)]
      exact hx
    · rw [hsrc]
      apply s.rest
      rw [Hist.back, k1] at hy
      rw [Hist.back, ← hy]
      rcases List.eq_nil_or_concat h.order with e | ⟨l', z, e⟩
      · rw [e]; simp [keepNewest]
      · rw [e, List.concat_eq_append, keepNewest_newest hl]; simp
    · exact keepNewest_length _ _

theorem elemPrev_getElem? {h : Hist} (w : h.WF) {i x : Nat} (hx : h.order[i]? = some x) :
    h.elemPrev x = if i = 0 then none else h.order[i - 1]? := by
  obtain ⟨hi, e⟩ := List.getElem?_eq_some_iff.1 hx
  have hsp : h.order = h.order.take i ++ x :: h.order.drop (i + 1) := by
    conv => lhs; rw [← List.take_append_drop i h.order, List.drop_eq_getElem_cons hi, e]
  have hnm : x ∉ h.order.take i := by
    have hn := w.nodup
    rw [hsp] at hn
    intro a
    exact (List.nodup_append.1 hn).2.2 _ a _ (by simp) rfl
  unfold elemPrev
  have : backChain x h.order [] = (h.order.take i).reverse := by
    conv => lhs; rw [hsp]
    rw [backChain_append hnm, List.append_nil]
  rw [this, List.head?_reverse, List.getLast?_eq_getElem?]
  simp only [List.length_take, Nat.min_eq_left (Nat.le_of_lt hi)]
  split
  · next h0 => subst h0; simp
  · next h0 => rw [List.getElem?_take, if_pos (by omega)]

theorem elemNext_getElem? {h : Hist} (w : h.WF) {i x : Nat} (hx : h.order[i]? = some x) : h.elemNext x = h.order[i + 1]? := by
  obtain ⟨hi, e⟩ := List.getElem?_eq_some_iff.1 hx
  have hsp : h.order = h.order.take i ++ x :: h.order.drop (i + 1) := by
    conv => lhs; rw [← List.take_append_drop i h.order, List.drop_eq_getElem_cons hi, e]
  have hnm : x ∉ h.order.take i := by
    have hn := w.nodup
    rw [hsp] at hn
    intro a
    exact (List.nodup_append.1 hn).2.2 _ a _ (by simp) rfl
  unfold elemNext
  have : fwdChain x h.order = h.order.drop (i + 1) := by
    conv => lhs; rw [hsp]
    rw [fwdChain_append hnm]
  rw [this, List.head?_eq_getElem?, List.getElem?_drop]

/-- Opening another page. -/
theorem Hist.Shows.at {h : Hist} {b : Book} (s : h.Shows b) {i p : Nat} (hp : h.order[i]? = some p) (z : Line) :
    ({ h with current := some p } : Hist).Shows { b with pos := i, line := z } :=
  ⟨s.stored, s.length, s.pages, fun _ => ⟨p, rfl, hp⟩, fun a => by
    have := s.length
    rw [show b.pages = [] from a] at this
    rw [List.eq_nil_of_length_eq_zero this.symm] at hp
    simp at hp, s.rest⟩

theorem Hist.Shows.page {h : Hist} {b : Book} (s : h.Shows b) (h1 : h.order.length ≠ 1) (i : Nat) :
    b.pages[i]? = (h.order[i]?).map h.showItem := by
  rw [← s.pages h1, List.getElem?_map]

theorem Hist.Shows.older {h : Hist} (w : h.WF) {b : Book} (s : h.Shows b) :
    (∃ t h', h.prev = (some t, h') ∧ h'.Shows b.older ∧ b.older.line = b.line.setText t) ∨ (h.prev = (none, h) ∧ b.older = b) := by
  by_cases hp : b.pages = []
  · right
    have hc := s.empty hp
    refine ⟨by unfold Hist.prev; rw [hc], ?_⟩
    unfold Book.older Book.turn
    simp [hp]
  · obtain ⟨x, hc, hx⟩ := s.pos hp
    have he := elemPrev_getElem? w hx
    unfold Hist.prev Book.older
    rw [hc]
    dsimp only
    rw [he]
    by_cases h0 : b.pos = 0
    · right; simp [h0]
    · rw [if_neg h0, if_neg h0]
      have hlt := (List.getElem?_eq_some_iff.1 hx).1
      have hq : h.order[b.pos - 1]? = some h.order[b.pos - 1] := List.getElem?_eq_getElem (by omega)
      left
      rw [hq]
      refine ⟨_, _, rfl, ?_⟩
      unfold Book.turn
      rw [s.page (by omega), hq]
      exact ⟨s.at hq _, rfl⟩

theorem Hist.Shows.newer {h : Hist} (w : h.WF) {b : Book} (s : h.Shows b) :
    (∃ t h', h.nextLine = (some t, h') ∧ h'.Shows b.newer ∧ b.newer.line = b.line.setText t) ∨ (h.nextLine = (none, h) ∧ b.newer = b) := by
  by_cases hp : b.pages = []
  · right
    have hc := s.empty hp
    refine ⟨by unfold Hist.nextLine; rw [hc], ?_⟩
    unfold Book.newer Book.turn
    simp [hp]
  · obtain ⟨x, hc, hx⟩ := s.pos hp
    have he := elemNext_getElem? w hx
    unfold Hist.nextLine Book.newer Book.turn
    rw [hc]
    dsimp only
    rw [he]
    cases hq : h.order[b.pos + 1]? with
    | none =>
      right
      have := List.getElem?_eq_none_iff.1 hq
      rw [List.getElem?_eq_none (by rw [s.length]; exact this)]
      exact ⟨rfl, rfl⟩
    | some p =>
      left
      have := (List.getElem?_eq_some_iff.1 hq).1
      rw [s.page (by omega), hq]
      exact ⟨_, _, rfl, s.at hq _, rfl⟩


theorem update_enable (h : Hist) (cfg : HCfg) (s : List Rune) (b : Bool) : (h.update cfg s b).enable = h.enable := by
  unfold Hist.update
  cases h.current with
  | none => rfl
  | some c =>
    dsimp only
    split
    · split <;> rfl
    · rfl

theorem new_state {cfg : HCfg} {h h1 : Hist} (w : h.WF) (hen : h.enable = true) {s : List Rune} (e : h.new cfg s = .ok h1) :
    h1.WF ∧ h1.enable = true ∧ (∀ x ∈ h1.order, h1.showItem x = (h1.elems x).source) ∧
      ∃ x, h1.current = some x ∧ h1.back = some x ∧ (h1.elems x).source = [] := by
  obtain ⟨h2, e2, w2⟩ := new_ok w cfg s
  rw [e, Except.ok.injEq] at e2
  subst e2
  refine ⟨w2, ?_, (C21_edits cfg h w).2.2.2 hen s h1 e, ?_⟩
  · have hcm : ∀ {h0 : Hist} {s}, h0.enable = true → h0.commit cfg s = .ok h1 → h1.enable = true := by
      intro h0 s hen e
      unfold Hist.commit at e
      dsimp only at e
      split at e
      · split at e
        · cases e
        · cases e; exact (update_enable _ _ _ _).trans hen
      · cases e; exact (update_enable _ _ _ _).trans hen
    unfold Hist.new at e
    rw [if_neg (by simp [hen])] at e
    cases hb : h.back with
    | none =>
      rw [hb] at e
      refine hcm ?_ e
      split <;> exact hen
    | some b =>
      rw [hb] at e
      dsimp only at e
      split at e
      · cases e; exact hen
      split at e
      · cases e; exact hen
      · exact hcm hen e
  · have hps : ∀ g : Hist, ∃ x, (g.push []).current = some x ∧ (g.push []).back = some x ∧ ((g.push []).elems x).source = [] := by
      intro g
      exact ⟨g.next, rfl, by simp [push, back], by simp [push, setItem]⟩
    have hcm : ∀ {h0 : Hist} {s}, h0.commit cfg s = .ok h1 →
        ∃ x, h1.current = some x ∧ h1.back = some x ∧ (h1.elems x).source = [] := by
      intro h0 s e
      unfold Hist.commit at e
      dsimp only at e
      split at e
      · split at e
        · cases e
        · cases e; exact hps _
      · cases e; exact hps _
    unfold Hist.new at e
    rw [if_neg (by simp [hen])] at e
    cases hb : h.back with
    | none => rw [hb] at e; exact hcm e
    | some b =>
      rw [hb] at e
      dsimp only at e
      have hcl : ∃ x, (h.cleanBack b).current = some x ∧ (h.cleanBack b).back = some x ∧ ((h.cleanBack b).elems x).source = [] :=
        ⟨b, rfl, hb, by simp [cleanBack, setItem, Item.clean]⟩
      split at e
      · cases e; exact hcl
      split at e
      · cases e; exact hcl
      · exact hcm e

/-- The book after a line has been saved, whatever was recorded. -/
theorem Hist.Shows.saved {cfg : HCfg} (hl : 0 < cfg.limit) {h : Hist} (w : h.WF) (hen : h.enable = true) {t : List Rune}
    {h1 : Hist} (e : h.new cfg t = .ok h1) {es : List (List Rune)} (r1 : (h1.update cfg [] false).entries = es) (z : Line) :
    (h1.update cfg [] false).Shows { stored := es, rest := [], pages := es ++ [[]], pos := es.length, line := z } ∧
      (h1.update cfg [] false).enable = true := by
  obtain ⟨w1, en1, sh1, x, c1, b1, s1⟩ := new_state w hen e
  obtain ⟨k1, k2, k3, k4⟩ := update_false_order c1 cfg []
  have hord : (h1.update cfg [] false).order = (h1.update cfg [] false).order.dropLast ++ [x] := by
    rw [Hist.back, List.getLast?_eq_some_iff] at b1
    obtain ⟨l, hl'⟩ := b1
    have : (keepNewest cfg.limit (l ++ [x])).getLast? = some x := keepNewest_newest hl l x
    rw [← hl', ← k1, List.getLast?_eq_some_iff] at this
    obtain ⟨l2, hl2⟩ := this
    rw [hl2]; simp
  have hx : x ∉ (h1.update cfg [] false).order.dropLast := by
    have := (update_WF w1 cfg [] false).nodup
    rw [hord] at this
    intro a
    exact (List.nodup_append.1 this).2.2 _ a _ (by simp) rfl
  have hpages : (h1.update cfg [] false).order.map (h1.update cfg [] false).showItem = es ++ [[]] := by
    conv => lhs; rw [hord]
    rw [List.map_append, ← r1, Hist.entries]
    congr 1
    · apply List.map_congr_left
      intro y hy
      have hyx : y ≠ x := fun a => hx (a ▸ hy)
      rw [showItem_update c1, k2]
      dsimp only
      rw [if_neg hyx, if_neg hyx, sh1]
      have := List.dropLast_subset _ hy
      rw [k1] at this
      exact (keepNewest_suffix _ _).subset this
    · rw [showItem_update c1]; simp
  refine ⟨⟨r1, by rw [← hpages, List.length_map], fun _ => hpages, fun _ => ⟨x, k4, ?_⟩, fun a => ?_, fun y hy => ?_⟩,
    (update_enable _ _ _ _).trans en1⟩
  · show _[es.length]? = _
    have hlen := congrArg List.length r1
    rw [Hist.entries, List.length_map] at hlen
    rw [← hlen]
    conv => lhs; rw [hord]
    simp
  · simp at a
  · have : y = x := by
      rw [Hist.back, hord] at hy
      simpa using hy.symm
    subst this
    rw [k2]
    dsimp only
    rw [if_pos rfl]
    exact s1

/-- The book after a recorded line. -/
theorem Hist.Shows.submit {cfg : HCfg} (hl : 0 < cfg.limit) {h : Hist} (w : h.WF) (hen : h.enable = true) {b : Book} (s : h.Shows b)
    (hno : h.Noted b.line.text) (hne : b.pages ≠ [] ∨ b.line.text ≠ []) {h1 : Hist} (e : h.new cfg b.line.text = .ok h1) :
    (h1.update cfg [] false).Shows (b.submit true cfg.limit) ∧ (h1.update cfg [] false).enable = true := by
  have ho : h.order ≠ [] ∨ b.line.text ≠ [] := by
    refine hne.imp_left fun a c => a ?_
    have := s.length
    rw [c] at this
    exact List.length_eq_zero_iff.1 this
  obtain ⟨r1, _⟩ := Hist.record_noted hl w hen hno ho e
  rw [s.stored] at r1
  exact Hist.Shows.saved hl w hen e r1 _

/-- The book after all changes are dropped. -/
theorem Hist.Shows.cancel {h h' : Hist} {b : Book} (s : h.Shows b) (r : Op.Reverted h h') : h'.Shows b.cancel := by
  have hl := s.length
  have hb : h'.back = h.back := by unfold Hist.back; rw [r.order]
  have hent : h'.entries = h.entries := by unfold Hist.entries; rw [r.order, r.elems]
  by_cases hp : b.pages = []
  · rw [hp] at hl
    have ho := List.eq_nil_of_length_eq_zero hl.symm
    refine ⟨hent.trans s.stored, ?_, fun _ => ?_, fun a => ?_, fun _ => ?_, fun x hx => ?_⟩
    · rw [r.order, ho]; simp [Book.cancel, hp]
    · rw [r.order, ho]; simp [Book.cancel, hp]
    · simp [Book.cancel, hp] at a
    · rw [r.current, hb, Hist.back, ho]; rfl
    · rw [hb, Hist.back, ho] at hx; cases hx
  · have ho : h.order ≠ [] := fun a => hp (by rw [a] at hl; exact List.length_eq_zero_iff.1 hl)
    obtain ⟨l, x, hlx⟩ := List.eq_nil_or_concat h.order |>.resolve_left ho
    rw [List.concat_eq_append] at hlx
    have hbx : h.back = some x := by rw [Hist.back, hlx]; simp
    have hst : b.stored = l.map fun i => (h.elems i).source := by rw [← s.stored, Hist.entries, hlx]; simp
    have hpg : h'.order.map h'.showItem = b.cancel.pages := by
      simp only [Book.cancel, hp, if_false]
      rw [r.order, hlx, List.map_append, hst, List.map_congr_left (fun y _ => r.shown y)]
      congr 1
      show [_] = [_]
      rw [r.shown, s.rest x hbx]
    refine ⟨hent.trans s.stored, by rw [← hpg, List.length_map], fun _ => hpg, fun _ => ⟨x, by rw [r.current, hb, hbx], ?_⟩, fun a => ?_, fun y hy => ?_⟩
    · show h'.order[b.stored.length]? = _
      rw [r.order, hlx, hst]; simp
    · simp [Book.cancel, hp] at a
    · rw [r.elems]; rw [hb] at hy; exact s.rest y hy


/-- What a session shows is the book. -/
structure Op.Shows (c : OCfg) (o : Op) (b : Book) : Prop where
  hist : o.hist.Shows b
  line : o.rb.toEd.line = b.line
  noted : c.noSave = false → o.hist.Noted b.line.text
  enable : o.hist.enable = true
  fits : Fits c.h.limit b

/-- The same, without the line having been noted. -/
structure Op.Opened (c : OCfg) (o : Op) (b : Book) : Prop where
  hist : o.hist.Shows b
  line : o.rb.toEd.line = b.line
  enable : o.hist.enable = true
  fits : Fits c.h.limit b

theorem Op.Shows.opened {c : OCfg} {o : Op} {b : Book} (h : Op.Shows c o b) : Op.Opened c o b := ⟨h.hist, h.line, h.enable, h.fits⟩

theorem Fits.pos {limit : Int} {b : Book} (h : Fits limit b) : b.pages.length - limit.toNat ≤ b.pos := by
  rcases h with h | h <;> omega

theorem Fits.older {limit : Int} {b : Book} (h : Fits limit b) : b.older.pages.length - limit.toNat ≤ b.older.pos := by
  unfold Book.older Book.turn
  split
  · exact h.pos
  split
  · rcases h with h | h
    · show b.pages.length - _ ≤ _; omega
    · show b.pages.length - _ ≤ b.pos - 1; omega
  · exact h.pos

theorem Fits.newer {limit : Int} {b : Book} (h : Fits limit b) : b.newer.pages.length - limit.toNat ≤ b.newer.pos := by
  unfold Book.newer Book.turn
  split
  · have := h.pos; show b.pages.length - _ ≤ b.pos + 1; omega
  · exact h.pos

theorem Book.note_line (limit : Int) (b : Book) : (b.note limit).line = b.line := by
  unfold Book.note; split <;> rfl

namespace Op
variable {c : OCfg}

/-- Noting the line. -/
theorem Shows.note (hl : 0 < c.h.limit) {o : Op} (q : Quiet c o) {b : Book} (hs : o.hist.Shows b) (hline : o.rb.toEd.line = b.line)
    (hen : o.hist.enable = true) (hk : b.pages.length - c.h.limit.toNat ≤ b.pos) :
    Shows c (o.updateHistory c) (b.note c.h.limit) := by
  obtain ⟨n1, n2, n3⟩ := hs.note hl q.base.hist hk
  have ht : o.rb.buf = b.line.text := by rw [← hline, Ed.line_text]
  have hh : (o.updateHistory c).hist = o.hist.update c.h b.line.text false := by show o.hist.update c.h o.rb.buf false = _; rw [ht]
  refine ⟨by rw [hh]; exact n1, by rw [Book.note_line]; exact hline, fun _ => ?_, by rw [hh, update_enable]; exact hen, .inl n3⟩
  rw [hh, Book.note_line]
  exact Hist.update_noted hl _ _

/-- A key of the book, in the key switch. -/
theorem dispatch_book (hp : Plain c) (hl : 0 < c.h.limit) {o : Op} (h : Quiet c o) {b b' : Book} (hs : Opened c o b) {r : Rune}
    (hb : BookKey c.h.limit r b b') :
    ∃ o', o.dispatch c r = .ok o' ∧ Quiet c o' ∧ o'.gate = o.gate ∧ (stopKey r = true → o'.kick = true) ∧ r ≠ 0 ∧ r ≠ CharEsc ∧
      o'.inp = o.inp ∧ o'.events = o.events ∧ o'.stopped = o.stopped ∧ o'.vimNormal = o.vimNormal ∧ o'.hist.file = o.hist.file ∧
      Shows c o' b' := by
  -- moving to another page
  have move : ∀ {f : Op → R KeyRes} {g : Hist → Option (List Rune) × Hist} {b1 : Book},
      (∀ o, o.key c r = f o) → (∀ o, f o = match g o.hist with
        | (some b, h) => (do let o ← edit c (.set b) { o with hist := h }; .ok { op := o })
        | (none, h) => .ok { op := bell { o with hist := h } }) →
      r ≠ 0 → r ≠ CharEsc → stopKey r = false →
      ((∃ t h', g o.hist = (some t, h') ∧ h'.Shows b1 ∧ b1.line = b.line.setText t) ∨ (g o.hist = (none, o.hist) ∧ b1 = b)) →
      (g o.hist).2.WF → (g o.hist).2.enable = o.hist.enable → (g o.hist).2.file = o.hist.file →
      b1.pages.length - c.h.limit.toNat ≤ b1.pos →
      ∃ o', o.dispatch c r = .ok o' ∧ Quiet c o' ∧ o'.gate = o.gate ∧ (stopKey r = true → o'.kick = true) ∧ r ≠ 0 ∧ r ≠ CharEsc ∧
        o'.inp = o.inp ∧ o'.events = o.events ∧ o'.stopped = o.stopped ∧ o'.vimNormal = o.vimNormal ∧ o'.hist.file = o.hist.file ∧
        Shows c o' (b1.note c.h.limit) := by
    intro f g b1 hkey hf h0 hesc hstop hg hw hen hdisk hpos
    have live : ∀ {o1 : Op}, stopKey r = true → o1.kick = true := fun a => by rw [hstop] at a; cases a
    rcases hg with ⟨t, h', e1, e2, e3⟩ | ⟨e1, rfl⟩
    · rw [e1] at hw hen hdisk
      have hq1 : Quiet c { o with hist := h' } :=
        ⟨⟨h.base.rb, hw, h.base.sw, h.base.cw, h.base.col⟩, h.smode, h.marks, h.cmode, h.nosel⟩
      obtain ⟨r1, d1, d2, d3⟩ := hq1.edited (k := .set t) (by simp [Ed.Trigger])
      obtain ⟨z, f1, _, f3⟩ := core_basic (c := .set t) rfl (show o.rb.toEd.CursorIn from h.base.rb.idx)
      have d2 : Cmd.core (.set t) o.rb.toEd = .ok r1.toEd := d2
      rw [f1, Except.ok.injEq] at d2
      have hk : o.key c r = .ok { op := { o with hist := h', rb := r1 } } := by
        rw [hkey, hf, e1]
        dsimp only
        rw [d1]; rfl
      refine ⟨_, by rw [dispatch_quiet hp.listener hk d3]; rfl,
        d3.update, rfl, live, h0, hesc, rfl, rfl, rfl, rfl, (update_file _ _ _).trans hdisk, Shows.note hl d3 e2 ?_ (hen.trans hs.enable) hpos⟩
      show r1.toEd.line = _
      rw [← d2, f3, e3, ← hs.line]
    · have hq1 : Quiet c (bell { o with hist := o.hist }) := h.write _
      have hk : o.key c r = .ok { op := bell { o with hist := o.hist } } := by rw [hkey, hf, e1]
      refine ⟨_, by rw [dispatch_quiet hp.listener hk hq1]; rfl,
        hq1.update, rfl, live, h0, hesc, rfl, rfl, rfl, rfl, update_file _ _ _, Shows.note hl hq1 hs.hist hs.line hs.enable hpos⟩
  cases hb with
  | @edit _ _ z he =>
    obtain ⟨k, e1, e2, e3, e4, e5, e6, e7, e8⟩ := key_edit (c := c) h (r := r) (z := z) (by rw [hs.line]; exact he)
    have hb : ({ b with line := z } : Book).pages.length - c.h.limit.toNat ≤ ({ b with line := z } : Book).pos := hs.fits.pos
    have hz : k.op.hist.Shows { b with line := z } := by
      rw [e3.hist]
      exact ⟨hs.hist.stored, hs.hist.length, hs.hist.pages, hs.hist.pos, hs.hist.empty, hs.hist.rest⟩
    refine ⟨_, by rw [dispatch_quiet hp.listener e1 e3.quiet, e2, if_pos rfl], e3.quiet.update, e3.gate, fun a => e5 (e8 a), e6, e7, e3.inp,
      e3.events, e3.stopped, e3.vimNormal, ?_, Shows.note hl e3.quiet hz e4 (by rw [e3.hist]; exact hs.enable) hb⟩
    exact (update_file _ _ _).trans (by rw [e3.hist])
  | older =>
    refine move (f := keyPrev c) (g := Hist.prev) (fun o => key_prev o) (fun o => rfl) (by decide) (by decide) (by decide) (hs.hist.older h.base.hist)
      (Hist.prev_WF h.base.hist) ?_ ?_ hs.fits.older
    · unfold Hist.prev; split
      · rfl
      · split <;> rfl
    · unfold Hist.prev; split
      · rfl
      · split <;> rfl
  | newer =>
    refine move (f := keyNext c) (g := Hist.nextLine) (fun o => key_next o) (fun o => rfl) (by decide) (by decide) (by decide) (hs.hist.newer h.base.hist)
      (Hist.next_WF h.base.hist) ?_ ?_ hs.fits.newer
    · unfold Hist.nextLine; split
      · rfl
      · split <;> rfl
    · unfold Hist.nextLine; split
      · rfl
      · split <;> rfl

/-- A key of the book. -/
theorem iter_book (hp : Plain c) (hl : 0 < c.h.limit) {o : Op} (h : Quiet c o) (hv : o.Live) (hm : Emacs c o) {b b' : Book}
    (hs : Opened c o b) {r : Rune} {rest : List Rune} (hi : o.inp = r :: rest) (hb : BookKey c.h.limit r b b') :
    ∃ o', o.iter c = .ok o' ∧ Quiet c o' ∧ o'.Live ∧ o'.inp = rest ∧ o'.events = o.events ∧ o'.stopped = o.stopped ∧
      o'.vimNormal = o.vimNormal ∧ o'.hist.file = o.hist.file ∧ Shows c o' b' := by
  obtain ⟨o', e1, e2, e3, e4, e5, e6, e7, e8, e9, e10, e11, e12⟩ := dispatch_book hp hl (h.took r rest) ⟨hs.hist, hs.line, hs.enable, hs.fits⟩ hb
  refine ⟨o', by rw [iter_emacs hv hp.filter hi e5 h.nosel (hm.imp_right fun a => ⟨a, e6⟩)]; exact e1, e2, ?_, e7, e8, e9, e10, e11, e12⟩
  cases hk : stopKey r with
  | false => exact .inl (e3.trans hk)
  | true => exact .inr (e4 hk)

theorem cleared_line {o o' : Op} {b : Book} (hl : o.rb.toEd.line = b.line) (h : o'.rb.toEd = { o.rb.toEd with buf := [], idx := 0 }) :
    o'.rb.toEd.line = b.cleared := by
  rw [h, Book.cleared, ← hl]
  simp [Ed.line]

theorem cancel_fits {limit : Int} {h : Hist} {b : Book} (s : h.Shows b) (hf : Fits limit b) : Fits limit b.cancel := by
  have hl := s.length
  have he := congrArg List.length s.stored
  rw [Hist.entries, List.length_map, List.length_dropLast] at he
  unfold Fits at *
  simp only [Book.cancel]
  by_cases hp : b.pages = []
  · left; rw [if_pos hp]; simp
  · have h0 : b.pages.length ≠ 0 := fun a => hp (List.length_eq_zero_iff.1 a)
    rw [if_neg hp]
    simp only [List.length_append, List.length_singleton]
    rcases hf with hf | hf
    · left; omega
    · right; omega

/-- A key that ends the line. -/
theorem iter_end (hp : Plain c) (hl : 0 < c.h.limit) {o : Op} (h : Quiet c o) (hv : o.Live) (hm : Emacs c o) {b b' : Book}
    (hs : Shows c o b) {r : Rune} {e : Event} {rest : List Rune} (hi : o.inp = r :: rest) (hb : BookEnd (!c.noSave) c.h.limit r b e b') :
    ∃ o', o.iter c = .ok o' ∧ Quiet c o' ∧ o'.inp = rest ∧ o'.events = o.events ++ [e] ∧ o'.stopped = o.stopped ∧ Emacs c o' ∧
      Shows c o' b' ∧ o'.hist.fd = o.hist.fd ∧ (o.hist.fd = .opened → b.pages ≠ [] → o'.hist.disk = o.hist.disk ++ fileOf (added (!c.noSave) b.stored e)) := by
  have ht : o.rb.buf = b.line.text := by rw [← hs.line, Ed.line_text]
  have canc : ∀ {o' : Op}, o'.rb.toEd = { o.rb.toEd with buf := [], idx := 0 } → Reverted o.hist o'.hist → Shows c o' b.cancel ∧ o'.hist.fd = o.hist.fd ∧ o'.hist.disk = o.hist.disk := by
    intro o' e1 e2
    refine ⟨?_, e2.fd, e2.disk⟩
    exact ⟨hs.hist.cancel e2, cleared_line hs.line e1, fun _ => .inl e2.current, e2.enable.trans hs.enable, cancel_fits hs.hist hs.fits⟩
  cases hb with
  | enter hr hne =>
    have hr' : r = CharEnter ∨ r = CharCtrlJ := hr
    obtain ⟨k, e1, e2, e3, e4, e5, e6, e7, e8, e9, e10, e11⟩ := key_submit (h.took r rest) hr'
    obtain ⟨_, hr0, hre⟩ := stopKey_enter hr'
    have hbuf : k.op.rb.buf = [] := by show k.op.rb.toEd.buf = _; rw [e3]
    have hem : k.op.vimNormal = o.vimNormal := e9
    have hit : o.iter c = .ok (if k.update then k.op.updateHistory c else k.op) := by
      rw [iter_emacs hv hp.filter hi hr0 h.nosel (hm.imp_right (fun a => ⟨a, hre⟩)), dispatch_quiet hp.listener e1 e2]
    have hev : k.op.events = o.events ++ [.line b.line.text] := by rw [← ht]; exact e4
    cases hn : c.noSave with
    | false =>
      obtain ⟨u1, u2⟩ := e10 hn
      have u2 : o.hist.new c.h o.rb.buf = .ok k.op.hist := u2
      rw [ht] at u2
      rw [u1, if_pos rfl] at hit
      obtain ⟨s1, s2⟩ := hs.hist.submit hl h.base.hist hs.enable (hs.noted hn) (hne (by rw [hn]; rfl)) u2
      have hh : (k.op.updateHistory c).hist = k.op.hist.update c.h [] false := by show k.op.hist.update c.h k.op.rb.buf false = _; rw [hbuf]
      obtain ⟨_, v2⟩ := Hist.record_noted hl h.base.hist hs.enable (hs.noted hn) ((hne (by rw [hn]; rfl)).imp_left fun a b =>
        a (List.length_eq_zero_iff.1 (by rw [hs.hist.length, b]; rfl))) u2
      refine ⟨_, hit, e2.update, e5, hev, e8, hm.imp_right fun a => hem.trans a, ⟨by rw [hh]; exact s1, cleared_line hs.line e3, fun _ => ?_,
        by rw [hh]; exact s2, .inl ?_⟩, ?_, fun ho hpg => ?_⟩
      · rw [hh]; exact Hist.update_noted hl _ _
      · show (keepNewest (c.h.limit - 1) _ ++ [[]]).length ≤ _
        have := keepNewest_length (c.h.limit - 1) (record b.stored b.line.text)
        simp only [List.length_append, List.length_singleton]
        omega
      · rw [hh]
        exact (congrArg Prod.snd (update_file k.op.hist c.h [])).trans (new_fd u2)
      · rw [hh, v2, hs.hist.stored]
        have hord : o.hist.order ≠ [] := fun a => hpg (List.length_eq_zero_iff.1 (by rw [hs.hist.length, a]; rfl))
        congr 1
        rw [added]
        by_cases hc : b.line.text ≠ [] ∧ b.stored.getLast? ≠ some b.line.text
        · rw [if_pos ⟨hc.1, hc.2, hord, ho⟩, if_pos ⟨rfl, hc⟩]
          simp [fileOf]
        · rw [if_neg fun a => hc ⟨a.1, a.2.1⟩, if_neg fun a => hc a.2]
          rfl
    | true =>
      obtain ⟨u1, u2⟩ := e11 hn
      have u2 : k.op.hist = o.hist := u2
      rw [u1] at hit
      simp only [Bool.false_eq_true, if_false] at hit
      refine ⟨_, hit, e2, e5, hev, e8, hm.imp_right fun a => hem.trans a, ⟨by rw [u2]; exact ⟨hs.hist.stored, hs.hist.length, hs.hist.pages,
        hs.hist.pos, hs.hist.empty, hs.hist.rest⟩, cleared_line hs.line e3, fun a => (by rw [hn] at a; cases a), by rw [u2]; exact hs.enable, hs.fits⟩,
        by rw [u2], fun _ _ => by rw [u2]; simp [added, fileOf]⟩
  | interrupt =>
    obtain ⟨o', e1, e2, e3, e4, e5, e6, e7, e8⟩ := iter_interrupt hp h hv hi
    exact ⟨o', e1, e2, e3, by rw [e5, ht], e6, e7, (canc e4 e8).1, (canc e4 e8).2.1, fun _ _ => by rw [(canc e4 e8).2.2]; simp [added, fileOf]⟩
  | eof h0 =>
    obtain ⟨o', e1, e2, e3, e4, e5, e6, e7, e8⟩ := iter_eof hp h hv hm hi (by rw [ht]; exact h0)
    exact ⟨o', e1, e2, e3, e5, e6, hm.imp_right fun a => e7.trans a, (canc e4 e8).1, (canc e4 e8).2.1, fun _ _ => by rw [(canc e4 e8).2.2]; simp [added, fileOf]⟩

theorem await_book (hp : Plain c) (hl : 0 < c.h.limit) {keys : List Rune} {b b' : Book} (hk : BookKeys c.h.limit keys b b') :
    ∀ {o : Op} {rest : List Rune}, Ready c o → o.Live → o.inp = keys ++ rest → Shows c o b →
    ∃ o', (∀ n, await c (n + keys.length) o = await c n o') ∧ Ready c o' ∧ o'.Live ∧ o'.inp = rest ∧ Shows c o' b' ∧ o'.hist.file = o.hist.file := by
  induction hk with
  | nil => intro o rest h hv hi hs; exact ⟨o, fun _ => rfl, h, hv, hi, hs, rfl⟩
  | @cons r ks b b1 b2 hr _ ih =>
    intro o rest h hv hi hs
    obtain ⟨o1, e1, e2, e3, e4, e5, e6, e7, e9, e8⟩ := iter_book hp hl h.quiet hv h.emacs hs.opened (rest := ks ++ rest) hi hr
    obtain ⟨o', f1, f2, f3, f4, f5, f6⟩ := ih (o := o1) (rest := rest) ⟨e2, h.emacs.imp_right (fun a => e7.trans a), e5.trans h.events, e6.trans h.running⟩ e3 e4 e8
    refine ⟨o', fun n => ?_, f2, f3, f4, f5, f6.trans e9⟩
    show await c (n + ks.length + 1) o = _
    rw [await_step h.events h.running e1, f1]

end Op

/-- C67, one call: edit, browse and edit again with any keys, then press Enter, Ctrl-C, or Ctrl-D on an empty line.
`Readline` returns what the notebook says, and the session then shows the next state of the notebook; a recorded line has been
appended to the history file. -/
theorem C67_readline {c : OCfg} (hp : Op.Plain c) (hl : 0 < c.h.limit) {o : Op} (h : Ready c o) {b b1 b2 : Book} (hs : Op.Shows c o b)
    {keys rest : List Rune} {r : Rune} {e : Event} (hi : o.inp = keys ++ r :: rest) (hk : BookKeys c.h.limit keys b b1)
    (hr : BookEnd (!c.noSave) c.h.limit r b1 e b2) {fuel : Nat} (hf : keys.length < fuel) :
    ∃ o', o.readline c fuel = .ok (e, o') ∧ Ready c o' ∧ o'.inp = rest ∧ Op.Shows c o' b2 ∧ o'.hist.fd = o.hist.fd ∧
      (o.hist.fd = .opened → b1.pages ≠ [] → o'.hist.disk = o.hist.disk ++ fileOf (added (!c.noSave) b1.stored e)) := by
  obtain ⟨o1, a1, a2, a3, a4, a5, a6, a7, a8, a9⟩ := Op.readline_start h
  have hs1 : Op.Shows c o1 b := ⟨by rw [a6]; exact hs.hist, by rw [a4]; exact hs.line, by rw [a6]; exact hs.noted, by rw [a6]; exact hs.enable, hs.fits⟩
  obtain ⟨o2, b1, b2, b3, b4, b5, b6⟩ := Op.await_book hp hl hk a2 a3 (a5.trans hi) hs1
  obtain ⟨o3, d1, d2, d3, d4, d5, d6, d7, d8, d9⟩ := Op.iter_end hp hl b2.quiet b3 b2.emacs b5 b4 hr
  rw [b2.events] at d4
  obtain ⟨m, rfl⟩ : ∃ m, fuel = (m + 1) + keys.length := ⟨fuel - keys.length - 1, by omega⟩
  refine ⟨{ o3 with events := [] }, ?_, ⟨d2.events _, d6, rfl, d5.trans b2.running⟩, d3, ⟨d7.hist, d7.line, d7.noted, d7.enable, d7.fits⟩,
    d8.trans ((congrArg Prod.snd b6).trans (by rw [a6]; rfl)), fun x y => ?_⟩
  · rw [a1, b1, Op.await_step b2.events b2.running d1, Op.await_done d4]
  · have g1 : o2.hist.disk = o.hist.disk := (congrArg Prod.fst b6).trans (by rw [a6]; rfl)
    have g2 : o2.hist.fd = o.hist.fd := (congrArg Prod.snd b6).trans (by rw [a6]; rfl)
    rw [← g1]
    exact d9 (g2.trans x) y

/-- C67.  For a whole session with the editing keys, Ctrl-P, Ctrl-N, Enter, Ctrl-C and Ctrl-D: the calls of `Readline` return
what the notebook says, and the entries then stored, the line and the page shown are those of the notebook. -/
theorem C67_session {c : OCfg} (hp : Op.Plain c) (hl : 0 < c.h.limit) {keys : List Rune} {b b' : Book} {es : List Event}
    (hr : BookRun (!c.noSave) c.h.limit keys b es b') :
    ∀ {o : Op} {rest : List Rune}, Ready c o → Op.Shows c o b → o.inp = keys ++ rest → ∀ {fuel : Nat}, keys.length < fuel →
    ∃ o', calls c fuel es.length o = .ok es ∧ after c fuel es.length o = .ok o' ∧ Ready c o' ∧ o'.inp = rest ∧ Op.Shows c o' b' := by
  induction hr with
  | done => intro o rest h hs hi fuel _; exact ⟨o, rfl, rfl, h, hi, hs⟩
  | @call ks r keys b b1 b2 b3 e es hk he _ ih =>
    intro o rest h hs hi fuel hf
    simp only [List.length_append, List.length_cons] at hf
    obtain ⟨o1, e1, e2, e3, e4, _⟩ := C67_readline hp hl h hs (rest := keys ++ rest) (by rw [hi]; simp) hk he (fuel := fuel) (by omega)
    obtain ⟨o2, f1, f2, f3⟩ := ih e2 e4 e3 (fuel := fuel) (by omega)
    refine ⟨o2, ?_, ?_, f3⟩
    · show (o.readline c fuel >>= fun p => calls c fuel es.length p.2 >>= fun l => .ok (p.1 :: l)) = _
      rw [e1, R.bind_ok]
      dsimp only
      rw [f1]; rfl
    · show (o.readline c fuel >>= fun p => after c fuel es.length p.2) = _
      rw [e1, R.bind_ok]
      exact f2


/-- A new session without history file shows the empty book. -/
theorem C67_start (c : OCfg) (prompt : List Rune) (w : Int) (disk : List Nat) (keys : List Rune) :
    Op.Shows c (Op.init prompt true w (Hist.fresh disk) keys) Book.empty :=
  ⟨⟨rfl, rfl, fun _ => rfl, fun h => (h rfl).elim, fun _ => rfl, fun x h => by cases h⟩, rfl, fun _ => .inl rfl, rfl, .inl (Nat.zero_le _)⟩

theorem loadLines_versions (cfg : HCfg) (ls : List (List Nat)) (h : Hist) (hv : ∀ i, (h.elems i).version = 0) :
    ∀ i, ((loadLines cfg ls h).elems i).version = 0 := by
  induction ls generalizing h with
  | nil => exact hv
  | cons l ls ih =>
    unfold loadLines
    split
    · exact ih h hv
    · refine ih _ fun i => ?_
      simp only [compact, push, setItem]
      split
      · rfl
      · exact hv i

/-- A new session on a history file with the given entries shows the book of the newest ones. -/
theorem C67_start_file {c : OCfg} (hl : 2 ≤ c.h.limit) (hf : c.h.hasFile = true) (ho : c.h.openOK = true) (prompt : List Rune) (w : Int)
    {es : List (List Rune)} (hes : ∀ e ∈ es, Storable e) (keys : List Rune) :
    Op.Shows c (Op.init prompt true w (Hist.start c.h (fileOf es)) keys) (Book.opened (keepNewest c.h.limit es)) := by
  obtain ⟨s1, _, s3, _, s5, s6, s7⟩ := start_spec c.h (fileOf es) hf ho
  have ht : fileTexts (fileOf es) = es := by
    have := fileTexts_storable hes []
    rw [List.append_nil] at this
    rw [this]; simp [fileTexts, termLines]
  rw [ht] at s1
  have hver : (∀ i, ((Hist.start c.h (fileOf es)).elems i).version = 0) ∧ (Hist.start c.h (fileOf es)).ver = 1 ∧
      ∀ x, (Hist.start c.h (fileOf es)).back = some x → ((Hist.start c.h (fileOf es)).elems x).source = [] := by
    have w0 : ({ fresh (fileOf es) with fd := Fd.opened } : Hist).WF := { fresh_WF (fileOf es) with }
    obtain ⟨_, _, _, _, k5⟩ := loadLines_texts c.h (termLines [] (fileOf es)) { fresh (fileOf es) with fd := .opened } w0 (by simp [fresh])
    have kv := loadLines_versions c.h (termLines [] (fileOf es)) { fresh (fileOf es) with fd := .opened } (fun _ => rfl)
    have rw1 : ∀ g : Hist, (g.rewrite c.h).elems = g.elems ∧ (g.rewrite c.h).ver = g.ver := by
      intro g; unfold rewrite; split <;> exact ⟨rfl, rfl⟩
    have fin : ∀ g : Hist, (∀ i, (g.elems i).version = 0) → g.ver = 0 →
        (∀ i, ((({ g with ver := g.ver + 1 } : Hist).push []).elems i).version = 0) ∧ (({ g with ver := g.ver + 1 } : Hist).push []).ver = 1 ∧
        ∀ x, (({ g with ver := g.ver + 1 } : Hist).push []).back = some x → ((({ g with ver := g.ver + 1 } : Hist).push []).elems x).source = [] := by
      intro g h1 h2
      refine ⟨fun i => ?_, ?_, fun x hx => ?_⟩
      · simp only [push, setItem]
        split
        · rfl
        · exact h1 i
      · show g.ver + 1 = 1
        rw [h2]
      · have : x = g.next := by simpa [push, back] using hx.symm
        subst this
        simp [push, setItem]
    unfold start init
    rw [if_neg (by simp [fresh]), if_pos hf]
    unfold updatePath
    rw [if_neg (by simp [ho])]
    dsimp only
    split
    · exact fin _ (by rw [(rw1 _).1]; exact kv) (by rw [(rw1 _).2]; exact k5)
    · exact fin _ kv k5
  have hsh : ∀ x, (Hist.start c.h (fileOf es)).showItem x = ((Hist.start c.h (fileOf es)).elems x).source := by
    intro x
    unfold showItem
    rw [hver.1, hver.2.1, if_neg (by decide)]
  show Op.Shows c { (Op.init prompt true w (Hist.start c.h (fileOf es)) keys) with hist := Hist.start c.h (fileOf es) } _
  generalize Hist.start c.h (fileOf es) = h at *
  obtain ⟨l, x, hlx⟩ := List.eq_nil_or_concat h.order |>.resolve_left s7
  rw [List.concat_eq_append] at hlx
  have hbx : h.back = some x := by rw [Hist.back, hlx]; simp
  have hst : keepNewest c.h.limit es = l.map fun i => (h.elems i).source := by rw [← s1, Hist.entries, hlx]; simp
  have hpg : h.order.map h.showItem = (Book.opened (keepNewest c.h.limit es)).pages := by
    show _ = keepNewest c.h.limit es ++ [[]]
    rw [hlx, List.map_append, hst, List.map_congr_left (fun y _ => hsh y)]
    congr 1
    show [_] = [_]
    rw [hsh, hver.2.2 x hbx]
  refine ⟨⟨s1, by rw [← hpg, List.length_map], fun _ => hpg, fun _ => ⟨x, s6.trans hbx, ?_⟩, fun a => ?_, hver.2.2⟩, rfl, fun _ => .inl s6, s5, ?_⟩
  · show h.order[(keepNewest c.h.limit es).length]? = _
    rw [hst, hlx]; simp
  · simp [Book.opened] at a
  · have := keepNewest_length c.h.limit es
    unfold Fits
    simp only [Book.opened, List.length_append, List.length_singleton]
    by_cases hh : (keepNewest c.h.limit es).length = c.h.limit.toNat
    · right; omega
    · left; omega

/-- "ab" and "cd" are stored.  Ctrl-P, "x", Ctrl-P, Ctrl-N shows "cdx" again; Enter returns and records it; then Ctrl-P twice
shows "cd" without the change; Ctrl-C. -/
example : ∃ b, BookRun true 500 [16, 120, 16, 14, 13, 16, 16, 3] (Book.opened [[97, 98], [99, 100]])
    [.line [99, 100, 120], .interrupt [99, 100]] b ∧ b.stored = [[97, 98], [99, 100], [99, 100, 120]] ∧ b.pos = 3 := by
  refine ⟨_, .call (ks := [16, 120, 16, 14]) (.cons .older (.cons (.edit (.inl rfl)) (.cons .older (.cons .newer .nil))))
    (.enter (.inl rfl) (by decide)) (.call (ks := [16, 16]) (.cons .older (.cons .older .nil)) .interrupt .done), rfl, rfl⟩

/-- The hypotheses of `C67_session` hold for that session. -/
example : let c : OCfg := { c0 with h := ⟨500, true, false, true⟩ }
    let o := Op.init [62, 32] true 80 (Hist.start c.h (fileOf [[97, 98], [99, 100]])) [16, 120, 16, 14, 13, 16, 16, 3]
    Op.Plain c ∧ 0 < c.h.limit ∧ Ready c o ∧ Op.Shows c o (Book.opened [[97, 98], [99, 100]]) := by
  intro c o
  refine ⟨⟨rfl, by simp [Op.Observer, c, c0]⟩, by decide, init_Ready (p := 2) (by decide) rfl (by decide) (by decide) (start_spec _ _ rfl rfl).2.2.1,
    C67_start_file (c := c) (es := [[97, 98], [99, 100]]) (by decide) rfl rfl _ _ ?_ _⟩
  intro e he
  simp only [List.mem_cons, List.not_mem_nil, or_false] at he
  rcases he with rfl | rfl
  · exact ⟨by decide, by decide, by decide, by decide, by unfold Scalar; decide⟩
  · exact ⟨by decide, by decide, by decide, by decide, by unfold Scalar; decide⟩

/-- Without auto-save the book stays open where it was: with "ab" and "cd" stored, Ctrl-P twice and Enter returns "ab"; at the
next call Ctrl-P finds nothing older and Ctrl-N shows "cd", although nothing has been recalled for this line. -/
theorem C67_nosave :
    calls { c0 with h := ⟨500, true, false, true⟩, noSave := true } 20 2
      { o0 [16, 16, 13, 16, 14, 13] with hist := Hist.start ⟨500, true, false, true⟩ (fileOf [[97, 98], [99, 100]]) } =
      .ok [.line [97, 98], .line [99, 100]] := by decide

/-- The first line of an instance without history leaves a trace when it is cancelled: type "ab", Ctrl-C; then Ctrl-R "a"
finds "a". -/
theorem C67_false_cancel : ((viewAfter c0 1 2 (o0 [97, 98, 3, 18, 97])).map fun v => (v.line, v.failing)) = .ok ([97], false) := by decide

end RL
