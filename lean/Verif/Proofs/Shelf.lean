import Verif.Spec.Shelf
import Verif.Props.Study
import Verif.Props.Restart
/-! What the functions that change configuration and history do to the notebook (C83). -/

namespace RL
open Spec Hist

/-- Saving a line: the drafts. -/
theorem drafts_new1 {cfg : HCfg} (hl : 0 < cfg.limit) {h h1 : Hist} (w : h.WF) (hen : h.enable = true) (h00 : h.order = [] → h.current = none) {s : List Rune}
    (hs0 : h.order ≠ [] ∨ s ≠ []) (e : h.new cfg s = .ok h1) :
    h1.drafts = (if h.order = [] then [[]] else if s = [] ∨ h.entries.getLast? = some s then h.drafts.dropLast else keepNewest cfg.limit h.drafts) ++ [[]] := by
  have cm : h.commit cfg s = .ok h1 → h1.drafts = (if h.order = [] then [[]] else keepNewest cfg.limit h.drafts) ++ [[]] := by
    intro e
    obtain ⟨h2, t2, w2, a1, a2, a3⟩ : ∃ (h2 : Hist) (t2 : List Rune), h2.WF ∧ h2.drafts = h.drafts ∧ (h2.current = none ↔ h.order = []) ∧
        h1 = ({ h2.update cfg t2 true with ver := (h2.update cfg t2 true).ver + 1 } : Hist).push [] := by
      unfold Hist.commit at e
      dsimp only at e
      split at e
      · next hne =>
        split at e
        · cases e
        · next cc hcc =>
          rw [R.bind_ok] at e
          cases e
          have hon : h.order ≠ [] := by
            intro a
            rw [h00 a] at hcc
            cases hcc
          obtain ⟨b, hb⟩ : ∃ b, h.back = some b := by
            cases hb : h.back with
            | none => exact (hon (List.getLast?_eq_none_iff.1 hb)).elim
            | some b => exact ⟨b, rfl⟩
          refine ⟨{ h with current := h.back }, _, ?_, rfl, ?_, rfl⟩
          · refine ⟨w.nodup, w.known, fun y hy => ?_, fun a => ?_, w.version⟩
            · have hy : h.back = some y := hy
              exact w.known y (List.mem_of_getLast? hy)
            · have a : h.back = none := a
              rw [hb] at a; cases a
          · show h.back = none ↔ _
            rw [hb]
            simp [hon]
      · rw [R.bind_ok] at e
        cases e
        exact ⟨h, _, w, rfl, ⟨w.cur_none, h00⟩, rfl⟩
    have hw3 : ({ h2.update cfg t2 true with ver := (h2.update cfg t2 true).ver + 1 } : Hist).WF := by
      have := update_WF w2 cfg t2 true
      exact ⟨this.nodup, this.known, this.cur, this.cur_none, fun i => Nat.le_succ_of_le (this.version i)⟩
    rw [a3, drafts_push hw3.known []]
    congr 1
    show (h2.update cfg t2 true).drafts = _
    rw [drafts_commitUpdate w2, a1]
    by_cases ho' : h.order = []
    · rw [if_pos (a2.2 ho'), if_pos ho']
      unfold Hist.drafts
      rw [ho']
      exact keepNewest_self (by simp; omega)
    · rw [if_neg (fun a => ho' (a2.1 a)), if_neg ho']
  unfold Hist.new at e
  rw [if_neg (by simp [hen])] at e
  cases hb : h.back with
  | none =>
    have ho : h.order = [] := List.getLast?_eq_none_iff.1 hb
    have hs := hs0.resolve_left (fun a => a ho)
    rw [hb] at e
    dsimp only at e
    rw [if_neg (fun a => hs (List.length_eq_zero_iff.1 a))] at e
    rw [cm e, if_pos ho, if_pos ho]
  | some b =>
    obtain ⟨l, hlx⟩ := back_some hb
    have ho : h.order ≠ [] := by rw [hlx]; simp
    rw [hb] at e
    dsimp only at e
    rw [if_neg ho]
    have clean : h1 = h.cleanBack b → h1.drafts = h.drafts.dropLast ++ [[]] := by
      intro a
      rw [a]
      unfold Hist.drafts cleanBack
      have hnb : b ∉ l := by
        have := w.nodup
        rw [hlx] at this
        intro q
        exact (List.nodup_append.1 this).2.2 _ q _ (by simp) rfl
      simp only [setItem, hlx, List.map_append, List.map_cons, List.map_nil, List.dropLast_concat, if_true, Item.clean]
      congr 1
      apply List.map_congr_left
      intro y hy
      have : y ≠ b := fun a => hnb (a ▸ hy)
      simp [this]
    by_cases hr : h.repeatsNewest b s = true
    · rw [if_pos hr, Except.ok.injEq] at e
      rw [if_pos (.inr ((repeatsNewest_iff w hb s).1 hr))]
      exact clean e.symm
    · rw [if_neg hr] at e
      by_cases hs : s.length = 0
      · rw [if_pos hs, Except.ok.injEq] at e
        rw [if_pos (.inl (List.length_eq_zero_iff.1 hs))]
        exact clean e.symm
      · rw [if_neg hs] at e
        have hs' : s ≠ [] := fun a => hs (by rw [a]; rfl)
        have hg : ¬ (s = [] ∨ h.entries.getLast? = some s) := by
          rintro (a | a)
          · exact hs' a
          · exact hr ((repeatsNewest_iff w hb s).2 a)
        rw [if_neg hg, cm e, if_neg ho]

/-- A history all of whose elements show what is stored shows the book of its entries. -/
theorem Hist.Shows.filled {h : Hist} (sh : ∀ x ∈ h.order, h.showItem x = (h.elems x).source) {x : Nat} (c1 : h.current = some x) (b1 : h.back = some x)
    (s1 : (h.elems x).source = []) (z : Line) : h.Shows (Book.filled h.entries z) := by
  obtain ⟨l, hl⟩ := back_some b1
  have hent : h.entries = l.map fun i => (h.elems i).source := by rw [Hist.entries, hl]; simp
  have hpages : h.order.map h.showItem = h.entries ++ [[]] := by
    rw [List.map_congr_left sh, hent, hl]
    simp [s1]
  refine ⟨rfl, by show (h.entries ++ [[]]).length = _; rw [← hpages, List.length_map], fun _ => hpages, fun _ => ⟨x, c1, ?_⟩, fun a => ?_, fun y hy => ?_⟩
  · show h.order[h.entries.length]? = _
    rw [hent, hl]; simp
  · simp [Book.filled] at a
  · rw [b1, Option.some.injEq] at hy
    subst hy
    exact s1

theorem committed_entry {h : Hist} (hw : h.WF) {b : Book} (hs : h.Shows b) (t : List Rune) :
    Hist.committed h t = if b.pos + 1 < b.pages.length then h.drafts.getD b.pos [] else t := by
  by_cases hp : b.pages = []
  · have hc := hs.empty hp
    have ho := hw.cur_none hc
    unfold Hist.committed
    rw [hc, Hist.back, ho, hp]
    simp
  · have key : Hist.committed h t = (({ b with line := ⟨t, [], []⟩ } : Book)).handed h.drafts := by
      have := Op.committed_handed (h := h) hw (b := { b with line := ⟨t, [], []⟩ }) ⟨hs.stored, hs.length, hs.pages, hs.pos, hs.empty, hs.rest⟩ hp
      rw [← this]
      simp [Line.text]
    rw [key]
    unfold Book.handed
    simp [Line.text]

/-- The program adds a line. -/
theorem Hist.Shows.added {cfg : HCfg} (hl : 0 < cfg.limit) {h : Hist} (w : h.WF) (hen : h.enable = true) {b : Book} (s : h.Shows b) {t : List Rune}
    (ht : b.pages ≠ [] ∨ t ≠ []) :
    ∃ h1, h.new cfg t = .ok h1 ∧ h1.WF ∧ h1.enable = true ∧ h1.current = h1.back ∧ h1.fd = h.fd ∧
      h1.Shows (Book.filled (if b.adds t h.drafts = [] then b.stored else keepNewest cfg.limit (b.stored ++ b.adds t h.drafts)) b.line) ∧
      h1.drafts = (if b.pages = [] then [[]] else if b.adds t h.drafts = [] then h.drafts.dropLast else keepNewest cfg.limit h.drafts) ++ [[]] ∧
      (b.pages ≠ [] → h.fd = .opened → h1.disk = h.disk ++ fileOf (b.adds t h.drafts)) := by
  have hlen : b.pages = [] ↔ h.order = [] := by
    have := s.length
    constructor
    · intro a; rw [a] at this; exact List.eq_nil_of_length_eq_zero this.symm
    · intro a; rw [a] at this; exact List.eq_nil_of_length_eq_zero this
  obtain ⟨h1, e1, w1⟩ := new_ok w cfg t
  obtain ⟨w1, en1, sh1, x, c1, b1, s1⟩ := new_state w hen e1
  have ho : h.order ≠ [] ∨ t ≠ [] := ht.imp_left fun a c => a (hlen.2 c)
  have hfill := Hist.Shows.filled sh1 c1 b1 s1 b.line
  have hd := drafts_new1 hl w hen (fun a => s.empty (hlen.2 a)) ho e1
  have ads : b.adds t h.drafts = [] ↔ t = [] ∨ h.entries.getLast? = some t := by
    unfold Book.adds
    rw [← s.stored]
    split
    · next h0 => simp [h0]
    · next h0 => simp [h0]
  by_cases hr : t = [] ∨ h.entries.getLast? = some t
  · have hon : h.order ≠ [] := by
      rcases ho with a | a
      · exact a
      · rcases hr with c | c
        · exact (a c).elim
        · intro d
          rw [Hist.entries, d] at c
          simp at c
    obtain ⟨h2, f1, _, f3, f4⟩ := C22_unchanged_partial cfg h w hon t hr
    rw [e1, Except.ok.injEq] at f1
    subst f1
    refine ⟨h1, e1, w1, en1, c1.trans b1.symm, new_fd e1, ?_, ?_, fun _ _ => ?_⟩
    · rw [if_pos (ads.2 hr), ← s.stored, ← f3]; exact hfill
    · rw [hd, if_pos hr, if_pos (ads.2 hr)]
      simp only [hlen]
    · rw [f4, ads.2 hr]; simp [fileOf]
  · have hts : t ≠ [] := fun a => hr (.inl a)
    have had : b.adds t h.drafts = [Hist.committed h t] := by
      unfold Book.adds
      rw [← s.stored, if_neg hr, committed_entry w s]
    have hnew : h.commit cfg t = .ok h1 := by
      rw [← e1]
      unfold Hist.new
      rw [if_neg (by simp [hen])]
      cases hb : h.back with
      | none => dsimp only; rw [if_neg (fun a => hts (List.length_eq_zero_iff.1 a))]
      | some bb =>
        dsimp only
        rw [if_neg (fun a => hr (.inr ((repeatsNewest_iff w hb t).1 a))), if_neg (fun a => hts (List.length_eq_zero_iff.1 a))]
    obtain ⟨k1, _, _, _, _, k6, _, k8, _⟩ := commit_spec w cfg t hnew
    refine ⟨h1, e1, w1, en1, c1.trans b1.symm, k6, ?_, ?_, fun a c => ?_⟩
    · rw [had, if_neg (by simp), ← s.stored, ← k1]; exact hfill
    · rw [hd, if_neg hr, if_neg (fun a => hr (ads.1 a))]
      simp only [hlen]
    · rw [k8, had, if_pos ⟨fun d => a (hlen.2 d), c⟩]; simp [fileOf, fileLine]

/-- The book is not emptied while a line is edited. -/
theorem note_pages {limit : Int} (hl : 0 < limit) (b : Book) : (b.note limit).pages ≠ [] := by
  unfold Book.note
  split
  · simp
  · next h =>
    intro a
    have := congrArg List.length a
    have h0 : b.pages.length ≠ 0 := fun a => h (List.length_eq_zero_iff.1 a)
    simp [keepNewest] at this
    omega

theorem bookKey_pages {limit : Int} (hl : 0 < limit) {r : Rune} {b b' : Book} (h : BookKey limit r b b') : b'.pages ≠ [] := by
  cases h <;> exact note_pages hl _

theorem deskKey_pages {p : DeskCfg} (hl : 0 < p.limit) {r : Rune} {d d' : Desk} (h : DeskKey p r d d') (hp : d.book.pages ≠ []) : d'.book.pages ≠ [] := by
  induction h
  case plain h => exact bookKey_pages hl h
  case close h _ _ _ _ => exact bookKey_pages hl h
  case through ih => exact ih hp
  all_goals first | exact note_pages hl _ | exact hp

theorem studyKey_pages {p : StudyCfg} (hl : 0 < p.limit) {r : Rune} {d d' : Study} (h : StudyKey p r d d') (hp : d.book.pages ≠ []) : d'.book.pages ≠ [] := by
  cases h
  case desk h _ => exact deskKey_pages hl h hp
  case list h _ => exact deskKey_pages hl h hp
  case keep h _ _ _ => exact bookKey_pages hl h
  all_goals try subst_vars
  all_goals first | exact note_pages hl _ | exact hp | skip

theorem studyKeys_pages {p : StudyCfg} (hl : 0 < p.limit) {ks : List Rune} {d d' : Study} (h : StudyKeys p ks d d') (hp : d.book.pages ≠ []) :
    d'.book.pages ≠ [] := by
  induction h with
  | nil => exact hp
  | cons h _ ih => exact ih (studyKey_pages hl h hp)

theorem studyEnd_pages {save : Bool} {p : StudyCfg} {r : Rune} {d : Study} {e : Event} {a ds : List (List Rune)} {b : Book}
    (h : StudyEnd save p r d e a b ds) (hp : d.book.pages ≠ []) : b.pages ≠ [] := by
  have end1 : ∀ {b b' : Book} {r e}, BookEnd save p.limit r b e b' → b.pages ≠ [] → b'.pages ≠ [] := by
    intro b b' r e h hp
    cases h
    · unfold Book.submit
      split
      · simp
      · exact hp
    all_goals simpa [Book.cancel] using hp
  cases h with
  | desk h =>
    cases h with
    | plain h => exact end1 h hp
    | listed h _ => exact end1 h hp
  | found h =>
    unfold Book.submitAs
    split
    · simp
    · exact hp

namespace Inst

/-- Storing a history that has kept its file. -/
theorem putHist_at {s : Inst} {k : Nat} {h : Hist} (hfd : h.fd = (s.objs k).h.fd) :
    (s.putHist k h).pathAt k = s.pathAt k ∧ (s.putHist k h).histAt k = h := by
  have e : (s.putHist k h).pathAt k = s.pathAt k := by
    unfold pathAt putHist
    simp only [upd, if_true, hfd]
    unfold pathAt
    split <;> rfl
  refine ⟨e, ?_⟩
  unfold histAt
  rw [e]
  simp [putHist, upd]

/-- What a copied configuration is for: the session goes on with a new history. -/
theorem change_eq (g : ICfg → ICfg) (s : Inst) (h1 : s.icfg < s.nCfg) (h2 : s.cur < s.nCfg) (h3 : s.bufCfg = s.cur) (h4 : s.hist < s.nHist) {cf : ICfg}
    (hc : g (s.cfgs s.icfg).clone = cf) (h5 : cf.hist = none) (h6 : cf.oc.auto.isSome) :
    let s' := s.change g
    let h := (Hist.fresh (s.files cf.path)).init cf.hcfg
    s'.cur = s.nCfg ∧ s'.icfg = s.nCfg ∧ s'.bufCfg = s.nCfg ∧ s'.nCfg = s.nCfg + 1 ∧ s'.nHist = s.nHist + 1 ∧ s'.hist = s.nHist ∧ s'.search = s.nHist ∧
    s'.cfgs s.nCfg = { cf with hist := some s.nHist, search := some s.nHist } ∧ s'.objs s.nHist = ⟨s.nCfg, h, cf.path⟩ ∧
    s'.files = upd s.files cf.path h.disk ∧
    s'.op = { s.op with rb := s.op.rb.setPrompt cf.prompt, comp := Comp.new s.op.rb.width, search := Search.new s.op.rb.width } := by
  have n1 : ¬ s.icfg = s.nCfg := by omega
  have n2 : ¬ s.cur = s.nCfg := by omega
  have n3 : ¬ s.nCfg = s.cur := by omega
  subst hc
  simp only [change, useConfig, n1, if_false]
  simp [setConfig, n2, n3, setPrompt, setMask, upd, h3, h5, h6, setHistoryPath, putHist, histAt, pathAt, ICfg.hcfg]
  simp [Hist.fresh]
  exact ⟨rfl, rfl⟩

end Inst
end RL
