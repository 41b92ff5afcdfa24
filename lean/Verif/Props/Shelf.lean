import Verif.Proofs.Shelf
/-! # C83: changing the history file and the completer while the program runs -/

namespace RL
open Spec Hist

/-- A prompt after which the cursor is not at the margin. -/
def GoodPrompt (U : UTables) (w : Nat) (q : List Rune) : Prop :=
  ∃ p, (RB.new q true w).promptLen U = .ok p ∧ (0 < p → ¬ (w : Int) ∣ (p : Int))

/-- A configuration with which the shelf is used. -/
structure ICfg.Usable (base : ICfg) (w : Nat) : Prop where
  plain : Op.Plain base.oc
  limit : 2 ≤ base.oc.h.limit
  opens : base.oc.h.openOK = true
  painter : base.oc.d.painter ≠ none
  width : 0 < w
  prompt : GoodPrompt base.oc.U w base.prompt

/-- What the shelf depends on. -/
def ICfg.shelf (base : ICfg) (w : Nat) : ShelfCfg :=
  { save := !base.oc.noSave, width := w, cells := widthAll base.oc.U, limit := base.oc.h.limit, fold := base.oc.h.fold
    kind := CompleterFits base.oc.U, prompt := GoodPrompt base.oc.U w }

/-- The configuration in use. -/
def ICfg.on (base : ICfg) (f : Answers) (p : List Rune) : ICfg := { base with oc := { base.oc with auto := some f }, path := p }

namespace Inst

/-- A program shows the shelf. -/
structure Shows (base : ICfg) (w : Nat) (s : Inst) (sh : Shelf) : Prop where
  icfg : s.icfg = s.cur
  buf : s.bufCfg = s.cur
  known : s.cur < s.nCfg
  cfg : s.cfgs s.cur = { base.on sh.auto sh.path with hist := some s.hist, search := some s.hist }
  search : s.search = s.hist
  own : (s.objs s.hist).cfg = s.cur
  made : s.hist < s.nHist
  fd : (s.objs s.hist).h.fd = if sh.path = [] then .nil else .opened
  file : sh.path ≠ [] → (s.objs s.hist).file = sh.path
  files : ∀ p, p ≠ [] → s.files p = fileOf (sh.files p) ∧ ∀ t ∈ sh.files p, Storable t
  kind : CompleterFits base.oc.U sh.auto
  ready : Ready (base.on sh.auto sh.path).ocfg s.loop
  tidy : s.loop.Tidy
  width : s.op.rb.width = w
  book : Op.Shows (base.on sh.auto sh.path).ocfg s.loop sh.book
  drafts : s.loop.hist.drafts = sh.drafts
  pages : sh.path ≠ [] → sh.book.pages ≠ []

variable {base : ICfg} {w : Nat}

theorem Shows.pathAt {s : Inst} {sh : Shelf} (h : s.Shows base w sh) : s.pathAt s.hist = sh.path := by
  unfold Inst.pathAt
  rw [h.fd, h.own, h.cfg]
  by_cases hp : sh.path = []
  · rw [if_pos hp]; rfl
  · rw [if_neg hp, if_pos rfl, h.file hp]

theorem Shows.fdLoop {s : Inst} {sh : Shelf} (h : s.Shows base w sh) : s.loop.hist.fd = if sh.path = [] then .nil else .opened := h.fd

/-- Storing what the loop left. -/
theorem Shows.put {s : Inst} {sh sh' : Shelf} (h : s.Shows base w sh) {o : Op} (hp : sh'.path = sh.path) (ha : sh'.auto = sh.auto)
    (hfd : o.hist.fd = s.loop.hist.fd) (hfiles : ∀ p, p ≠ [] → (if p = sh.path then o.hist.disk else s.files p) = fileOf (sh'.files p) ∧ ∀ t ∈ sh'.files p, Storable t)
    (hr : Ready (base.on sh.auto sh.path).ocfg o) (ht : o.Tidy) (hw : o.rb.width = w)
    (hb : Op.Shows (base.on sh.auto sh.path).ocfg o sh'.book) (hd : o.hist.drafts = sh'.drafts) (hpg : sh.path ≠ [] → sh'.book.pages ≠ [])
    (op : Op) (hop : { op with hist := o.hist } = o) : Shows base w { s.putHist s.hist o.hist with op := op } sh' := by
  have hfd' : o.hist.fd = (s.objs s.hist).h.fd := hfd
  obtain ⟨q1, q2⟩ := putHist_at (s := s) (k := s.hist) (h := o.hist) hfd'
  have hl : ({ s.putHist s.hist o.hist with op := op } : Inst).loop = o := by
    unfold Inst.loop
    show { op with hist := (s.putHist s.hist o.hist).histAt s.hist } = o
    rw [q2, hop]
  have hrb : op.rb = o.rb := by rw [← hop]
  have ho : (s.putHist s.hist o.hist).objs s.hist = { s.objs s.hist with h := o.hist, file := s.pathAt s.hist } := by simp [putHist, upd]
  refine ⟨h.icfg, h.buf, h.known, ?_, h.search, ?_, h.made, ?_, ?_, ?_, ?_, ?_, ?_, ?_, ?_, ?_, ?_⟩
  · rw [hp, ha]; exact h.cfg
  · show ((s.putHist s.hist o.hist).objs s.hist).cfg = _
    rw [ho]; exact h.own
  · show ((s.putHist s.hist o.hist).objs s.hist).h.fd = _
    rw [ho, hp, ← h.fd]; exact hfd'
  · intro _
    show ((s.putHist s.hist o.hist).objs s.hist).file = _
    rw [ho, hp]; exact h.pathAt
  · intro p hpn
    rw [← (hfiles p hpn).1]
    refine ⟨?_, (hfiles p hpn).2⟩
    show upd s.files (s.pathAt s.hist) o.hist.disk p = _
    rw [h.pathAt]; rfl
  · rw [ha]; exact h.kind
  · rw [hl, hp, ha]; exact hr
  · rw [hl]; exact ht
  · show op.rb.width = w
    rw [hrb]; exact hw
  · rw [hl, hp, ha]; exact hb
  · rw [hl]; exact hd
  · rw [hp]; exact hpg

theorem Shows.files_append {s : Inst} {sh : Shelf} (h : s.Shows base w sh) {a : List (List Rune)} (hs : sh.path ≠ [] → ∀ t ∈ a, Storable t) {d : List Nat}
    (hd : sh.path ≠ [] → d = s.loop.hist.disk ++ fileOf a) (p : List Rune) (hp : p ≠ []) :
    (if p = sh.path then d else s.files p) = fileOf ((sh.append a).files p) ∧ ∀ t ∈ (sh.append a).files p, Storable t := by
  obtain ⟨f1, f2⟩ := h.files p hp
  unfold Shelf.append
  dsimp only
  by_cases e : p = sh.path
  · have hdisk : s.loop.hist.disk = s.files sh.path := by
      show s.files (s.pathAt s.hist) = _
      rw [h.pathAt]
    rw [if_pos e, if_pos ⟨e, hp⟩, hd (e ▸ hp), hdisk, ← e, f1, fileOf_append]
    refine ⟨rfl, fun t ht => ?_⟩
    rcases List.mem_append.1 ht with c | c
    · exact f2 t c
    · exact hs (e ▸ hp) t c
  · rw [if_neg e, if_neg (fun c => e c.1)]
    exact ⟨f1, f2⟩

/-- A prompt is set. -/
theorem Shows.prompt (hb : base.Usable w) {s : Inst} {sh : Shelf} (h : s.Shows base w sh) {q : List Rune} (hq : GoodPrompt base.oc.U w q) :
    (s.setPrompt q).Shows base w sh := by
  obtain ⟨p, p1, p2⟩ := hq
  have hr := h.ready
  have hq := hr.quiet
  have hrb : RBok base.oc.U base.oc.d ((s.setPrompt q).loop).rb := by
    refine ⟨hq.base.rb.width, .inr ⟨hb.painter, hq.base.rb.width, p, p1, ?_⟩, ⟨p, p1⟩, hq.base.rb.good⟩
    show 0 < p → ¬ s.op.rb.width ∣ (p : Int)
    rw [h.width]; exact p2
  exact { h with
    ready := ⟨⟨⟨hrb, hq.base.hist, hq.base.sw, hq.base.cw, hq.base.col⟩, hq.smode, hq.marks, hq.cmode, hq.nosel⟩, hr.emacs, hr.events, hr.running⟩
    book := ⟨h.book.hist, h.book.line, h.book.noted, h.book.enable, h.book.fits⟩ }

theorem plain_on (hb : base.Usable w) (f : Answers) (p : List Rune) : Op.Plain (base.on f p).ocfg := ⟨hb.plain.filter, hb.plain.listener⟩

theorem friendly_on (hb : base.Usable w) {f : Answers} (hf : CompleterFits base.oc.U f) (p : List Rune) : Op.Friendly (base.on f p).ocfg := by
  refine ⟨fun g hg => ?_, hb.plain.listener⟩
  have hg : some f = some g := hg
  cases hg
  exact hf

/-- `Line`. -/
theorem act_line (hb : base.Usable w) {s : Inst} {sh : Shelf} (h : s.Shows base w sh) {q keys rest : List Rune} {r : Rune} {s1 : Study} {e : Event}
    {a ds : List (List Rune)} {b : Book} (hq : GoodPrompt base.oc.U w q) (hi : s.op.inp = keys ++ r :: rest)
    (hk : StudyKeys ((base.shelf w).study sh.auto) keys ⟨sh.book, sh.drafts, .desk .closed⟩ s1)
    (he : StudyEnd (base.shelf w).save ((base.shelf w).study sh.auto) r s1 e a b ds) (hst : sh.path ≠ [] → ∀ t ∈ a, Storable t) {fuel : Nat} (hf : keys.length < fuel) :
    ∃ s', s.act fuel (.line q) = .ok ([e], s') ∧ s'.Shows base w { sh.append a with book := b, drafts := ds } ∧ s'.op.inp = rest := by
  have h1 := h.prompt hb hq
  have hl : 0 < base.oc.h.limit := by have := hb.limit; omega
  have hk' := hk
  rw [← h1.drafts] at hk'
  obtain ⟨o', e1, e2, e3, e4, e5, e6, e7, e8, e9⟩ := C82_readline_partial (c := (base.on sh.auto sh.path).ocfg) (f := sh.auto) (w := w) (rest := rest)
    (friendly_on hb h.kind sh.path) (plain_on hb _ _) hl rfl h1.ready h1.tidy h1.width h1.book (by exact hi) hk' he hf
  have hcfg : ((s.setPrompt q).cfgs (s.setPrompt q).cur).ocfg = (base.on sh.auto sh.path).ocfg := by rw [h1.cfg]; rfl
  have hpg : sh.path ≠ [] → b.pages ≠ [] := fun c => studyEnd_pages he (studyKeys_pages hl hk (h.pages c))
  refine ⟨{ (s.setPrompt q).putHist (s.setPrompt q).hist o'.hist with op := o' }, ?_, ?_, e4⟩
  · have e0 : (s.setPrompt q).readline fuel = .ok (e, { (s.setPrompt q).putHist (s.setPrompt q).hist o'.hist with op := o' }) := by
      unfold Inst.readline
      rw [hcfg, e1]; rfl
    show ((s.setPrompt q).readline fuel >>= fun x => .ok ([x.1], x.2)) = _
    rw [e0]; rfl
  · refine h1.put (sh' := { sh.append a with book := b, drafts := ds }) (o := o') rfl rfl e8 (h1.files_append hst fun c => ?_) e2 e3 e6 e5 e7 hpg o' rfl
    refine e9 ?_ (studyKeys_pages hl hk (h.pages c))
    rw [h1.fdLoop, if_neg c]

/-- `AddHistory`. -/
theorem act_add (hb : base.Usable w) {s : Inst} {sh : Shelf} (h : s.Shows base w sh) {t : List Rune} (ht : sh.book.pages ≠ [] ∨ t ≠ [])
    (hst : sh.path ≠ [] → ∀ x ∈ sh.book.adds t sh.drafts, Storable x) (fuel : Nat) :
    ∃ s', s.act fuel (.add t) = .ok ([], s') ∧ s'.Shows base w (sh.add base.oc.h.limit t) ∧ s'.op.inp = s.op.inp := by
  have hl : 0 < base.oc.h.limit := by have := hb.limit; omega
  obtain ⟨h1, e1, e2, e3, e4, e5, e6, e7, e8⟩ := Hist.Shows.added (cfg := (base.on sh.auto sh.path).hcfg) hl h.ready.quiet.base.hist h.book.enable h.book.hist ht
  rw [h.drafts] at e6 e7 e8
  have hcfg : (s.cfgs (s.objs s.hist).cfg).hcfg = (base.on sh.auto sh.path).hcfg := by rw [h.own, h.cfg]; rfl
  have hq := h.ready.quiet
  refine ⟨s.putHist s.hist h1, ?_, ?_, rfl⟩
  · have e0 : s.saveHistory t = .ok (s.putHist s.hist h1) := by
      unfold saveHistory
      rw [hcfg]
      show (s.loop.hist.new _ t >>= _) = _
      rw [e1]; rfl
    show (s.saveHistory t >>= fun s => .ok ([], s)) = _
    rw [e0]; rfl
  · have := h.put (sh' := sh.add base.oc.h.limit t) (o := { s.loop with hist := h1 }) rfl rfl e5
      (h.files_append hst fun c => e8 (h.pages c) (by rw [h.fdLoop, if_neg c]))
      ⟨⟨⟨hq.base.rb, e2, hq.base.sw, hq.base.cw, hq.base.col⟩, hq.smode, hq.marks, hq.cmode, hq.nosel⟩, h.ready.emacs, h.ready.events, h.ready.running⟩
      h.tidy h.width
      ⟨e6, h.book.line, fun _ => .inl e4, e3, ?_⟩ e7 (fun _ => by simp [Shelf.add, Book.filled]) s.op rfl
    · exact this
    · have hfit := h.book.fits
      have hst := h.book.hist.stored
      have hlen := h.book.hist.length
      have hlim := hb.limit
      have hfit : sh.book.pages.length ≤ base.oc.h.limit.toNat ∨ (sh.book.pages.length = base.oc.h.limit.toNat + 1 ∧ sh.book.pos = base.oc.h.limit.toNat ∧ 2 ≤ base.oc.h.limit) := hfit
      have hs1 : sh.book.stored.length = sh.book.pages.length - 1 := by rw [← hst, hlen, Hist.entries]; simp
      have key : (if sh.book.adds t sh.drafts = [] then sh.book.stored else keepNewest base.oc.h.limit (sh.book.stored ++ sh.book.adds t sh.drafts)).length
          ≤ base.oc.h.limit.toNat := by
        split
        · omega
        · have := Hist.keepNewest_length base.oc.h.limit (sh.book.stored ++ sh.book.adds t sh.drafts)
          omega
      show Fits base.oc.h.limit (Book.filled _ _)
      unfold Fits Book.filled
      simp only [List.length_append, List.length_singleton]
      omega

/-- A history is opened. -/
theorem opened_history (hb : base.Usable w) {f : Answers} {p : List Rune} {sh : Shelf} {files : List Rune → List Nat} (z : Line)
    (hf : p ≠ [] → files p = fileOf (sh.files p) ∧ ∀ t ∈ sh.files p, Storable t) :
    let h := (Hist.fresh (files p)).init (base.on f p).hcfg
    h.WF ∧ h.enable = true ∧ h.current = h.back ∧ h.fd = (if p = [] then .nil else .opened) ∧
    h.Shows { (sh.use base.oc.h.limit p).book with line := z } ∧ h.drafts = (sh.use base.oc.h.limit p).drafts ∧ Fits base.oc.h.limit (sh.use base.oc.h.limit p).book ∧
    (p ≠ [] → h.disk = fileOf (keepNewest base.oc.h.limit (sh.files p))) := by
  intro h
  by_cases hp : p = []
  · have he : h = Hist.fresh (files p) := by
      show Hist.init _ _ = _
      unfold Hist.init
      rw [if_neg (by simp [Hist.fresh]), if_neg (by simp [ICfg.hcfg, ICfg.on, hp])]
    rw [he]
    unfold Shelf.use
    simp only [if_pos hp]
    refine ⟨Hist.fresh_WF _, rfl, rfl, rfl, ?_, rfl, .inl (Nat.zero_le _), fun c => (c hp).elim⟩
    exact ⟨rfl, rfl, fun _ => rfl, fun c => (c rfl).elim, fun _ => rfl, fun x c => by cases c⟩
  · obtain ⟨f1, f2⟩ := hf hp
    have hfile : (base.on f p).hcfg.hasFile = true := by simp [ICfg.hcfg, ICfg.on, hp]
    have he : h = Hist.start (base.on f p).hcfg (fileOf (sh.files p)) := by
      show Hist.init _ _ = _
      rw [f1]; rfl
    obtain ⟨k1, k2, k3, k4, k5, k6, k7⟩ := start_spec (base.on f p).hcfg (fileOf (sh.files p)) hfile hb.opens
    obtain ⟨l1, l2, _⟩ := C23_load (base.on f p).hcfg hfile hb.opens (sh.files p) f2
    have hs := (C67_start_file (c := (base.on f p).ocfg) hb.limit hfile hb.opens [] w f2 []).hist
    have hfit := (C67_start_file (c := (base.on f p).ocfg) hb.limit hfile hb.opens [] w f2 []).fits
    have hd := C82_start (base.on f p).hcfg hfile hb.opens (fileOf (sh.files p))
    rw [he]
    unfold Shelf.use
    simp only [if_neg hp]
    refine ⟨k3, k5, k6, k4, ⟨hs.stored, hs.length, hs.pages, hs.pos, hs.empty, hs.rest⟩, ?_, hfit, fun _ => ?_⟩
    · have hlen : (keepNewest base.oc.h.limit (sh.files p) ++ [[]]).length = (Hist.start (base.on f p).hcfg (fileOf (sh.files p))).order.length := hs.length
      rw [hd, ← hlen]
      simp
    · rw [l2]
      split
      · rfl
      · rw [keepNewest_self (by show _ ≤ _; have : (base.on f p).hcfg.limit = base.oc.h.limit := rfl; omega)]

/-- `SetHistoryPath` and `SetAutoComplete`. -/
theorem change_shows (hb : base.Usable w) {s : Inst} {sh : Shelf} (h : s.Shows base w sh) {g : ICfg → ICfg} {f : Answers} {p : List Rune}
    (hk : CompleterFits base.oc.U f) (hg : g (base.on sh.auto sh.path).clone = (base.on f p).clone) :
    (s.change g).Shows base w { sh.use base.oc.h.limit p with auto := f } ∧ (s.change g).op.inp = s.op.inp := by
  have hcf : g (s.cfgs s.icfg).clone = (base.on f p).clone := by rw [h.icfg, h.cfg, ← hg]; rfl
  obtain ⟨c1, c2, c3, c4, c5, c6, c7, c8, c9, c10, c11⟩ := change_eq g s (by rw [h.icfg]; exact h.known) h.known h.buf h.made hcf rfl rfl
  have hpath : (base.on f p).clone.path = p := rfl
  have hh : (base.on f p).clone.hcfg = (base.on f p).hcfg := rfl
  rw [hpath, hh] at c9 c10
  obtain ⟨k1, k2, k3, k4, k5, k6, k7, k8⟩ := opened_history (f := f) hb (p := p) (sh := sh) (files := s.files) sh.book.line (h.files p)
  generalize hH : (Hist.fresh (s.files p)).init (base.on f p).hcfg = H at *
  have pth : (s.change g).pathAt s.nHist = p := by
    unfold Inst.pathAt
    rw [c9, c8]
    split <;> rfl
  have hloop : (s.change g).loop = { s.op with rb := s.op.rb.setPrompt base.prompt, comp := Comp.new s.op.rb.width, search := Search.new s.op.rb.width, hist := H } := by
    unfold Inst.loop Inst.histAt
    rw [c11, c6, pth, c9, c10]
    simp [upd]; rfl
  have hbook : { (sh.use base.oc.h.limit p).book with line := sh.book.line } = (sh.use base.oc.h.limit p).book := by
    unfold Shelf.use; split <;> rfl
  rw [hbook] at k5
  have hup : (sh.use base.oc.h.limit p).path = p := by unfold Shelf.use; split <;> simp_all
  have hq := h.ready.quiet
  obtain ⟨pl, p1, p2⟩ := hb.prompt
  refine ⟨⟨by rw [c2, c1], by rw [c3, c1], by rw [c1, c4]; omega, ?_, by rw [c7, c6], by rw [c6, c9, c1], by rw [c6, c5]; omega, ?_, ?_, ?_, hk, ?_, ?_, ?_, ?_, ?_, ?_⟩, by rw [c11]⟩
  · rw [c1, c8, c6]
    dsimp only
    rw [hup]; rfl
  · rw [c6, c9]
    show H.fd = if (sh.use base.oc.h.limit p).path = [] then _ else _
    rw [hup]; exact k4
  · intro _
    rw [c6, c9]
    exact hup.symm
  · intro q hq
    rw [c10]
    show (if q = p then H.disk else s.files q) = fileOf ((sh.use base.oc.h.limit p).files q) ∧ ∀ t ∈ (sh.use base.oc.h.limit p).files q, Storable t
    unfold Shelf.use
    by_cases e : q = p
    · have hp : p ≠ [] := e ▸ hq
      simp only [if_pos e, if_neg hp]
      exact ⟨k8 hp, fun t ht => (h.files p hp).2 t (mem_keepNewest ht)⟩
    · by_cases hp : p = []
      · simp only [if_neg e, if_pos hp]; exact h.files q hq
      · simp only [if_neg e, if_neg hp]; exact h.files q hq
  · rw [hloop]
    show Ready (base.on f (sh.use base.oc.h.limit p).path).ocfg _
    rw [hup]
    refine ⟨⟨⟨⟨hq.base.rb.width, .inr ⟨hb.painter, hq.base.rb.width, pl, p1, ?_⟩, ⟨pl, p1⟩, hq.base.rb.good⟩, k1, rfl, rfl, Int.le_refl 0⟩, rfl, ⟨rfl, rfl⟩, rfl, rfl⟩,
      h.ready.emacs, h.ready.events, h.ready.running⟩
    show 0 < pl → ¬ s.op.rb.width ∣ (pl : Int)
    rw [h.width]; exact p2
  · rw [hloop]; exact fun _ => ⟨rfl, rfl⟩
  · rw [c11]; exact h.width
  · rw [hloop]
    show Op.Shows (base.on f (sh.use base.oc.h.limit p).path).ocfg _ (sh.use base.oc.h.limit p).book
    rw [hup]
    refine ⟨k5, ?_, fun _ => .inl k3, k2, k7⟩
    rw [← hbook]; exact h.book.line
  · rw [hloop]; exact k6
  · show (sh.use base.oc.h.limit p).path ≠ [] → (sh.use base.oc.h.limit p).book.pages ≠ []
    rw [hup]
    intro hp
    unfold Shelf.use
    rw [if_neg hp]
    simp [Book.filled]

theorem act_shows (hb : base.Usable w) {s : Inst} {sh sh' : Shelf} (h : s.Shows base w sh) {a : Act} {keys rest : List Rune} {es : List Event}
    (hs : ShelfStep (base.shelf w) a keys es sh sh') (hi : s.op.inp = keys ++ rest) {fuel : Nat} (hf : keys.length < fuel) :
    ∃ s', s.act fuel a = .ok (es, s') ∧ s'.Shows base w sh' ∧ s'.op.inp = rest := by
  cases hs with
  | line h1 h2 h3 h4 =>
    simp only [List.length_append, List.length_singleton] at hf
    exact act_line hb h h1 (by rw [hi]; simp) h2 h3 h4 (by omega)
  | add h1 h2 =>
    obtain ⟨s', k1, k2, k3⟩ := act_add hb h h1 h2 fuel
    exact ⟨s', k1, k2, by rw [k3, hi]; rfl⟩
  | @path q =>
    obtain ⟨k1, k2⟩ := change_shows hb h (g := fun c => { c with path := q }) (p := q) h.kind rfl
    have : ({ sh.use base.oc.h.limit q with auto := sh.auto } : Shelf) = sh.use base.oc.h.limit q := by unfold Shelf.use; split <;> rfl
    rw [this] at k1
    exact ⟨_, rfl, k1, by rw [k2, hi]; rfl⟩
  | @auto f _ hk =>
    obtain ⟨k1, k2⟩ := change_shows hb h (g := fun c => { c with oc := { c.oc with auto := some f } }) (p := sh.path) hk rfl
    exact ⟨_, rfl, k1, by rw [k2, hi]; rfl⟩

end Inst

/-- C83.  A program calls `Line`, `AddHistory`, `SetHistoryPath` and `SetAutoComplete` in any order.  The results, the notebook in the end and the
contents of all history files are those of the shelf. -/
theorem C83_program_partial {base : ICfg} {w : Nat} (hb : base.Usable w) {as : List Inst.Act} {keys : List Rune} {es : List Event} {sh sh' : Shelf}
    (hr : ShelfRun (base.shelf w) as keys es sh sh') : ∀ {s : Inst} {rest : List Rune}, s.Shows base w sh → s.op.inp = keys ++ rest →
    ∀ {fuel : Nat}, keys.length < fuel → ∃ s', s.program fuel as = .ok (es, s') ∧ s'.Shows base w sh' ∧ s'.op.inp = rest := by
  induction hr with
  | done => intro s rest h hi fuel _; exact ⟨s, rfl, h, hi⟩
  | @step a as ks ks' es es' sh sh1 sh2 h1 _ ih =>
    intro s rest h hi fuel hf
    simp only [List.length_append] at hf
    obtain ⟨s1, e1, e2, e3⟩ := Inst.act_shows hb h h1 (rest := ks' ++ rest) (by rw [hi]; simp) (fuel := fuel) (by omega)
    obtain ⟨s2, f1, f2, f3⟩ := ih e2 e3 (fuel := fuel) (by omega)
    refine ⟨s2, ?_, f2, f3⟩
    show (s.act fuel a >>= fun x => x.2.program fuel as >>= fun y => .ok (x.1 ++ y.1, y.2)) = _
    rw [e1, R.bind_ok]
    dsimp only
    rw [f1]; rfl

/-- A new instance shows the shelf with the file of its configuration in use. -/
theorem C83_start {base : ICfg} {w : Nat} (hb : base.Usable w) {f : Answers} (hf : base.oc.auto = some f) (hk : CompleterFits base.oc.U f)
    {files : List Rune → List (List Rune)} (hs : ∀ p, p ≠ [] → ∀ t ∈ files p, Storable t) (inp : List Rune) :
    (Inst.start base w (fun p => fileOf (files p)) inp).Shows base w
      ((Shelf.mk files [] f Book.empty []).use base.oc.h.limit base.path) := by
  have hbase : base.on f base.path = base := by unfold ICfg.on; rw [← hf]
  obtain ⟨k1, k2, k3, k4, k5, k6, k7, k8⟩ := Inst.opened_history (f := f) hb (p := base.path) (sh := Shelf.mk files [] f Book.empty []) (files := fun p => fileOf (files p))
    ⟨[], [], []⟩ (fun hp => ⟨rfl, hs _ hp⟩)
  rw [hbase] at k1 k2 k3 k4 k5 k6 k8
  have hup : ((Shelf.mk files [] f Book.empty []).use base.oc.h.limit base.path).path = base.path := by unfold Shelf.use; split <;> simp_all
  have hua : ((Shelf.mk files [] f Book.empty []).use base.oc.h.limit base.path).auto = f := by unfold Shelf.use; split <;> rfl
  have hbook : { ((Shelf.mk files [] f Book.empty []).use base.oc.h.limit base.path).book with line := ⟨[], [], []⟩ } =
      ((Shelf.mk files [] f Book.empty []).use base.oc.h.limit base.path).book := by
    unfold Shelf.use; split <;> rfl
  rw [hbook] at k5
  have hline : ((Shelf.mk files [] f Book.empty []).use base.oc.h.limit base.path).book.line = ⟨[], [], []⟩ := by rw [← hbook]
  have huf : ∀ q, q ≠ [] → (if q = base.path then fileOf (keepNewest base.oc.h.limit (files base.path)) else fileOf (files q)) =
      fileOf (((Shelf.mk files [] f Book.empty []).use base.oc.h.limit base.path).files q) ∧
      ∀ t ∈ ((Shelf.mk files [] f Book.empty []).use base.oc.h.limit base.path).files q, Storable t := by
    intro q hq
    unfold Shelf.use
    by_cases e : q = base.path
    · have hp : base.path ≠ [] := e ▸ hq
      simp only [if_pos e, if_neg hp]
      exact ⟨trivial, fun t ht => hs _ hp t (mem_keepNewest ht)⟩
    · by_cases hp : base.path = []
      · simp only [if_neg e, if_pos hp]; exact ⟨trivial, hs q hq⟩
      · simp only [if_neg e, if_neg hp]; exact ⟨trivial, hs q hq⟩
  have hupg : ((Shelf.mk files [] f Book.empty []).use base.oc.h.limit base.path).path ≠ [] →
      ((Shelf.mk files [] f Book.empty []).use base.oc.h.limit base.path).book.pages ≠ [] := by
    rw [hup]
    intro hp
    unfold Shelf.use
    rw [if_neg hp]
    simp [Book.filled]
  generalize (Shelf.mk files [] f Book.empty []).use base.oc.h.limit base.path = S at *
  generalize hH : (Hist.fresh (fileOf (files base.path))).init base.hcfg = H at *
  obtain ⟨s, hst⟩ : ∃ s, s = Inst.start base w (fun p => fileOf (files p)) inp := ⟨_, rfl⟩
  have c1 : s.objs 0 = ⟨0, H, base.path⟩ ∧ s.files = Inst.upd (fun p => fileOf (files p)) base.path H.disk := by
    rw [hst, ← hH]
    simp [Inst.start, Inst.putHist, Inst.upd, Inst.histAt, Inst.pathAt, Hist.fresh]
  have pth : s.pathAt 0 = base.path := by
    unfold Inst.pathAt
    rw [c1.1, hst]
    split <;> rfl
  have hloop : s.loop = { Op.init base.prompt true w (Hist.fresh []) inp with hist := H } := by
    have h0 : s.hist = 0 := by rw [hst]; rfl
    have hop : s.op = Op.init base.prompt true w (Hist.fresh []) inp := by rw [hst]; rfl
    unfold Inst.loop Inst.histAt
    rw [h0, pth, c1.1, c1.2, hop]
    simp [Inst.upd]
  obtain ⟨pl, p1, p2⟩ := hb.prompt
  rw [← hst]
  have hh : s.hist = 0 ∧ s.cur = 0 ∧ s.icfg = 0 ∧ s.bufCfg = 0 ∧ s.search = 0 ∧ s.nCfg = 1 ∧ s.nHist = 1 ∧
      s.cfgs 0 = { base with hist := some 0, search := some 0 } ∧ s.op.rb.width = w := by rw [hst]; exact ⟨rfl, rfl, rfl, rfl, rfl, rfl, rfl, rfl, rfl⟩
  obtain ⟨g1, g2, g3, g4, g5, g6, g7, g8, g9⟩ := hh
  refine ⟨by rw [g3, g2], by rw [g4, g2], by rw [g2, g6]; decide, ?_, by rw [g5, g1], by rw [g1, c1.1, g2], by rw [g1, g7]; decide, ?_, ?_, ?_, ?_, ?_, ?_, g9, ?_, ?_, hupg⟩
  · rw [g2, g8, g1, hup, hua, hbase]
  · rw [g1, c1.1, hup]; exact k4
  · intro _
    rw [g1, c1.1, hup]
  · intro q hq
    rw [← (huf q hq).1, c1.2]
    refine ⟨?_, (huf q hq).2⟩
    unfold Inst.upd
    by_cases e : q = base.path
    · rw [if_pos e, if_pos e, k8 (e ▸ hq)]
    · rw [if_neg e, if_neg e]
  · rw [hua]; exact hk
  · rw [hloop, hup, hua, hbase]
    exact init_Ready (c := base.ocfg) (Int.natCast_pos.2 hb.width) p1 p2 hb.painter k1
  · rw [hloop]; exact fun _ => ⟨rfl, rfl⟩
  · rw [hloop, hup, hua, hbase]
    refine ⟨k5, ?_, fun _ => .inl k3, k2, k7⟩
    rw [hline]; rfl
  · rw [hloop]; exact k6

/-- What `Operation.SetConfig` does with a configuration not used before, for whatever purpose (a password, another file): its file is loaded into
a new history; prompt, configuration of the buffer and search are the new ones.  The mask rune goes into the old configuration (see C52). -/
theorem C83_config (s : Inst) (c : Nat) (h1 : s.cur ≠ c) (h2 : s.bufCfg ≠ c) (h3 : (s.cfgs c).hist = none) (h4 : s.hist < s.nHist) : let s' := s.setConfig c
    s'.cur = c ∧ s'.bufCfg = c ∧ s'.op.rb.prompt = (s.cfgs c).prompt ∧ s'.cfgs c = { s.cfgs c with hist := some s.nHist, search := some s.nHist } ∧
    (s'.cfgs s.bufCfg).oc.d.maskRune = (s.cfgs c).oc.d.maskRune ∧ s'.hist = s.nHist ∧ s'.search = s.nHist ∧
    s'.loop.hist = Hist.start (s.cfgs c).hcfg (s.files (s.cfgs c).path) ∧ s'.files = Inst.upd s.files (s.cfgs c).path s'.loop.hist.disk ∧
    (s'.objs s.hist).h = (s.objs s.hist).h.close := by
  have n1 : ¬ c = s.bufCfg := fun a => h2 a.symm
  have n2 : ¬ s.hist = s.nHist := by omega
  by_cases ha : (s.cfgs c).oc.auto.isSome = true
  all_goals
    simp [Inst.setConfig, h1, h2, n1, n2, h3, ha, Inst.setPrompt, Inst.setMask, Inst.upd, Inst.setHistoryPath, Inst.putHist, Inst.loop, Inst.histAt, Inst.pathAt, ICfg.hcfg]
    simp [Hist.fresh, Hist.start]
    rfl

/-- A configuration with a mask, as for a password, in a program that has two configurations. -/
example : let s : Inst := Inst.start { oc := c0, prompt := [62], path := [], hist := none, search := none } 80 (fun _ => []) []
    let s := { s with nCfg := 2, cfgs := Inst.upd s.cfgs 1 { (s.cfgs 0).clone with oc := { c0 with d := { c0.d with maskRune := 42 } } } }
    s.cur ≠ 1 ∧ s.bufCfg ≠ 1 ∧ (s.cfgs 1).hist = none ∧ s.hist < s.nHist ∧ (s.cfgs 0).oc.d.maskRune ≠ 42 ∧ ((s.setConfig 1).cfgs 0).oc.d.maskRune = 42 := by
  decide +kernel

/-! ## Examples -/

/-- The configuration of the package-level functions, with a completer. -/
def cfg83 : ICfg := { oc := { desk1 with noSave := true }, prompt := [62, 32], path := [], hist := none, search := none }

/-- Two files: "f" with "ab" and "cd", "g" with "e". -/
def files83 : List Rune → List (List Rune) := fun p => if p = [102] then [[97, 98], [99, 100]] else if p = [103] then [[101]] else []

def shelf83 : Shelf := ⟨files83, [], afterOne, Book.empty, []⟩

theorem storable83 : ∀ p, p ≠ [] → ∀ t ∈ files83 p, Storable t := by
  intro p _ t ht
  unfold files83 at ht
  split at ht
  · simp only [List.mem_cons, List.not_mem_nil, or_false] at ht
    rcases ht with rfl | rfl <;> exact ⟨by decide, by decide, by decide, by decide, by unfold Scalar; decide⟩
  · split at ht
    · rw [List.mem_singleton.1 ht]
      exact ⟨by decide, by decide, by decide, by decide, by unfold Scalar; decide⟩
    · cases ht

theorem usable83 : cfg83.Usable 80 :=
  ⟨⟨rfl, by simp [Op.Observer, cfg83, desk1, c0]⟩, by decide, rfl, by decide, by decide, 2, rfl, by decide⟩

theorem fits83 : CompleterFits U0 afterOne := friendly_desk1.completer _ rfl

/-- The program takes file "f" into use, reads "x" and adds it, goes over to file "g" and reads its last entry with Ctrl-P, comes back to file
"f" and finds "x" there. -/
theorem run83 : ∃ sh, ShelfRun (cfg83.shelf 80) [.path [102], .line [62], .add [120], .path [103], .line [62], .path [102], .line [62]]
    [120, 13, 16, 13, 16, 13] [.line [120], .line [101], .line [120]] shelf83 sh ∧ sh.files [102] = [[97, 98], [99, 100], [120]] ∧ sh.files [103] = [[101]] := by
  have hp : GoodPrompt U0 80 [62] := ⟨1, rfl, by decide⟩
  have h120 : Storable [120] := ⟨by decide, by decide, by decide, by decide, by unfold Scalar; decide⟩
  refine ⟨_, .step (ks := []) (es := []) .path (.step (ks := [120] ++ [13]) (es := [.line [120]])
    (.line hp (.cons (.desk (.plain (.edit (z := ⟨[120], [], []⟩) (.inl rfl))) id) .nil) (.desk (.plain (.enter (.inl rfl) (by decide)))) (fun _ t ht => by cases ht))
    (.step (ks := []) (es := []) (.add (.inl (by decide)) (fun _ x hx => ?_)) (.step (ks := []) (es := []) .path (.step (ks := [16] ++ [13]) (es := [.line [101]])
    (.line hp (.cons (.desk (.plain .older) id) .nil) (.desk (.plain (.enter (.inl rfl) (by decide)))) (fun _ t ht => by cases ht))
    (.step (ks := []) (es := []) .path (.step (ks := [16] ++ [13]) (es := [.line [120]])
    (.line hp (.cons (.desk (.plain .older) id) .nil) (.desk (.plain (.enter (.inl rfl) (by decide)))) (fun _ t ht => by cases ht)) .done)))))), ?_⟩
  · exact List.mem_singleton.1 hx ▸ h120
  · exact ⟨rfl, rfl⟩

/-- What a test can see of a program. -/
def seen83 (x : R (List Event × Inst)) : R (List Event × List (List Rune) × List Nat × List Nat) :=
  x.map fun x => (x.1, x.2.loop.hist.entries, x.2.files [102], x.2.files [103])

def start83 (inp : List Rune) : Inst := Inst.start cfg83 80 (fun p => fileOf (files83 p)) inp

/-- The hypotheses of `C83_program_partial` hold for that program, and the model agrees. -/
example : (start83 [120, 13, 16, 13, 16, 13]).Shows cfg83 80 shelf83 ∧
    seen83 ((start83 [120, 13, 16, 13, 16, 13]).program 20 [.path [102], .line [62], .add [120], .path [103], .line [62], .path [102], .line [62]]) =
      .ok ([.line [120], .line [101], .line [120]], [[97, 98], [99, 100], [120]], fileOf [[97, 98], [99, 100], [120]], fileOf [[101]]) :=
  ⟨C83_start usable83 rfl fits83 storable83 _, by decide +kernel⟩

/-! ## Where the code does not do what its comments say -/

/-- A history without an open file writes to none. -/
theorem new_silent {cfg : HCfg} {h h1 : Hist} (w : h.WF) {t : List Rune} (hfd : h.fd ≠ .opened) (e : h.new cfg t = .ok h1) : h1.disk = h.disk := by
  unfold Hist.new at e
  split at e
  · cases e; rfl
  split at e
  · next hb =>
    split at e
    · have w' : ({ h with current := none } : Hist).WF := ⟨w.nodup, w.known, fun c a => (by cases a), fun _ => List.getLast?_eq_none_iff.1 hb, w.version⟩
      obtain ⟨_, _, _, _, _, _, _, k8, _⟩ := commit_spec w' cfg t e
      rw [k8, if_neg fun c => hfd c.2]; simp
    · obtain ⟨_, _, _, _, _, _, _, k8, _⟩ := commit_spec w cfg t e
      rw [k8, if_neg fun c => hfd c.2]; simp
  · split at e
    · cases e; rfl
    split at e
    · cases e; rfl
    · obtain ⟨_, _, _, _, _, _, _, k8, _⟩ := commit_spec w cfg t e
      rw [k8, if_neg fun c => hfd c.2]; simp

namespace Inst

/-- The program adds some lines. -/
def saveAll : List (List Rune) → Inst → R Inst
  | [], s => .ok s
  | t :: ts, s => s.saveHistory t >>= saveAll ts

theorem saveAll_silent {ts : List (List Rune)} : ∀ {s s' : Inst}, (s.objs s.hist).h.WF → (s.objs s.hist).h.fd ≠ .opened → saveAll ts s = .ok s' → s'.files = s.files := by
  induction ts with
  | nil => intro s s' _ _ e; cases e; rfl
  | cons t ts ih =>
    intro s s' w hfd e
    obtain ⟨s1, e1, e2⟩ := R.bind_inv e
    unfold saveHistory at e1
    obtain ⟨h1, f1, f2⟩ := R.bind_inv e1
    cases f2
    have hw : (s.histAt s.hist).WF := { w with }
    have hd := new_silent hw hfd f1
    have hf := new_fd f1
    obtain ⟨h1', g1, gw⟩ := new_ok hw (s.cfgs (s.objs s.hist).cfg).hcfg t
    rw [f1, Except.ok.injEq] at g1
    subst g1
    have hobj : (s.putHist s.hist h1).objs (s.putHist s.hist h1).hist = { s.objs s.hist with h := h1, file := s.pathAt s.hist } := by simp [putHist, upd]
    rw [ih (by rw [hobj]; exact gw) (by rw [hobj]; show h1.fd ≠ _; rw [hf]; exact hfd) e2]
    funext p
    show upd s.files (s.pathAt s.hist) h1.disk p = _
    unfold upd
    split
    · next h => rw [hd, h]; rfl
    · rfl

end Inst

/-- `Instance.SetHistoryPath` does not use the file it is given: whatever was in it, the history is empty afterwards, and whatever is added to it is
not written to any file.  It is not the history that is searched either. -/
theorem C83_false_path (s : Inst) (p : List Rune) : let s1 := s.setHistoryPath p
    s1.loop.hist.entries = [] ∧ (∀ ts s2, Inst.saveAll ts s1 = .ok s2 → s2.files = s.files) ∧ (s.search < s.nHist → s1.search ≠ s1.hist) := by
  have hobj : (s.setHistoryPath p).objs (s.setHistoryPath p).hist = ⟨s.cur, Hist.fresh [], []⟩ := by simp [Inst.setHistoryPath, Inst.upd]
  refine ⟨?_, fun ts s2 e => ?_, fun h => ?_⟩
  · show ((s.setHistoryPath p).histAt (s.setHistoryPath p).hist).entries = []
    unfold Inst.histAt
    rw [hobj]; rfl
  · exact (Inst.saveAll_silent (by rw [hobj]; exact Hist.fresh_WF _) (by rw [hobj]; exact fun a => by cases a) e).trans rfl
  · show s.search ≠ s.nHist
    omega

/-- The function of /repo/std.go of the same name does: the same calls with it load "g" and add to it. -/
example : ((start83 []).setHistoryPath [103]).loop.hist.entries = [] ∧
    (((start83 []).setHistoryPath [103]).saveHistory [120]).map (fun s => s.files [103]) = .ok (fileOf [[101]]) ∧
    seen83 ((start83 []).program 5 [.path [103], .add [120]]) = .ok ([], [[101], [120]], fileOf [[97, 98], [99, 100]], fileOf [[101], [120]]) := by decide +kernel

/-- Afterwards any `ReadPassword` mixes the files: file "f" is in use, `Instance.SetHistoryPath("g")` is called, the configuration is changed for a
password and changed back.  Then the entries are those of "f", an empty one, and those of "g". -/
theorem C83_false_password : let s := (start83 []).change (fun c => { c with path := [102] })
    let s := s.setHistoryPath [103]
    let back := s.cur
    let s := s.change (fun c => { c with path := [] })
    (s.setConfig back).loop.hist.entries = [[97, 98], [99, 100], [], [101]] := by decide +kernel

/-- `SetAutoComplete` forgets the history if there is no file: after `AddHistory("a")` Ctrl-P recalls "a", but not if the completer is set in
between. -/
theorem C83_false_auto : seen83 ((start83 [16, 13]).program 20 [.add [97], .line [62]]) = .ok ([.line [97]], [[97]], fileOf (files83 [102]), fileOf (files83 [103])) ∧
    seen83 ((start83 [16, 13]).program 20 [.add [97], .auto afterOne, .line [62]]) = .ok ([.line []], [], fileOf (files83 [102]), fileOf (files83 [103])) :=
  ⟨by decide +kernel, by decide +kernel⟩

/-- `AddHistory` need not record what it is given: in file "f" the entry "ab" is recalled and entered; then `AddHistory("x")` records "ab". -/
theorem C83_false_add : seen83 ((start83 [16, 16, 13]).program 20 [.path [102], .line [62], .add [120]]) =
    .ok ([.line [97, 98]], [[97, 98], [99, 100], [97, 98]], fileOf [[97, 98], [99, 100], [97, 98]], fileOf (files83 [103])) := by decide +kernel

end RL
