import Verif.Spec.VimBook
import Verif.Props.Browse
import Verif.Props.Vim
/-! # C76: whole sessions in vim mode -/

namespace RL
open Spec Hist

theorem committed_record {cfg : HCfg} (hl : 0 < cfg.limit) {h : Hist} (w : h.WF) (hen : h.enable = true) {s : List Rune}
    (hne : h.order ≠ [] ∨ s ≠ []) {h1 : Hist} (e : h.new cfg s = .ok h1) :
    (h1.update cfg [] false).entries =
      keepNewest (cfg.limit - 1) (if s = [] ∨ h.entries.getLast? = some s then h.entries else h.entries ++ [committed h s]) ∧
    (h1.update cfg [] false).disk = h.disk ++
      (if s ≠ [] ∧ h.entries.getLast? ≠ some s ∧ h.order ≠ [] ∧ h.fd = .opened then encode (committed h s) ++ [10] else []) := by
  obtain ⟨x, hx⟩ := new_current hen e
  have hup : ∀ es, h1.entries = es → (h1.update cfg [] false).entries = keepNewest (cfg.limit - 1) es := by
    intro es hes
    obtain ⟨u1, u2, _, _⟩ := update_false_order hx cfg []
    unfold Hist.entries at hes ⊢
    rw [u1, u2, keepNewest_dropLast hl, keepNewest_map]
    congr 1
    rw [← hes]
    apply List.map_congr_left
    intro i _
    by_cases hi : i = x
    · simp [hi]
    · simp [hi]
  have hdisk : (h1.update cfg [] false).disk = h1.disk := by simp [Hist.update, hx, compact, setItem]
  rw [hdisk]
  by_cases hr : s = [] ∨ h.entries.getLast? = some s
  · have ho : h.order ≠ [] := by
      rcases hne with a | a
      · exact a
      · rcases hr with b | b
        · exact (a b).elim
        · intro c
          rw [Hist.entries, c] at b
          simp at b
    obtain ⟨h2, f1, _, f3, f4⟩ := C22_unchanged_partial cfg h w ho s hr
    rw [e, Except.ok.injEq] at f1
    subst f1
    refine ⟨?_, ?_⟩
    · rw [hup _ f3, if_pos hr]
    · rw [f4, if_neg, List.append_nil]
      rintro ⟨a, b, _⟩
      rcases hr with c | c
      · exact a c
      · exact b c
  · have hs : s ≠ [] := fun a => hr (.inl a)
    have hg : h.entries.getLast? ≠ some s := fun a => hr (.inr a)
    have hc : h.commit cfg s = .ok h1 := by
      unfold Hist.new at e
      rw [if_neg (by simp [hen])] at e
      cases hb : h.back with
      | none =>
        rw [hb] at e
        simpa [hs] using e
      | some b =>
        rw [hb] at e
        have : ¬ h.repeatsNewest b s = true := fun hr => hg ((repeatsNewest_iff w hb s).1 hr)
        simpa [hs, this] using e
    obtain ⟨k1, _, _, _, _, _, _, k8, _⟩ := commit_spec w cfg s hc
    refine ⟨?_, ?_⟩
    · rw [hup _ k1, if_neg hr, keepNewest_keepNewest (by omega)]
    · rw [k8]
      congr 1
      simp [hs, hg, fileLine]

theorem Book.note_at {limit : Int} (hl : 0 < limit) {b : Book} (ho : b.pages = [] ∨ b.pos < b.pages.length)
    (hk : b.pages.length - limit.toNat ≤ b.pos) : (b.note limit).pages[(b.note limit).pos]? = some b.line.text := by
  unfold Book.note
  split
  · rfl
  · next hp =>
    have h1 := ho.resolve_left hp
    simp only [keepNewest, List.length_set, List.getElem?_drop]
    rw [show b.pages.length - limit.toNat + (b.pos - (b.pages.length - limit.toNat)) = b.pos by omega]
    simp [h1]

theorem Book.turn_open {b : Book} (ho : b.pages = [] ∨ b.pos < b.pages.length) (i : Nat) :
    (b.turn i).pages = [] ∨ (b.turn i).pos < (b.turn i).pages.length := by
  unfold Book.turn
  split
  · next h => exact .inr (List.getElem?_eq_some_iff.1 h).1
  · exact ho

theorem Hist.Shows.open {h : Hist} {b : Book} (s : h.Shows b) : b.pages = [] ∨ b.pos < b.pages.length := by
  by_cases hp : b.pages = []
  · exact .inl hp
  · obtain ⟨x, _, hx⟩ := s.pos hp
    rw [s.length]
    exact .inr (List.getElem?_eq_some_iff.1 hx).1

theorem BookKey.noted {limit : Int} (hl : 0 < limit) {h : Hist} {r : Rune} {b b' : Book} (s : h.Shows b) (hf : Fits limit b)
    (hk : BookKey limit r b b') : b'.pages[b'.pos]? = some b'.line.text := by
  cases hk with
  | edit =>
    rw [Book.note_line]
    exact Book.note_at hl s.open hf.pos
  | older =>
    rw [Book.note_line]
    refine Book.note_at hl ?_ hf.older
    unfold Book.older
    split
    · exact s.open
    · exact Book.turn_open s.open _
  | newer =>
    rw [Book.note_line]
    exact Book.note_at hl (Book.turn_open s.open _) hf.newer

/-- The open page is the last one exactly if nothing is recalled. -/
theorem Hist.Shows.last {h : Hist} (w : h.WF) {b : Book} (s : h.Shows b) : h.current = h.back ↔ ¬ b.pos + 1 < b.pages.length := by
  by_cases hp : b.pages = []
  · have hl := s.length
    rw [hp] at hl
    rw [s.empty hp, Hist.back, List.eq_nil_of_length_eq_zero hl.symm, hp]
    simp
  · obtain ⟨x, h1, h2⟩ := s.pos hp
    obtain ⟨h3, h4⟩ := List.getElem?_eq_some_iff.1 h2
    rw [h1, Hist.back, List.getLast?_eq_getElem?, s.length]
    constructor
    · intro e hlt
      obtain ⟨h5, h6⟩ := List.getElem?_eq_some_iff.1 e.symm
      have := (List.getElem_inj w.nodup).1 (h4.trans h6.symm)
      omega
    · intro hlt
      rw [← h2]
      congr 1
      omega

/-- What a session shows is the book, and the page that is open, if it is not the last one, carries what Enter would record. -/
structure Op.Seen (c : OCfg) (o : Op) (b : Book) : Prop extends Op.Opened c o b where
  seen : c.noSave = false → o.hist.current = o.hist.back ∨ ∃ x, o.hist.current = some x ∧ b.pages[b.pos]? = some (o.hist.elems x).tmp

theorem Op.Seen.entry {c : OCfg} {o : Op} {b : Book} (h : Op.Seen c o b) (w : o.hist.WF) (hn : c.noSave = false) :
    committed o.hist b.line.text = b.entry := by
  have hla := h.hist.last w
  unfold committed Book.entry
  by_cases hc : o.hist.current = o.hist.back
  · rw [if_pos hc, if_neg (hla.1 hc)]
  · rw [if_neg hc, if_pos (Decidable.byContradiction fun a => hc (hla.2 a))]
    obtain ⟨x, h1, h2⟩ := (h.seen hn).resolve_left hc
    rw [h1, List.getD_eq_getElem?_getD, h2]
    rfl

theorem Op.Shows.seen {c : OCfg} {o : Op} {b : Book} (h : Op.Shows c o b) (hb : b.pages[b.pos]? = some b.line.text) : Op.Seen c o b :=
  ⟨h.opened, fun a => (h.noted a).imp_right fun ⟨x, h1, h2⟩ => ⟨x, h1, by rw [h2]; exact hb⟩⟩

namespace Op
variable {c : OCfg}

theorem Opened.took {o : Op} {b : Book} (h : Opened c o b) (r rest) : Opened c (o.took r rest) b := ⟨h.hist, h.line, h.enable, h.fits⟩

theorem Seen.line' {o o' : Op} {b : Book} (h : Seen c o b) {z : Line} (hh : o'.hist = o.hist) (hz : o'.rb.toEd.line = z) :
    Seen c o' { b with line := z } :=
  ⟨⟨by rw [hh]; exact ⟨h.hist.stored, h.hist.length, h.hist.pages, h.hist.pos, h.hist.empty, h.hist.rest⟩, hz, by rw [hh]; exact h.enable, h.fits⟩,
    by rw [hh]; exact h.seen⟩

/-- In normal mode a key that stands for one of the key switch. -/
theorem iter_stands (hp : Plain c) (hvim : c.vim = true) {o : Op} (h : Quiet c o) (hv : o.Live) (hn : o.vimNormal = true)
    {k r : Rune} {rest : List Rune} (hi : o.inp = k :: rest) (hk0 : k ≠ 0) (hr : r ≠ 0) (he : ¬ (k = CharEnter ∨ k = CharInterrupt))
    (hm : ∀ o, vimMovement c k o = .ok (some (r, o))) : o.iter c = (o.took k rest).dispatch c r := by
  rw [iter_nomenu hv hp.filter hi hk0 h.nosel]
  unfold viaVim handleVim
  rw [if_pos hvim, if_pos (show (o.took k rest).vimNormal = true from hn), normal_move he (hm _), R.bind_ok]
  dsimp only
  rw [if_neg hr]

theorem vim_unknown {k : Rune} (hk : k ∉ vimKnown) (o : Op) : vimNormalKey c k o = .ok (0, o.bell) := by
  unfold vimKnown at hk
  simp only [List.mem_cons, List.not_mem_nil, or_false, not_or] at hk
  unfold vimNormalKey vimMovement vimEnterInsert
  simp [hk, CharEnter, CharInterrupt]

/-- One step of a vim session. -/
theorem iter_step (hp : Plain c) (hvim : c.vim = true) (hl : 0 < c.h.limit) {o : Op} (h : Quiet c o) (hv : o.Live) {m m' : Bool} (hm : o.vimNormal = m)
    {b b' : Book} (hs : Seen c o b) {ks rest : List Rune} (hi : o.inp = ks ++ rest) (hb : VimStep c.h.limit ks m b m' b') :
    ∃ o', o.iter c = .ok o' ∧ Quiet c o' ∧ o'.Live ∧ o'.inp = rest ∧ o'.events = o.events ∧ o'.stopped = o.stopped ∧
      o'.vimNormal = m' ∧ o'.hist.file = o.hist.file ∧ Seen c o' b' := by
  have stands : ∀ {k r : Rune} {b' : Book}, o.inp = k :: rest → o.vimNormal = true → k ≠ 0 → stopKey k = false → ¬ (k = CharEnter ∨ k = CharInterrupt) →
      (∀ o, vimMovement c k o = .ok (some (r, o))) → BookKey c.h.limit r b b' →
      ∃ o', o.iter c = .ok o' ∧ Quiet c o' ∧ o'.Live ∧ o'.inp = rest ∧ o'.events = o.events ∧ o'.stopped = o.stopped ∧
        o'.vimNormal = true ∧ o'.hist.file = o.hist.file ∧ Seen c o' b' := by
    intro k r b' hi hn h0 hst he hmv hk
    obtain ⟨o', e1, e2, e3, e4, e5, e6, e7, e8, e9, e10, e11, e12⟩ := dispatch_book hp hl (h.took k rest) (hs.toOpened.took k rest) hk
    exact ⟨o', by rw [iter_stands hp hvim h hv hn hi h0 e5 he hmv]; exact e1, e2, .inl (e3.trans hst), e7, e8, e9, e10.trans hn, e11,
      e12.seen (BookKey.noted hl hs.hist hs.fits hk)⟩
  cases hb with
  | insert hk =>
    obtain ⟨o', e1, e2, e3, e4, e5, e6, e7, e8, e9⟩ := iter_book hp hl h hv (.inr hm) hs.toOpened hi hk
    exact ⟨o', e1, e2, e3, e4, e5, e6, e7.trans hm, e8, e9.seen (BookKey.noted hl hs.hist hs.fits hk)⟩
  | escape =>
    refine ⟨_, C41_escape hvim hp.filter hm h.nosel hv hi, (h.io rest false _).vim true, .inl rfl, rfl, rfl, rfl, rfl, rfl, ?_⟩
    exact hs.line' rfl hs.line
  | @command _ _ z ins hc n1 n2 hk =>
    have hk : ∀ k ∈ ks, stopKey k = false := by
      intro k a
      have := hk k a
      simp only [List.mem_cons, List.not_mem_nil, or_false, not_or] at this
      simp [stopKey, CharInterrupt, CharEnter, CharCtrlJ, CharDelete, this]
    obtain ⟨o', e1, e2, e3, e4, e5, e6, e7, e8, e9⟩ := iter_vim hp h hvim hm hv (by rw [hs.line]; exact hc) hk hi
    exact ⟨o', e1, e2, e8, e5, e6, e7, e4, by rw [e9 n1 n2], hs.line' (e9 n1 n2) e3⟩
  | left => exact stands hi hm (by decide) (by decide) (by decide) (fun _ => rfl) (.edit (r := 2) (.inl rfl))
  | right => exact stands hi hm (by decide) (by decide) (by decide) (fun _ => rfl) (.edit (r := 6) (.inl rfl))
  | older => exact stands hi hm (by decide) (by decide) (by decide) (fun _ => rfl) .older
  | newer => exact stands hi hm (by decide) (by decide) (by decide) (fun _ => rfl) .newer
  | @unknown k _ hk =>
    have hk' := hk
    unfold vimKnown at hk'
    simp only [List.mem_cons, List.not_mem_nil, or_false, not_or] at hk'
    refine ⟨bell (o.took k rest), ?_, (h.took k rest).write _, .inl ?_, rfl, rfl, rfl, hm, rfl, hs.line' rfl hs.line⟩
    · rw [iter_nomenu hv hp.filter (show o.inp = k :: rest from hi) (by omega) h.nosel]
      unfold viaVim handleVim
      rw [if_pos hvim, if_pos (show (o.took k rest).vimNormal = true from hm), vim_unknown hk, R.bind_ok]
      rfl
    · show stopKey k = false
      simp [stopKey, CharInterrupt, CharEnter, CharCtrlJ, CharDelete, hk']

/-- A key that ends the line in a vim session. -/
theorem iter_vim_end (hp : Plain c) (hvim : c.vim = true) (hl : 0 < c.h.limit) {o : Op} (h : Quiet c o) (hv : o.Live) {m : Bool}
    (hm : o.vimNormal = m) {b b' : Book} (hs : Seen c o b) {r : Rune} {e : Event} {rest : List Rune} (hi : o.inp = r :: rest)
    (hb : VimEnd (!c.noSave) c.h.limit r m b e b') :
    ∃ o', o.iter c = .ok o' ∧ Quiet c o' ∧ o'.inp = rest ∧ o'.events = o.events ++ [e] ∧ o'.stopped = o.stopped ∧ o'.vimNormal = false ∧
      Seen c o' b' ∧ o'.hist.fd = o.hist.fd ∧
      (o.hist.fd = .opened → b.pages ≠ [] → o'.hist.disk = o.hist.disk ++ fileOf ((added (!c.noSave) b.stored e).map fun _ => b.entry)) := by
  have ht : o.rb.buf = b.line.text := by rw [← hs.line, Ed.line_text]
  have canc : ∀ {o' : Op}, o'.rb.toEd = { o.rb.toEd with buf := [], idx := 0 } → Reverted o.hist o'.hist →
      Seen c o' b.cancel ∧ o'.hist.fd = o.hist.fd ∧ o'.hist.disk = o.hist.disk := by
    intro o' e1 e2
    refine ⟨⟨⟨hs.hist.cancel e2, cleared_line hs.line e1, e2.enable.trans hs.enable, cancel_fits hs.hist hs.fits⟩, fun _ => .inl ?_⟩, e2.fd, e2.disk⟩
    exact e2.current
  cases hb with
  | enter hr hne =>
    have hr' : r = CharEnter ∨ r = CharCtrlJ := hr.imp_right fun a => a.1
    obtain ⟨_, hr0, hre⟩ := stopKey_enter hr'
    obtain ⟨o1, d1, d2, d3⟩ : ∃ o1, o.iter c = dispatch c r o1 ∧ o1 = { o.took r rest with vimNormal := false } ∧ Quiet c o1 := by
      rcases hr with rfl | ⟨rfl, hm'⟩
      · obtain ⟨x, e1, e2, e3⟩ := viaVim_out (c := c) (o := o.took 13 rest) (r := 13) (.inl rfl)
        rw [e3 hvim] at e1
        exact ⟨_, (iter_nomenu hv hp.filter hi hr0 h.nosel).trans e1, rfl, (h.took _ _).vim false⟩
      · have hmf : o.vimNormal = false := hm.trans hm'
        refine ⟨o.took 10 rest, iter_emacs hv hp.filter hi hr0 h.nosel (.inr ⟨hmf, hre⟩), ?_, h.took _ _⟩
        show _ = ({ o.took 10 rest with vimNormal := false } : Op)
        rw [← show (o.took 10 rest).vimNormal = false from hmf]
    subst d2
    obtain ⟨k, e1, e2, e3, e4, e5, e6, e7, e8, e9, e10, e11⟩ := key_submit d3 hr'
    have hbuf : k.op.rb.buf = [] := by show k.op.rb.toEd.buf = _; rw [e3]
    have hit : o.iter c = .ok (if k.update then k.op.updateHistory c else k.op) := by rw [d1, dispatch_quiet hp.listener e1 e2]
    have hev : k.op.events = o.events ++ [.line b.line.text] := by rw [← ht]; exact e4
    cases hn : c.noSave with
    | false =>
      obtain ⟨u1, u2⟩ := e10 hn
      have u2 : o.hist.new c.h o.rb.buf = .ok k.op.hist := u2
      rw [ht] at u2
      rw [u1, if_pos rfl] at hit
      have hcm := hs.entry h.base.hist hn
      obtain ⟨v1, v2⟩ := committed_record hl h.base.hist hs.enable ((hne (by rw [hn]; rfl)).imp_left fun a b =>
        a (List.length_eq_zero_iff.1 (by rw [hs.hist.length, b]; rfl))) u2
      rw [hcm, hs.hist.stored] at v1 v2
      obtain ⟨s1, s2⟩ := Hist.Shows.saved hl h.base.hist hs.enable u2 v1 b.cleared
      have hh : (k.op.updateHistory c).hist = k.op.hist.update c.h [] false := by show k.op.hist.update c.h k.op.rb.buf false = _; rw [hbuf]
      have hw : (k.op.hist.update c.h [] false).WF := by rw [← hh]; exact e2.update.base.hist
      refine ⟨_, hit, e2.update, e5, hev, e8, e9, ⟨⟨by rw [hh]; exact s1, cleared_line hs.line e3, by rw [hh]; exact s2, .inl ?_⟩, fun _ => .inl ?_⟩,
        ?_, fun ho hpg => ?_⟩
      · show (keepNewest (c.h.limit - 1) _ ++ [[]]).length ≤ _
        have := keepNewest_length (c.h.limit - 1) b.recorded
        simp only [List.length_append, List.length_singleton]
        omega
      · rw [hh, s1.last hw]
        simp
      · rw [hh]
        exact (congrArg Prod.snd (update_file k.op.hist c.h [])).trans (new_fd u2)
      · rw [hh, v2]
        have hord : o.hist.order ≠ [] := fun a => hpg (List.length_eq_zero_iff.1 (by rw [hs.hist.length, a]; rfl))
        congr 1
        rw [added]
        by_cases hc : b.line.text ≠ [] ∧ b.stored.getLast? ≠ some b.line.text
        · rw [if_pos ⟨hc.1, hc.2, hord, ho⟩, if_pos ⟨rfl, hc⟩]
          simp [fileOf]
        · rw [if_neg fun a => hc ⟨a.1, a.2.1⟩, if_neg fun a => hc a.2]
          rfl
    | true =>
      obtain ⟨u1, u2⟩ := e11 hn
      have u2 : k.op.hist = o.hist := u2
      rw [u1] at hit
      simp only [Bool.false_eq_true, if_false] at hit
      refine ⟨_, hit, e2, e5, hev, e8, e9, ⟨⟨by rw [u2]; exact ⟨hs.hist.stored, hs.hist.length, hs.hist.pages,
        hs.hist.pos, hs.hist.empty, hs.hist.rest⟩, cleared_line hs.line e3, by rw [u2]; exact hs.enable, hs.fits⟩, fun a => (by rw [hn] at a; cases a)⟩,
        by rw [u2], fun _ _ => by rw [u2]; simp [added, fileOf]⟩
  | interrupt =>
    obtain ⟨o', e1, e2, e3, e4, e5, e6, e7, e8⟩ := iter_interrupt hp h hv hi
    exact ⟨o', e1, e2, e3, by rw [e5, ht], e6, e7.resolve_left (by simp [hvim]), (canc e4 e8).1, (canc e4 e8).2.1,
      fun _ _ => by rw [(canc e4 e8).2.2]; simp [added, fileOf]⟩
  | eof h0 =>
    obtain ⟨o', e1, e2, e3, e4, e5, e6, e7, e8⟩ := iter_eof hp h hv (.inr hm) hi (by rw [ht]; exact h0)
    exact ⟨o', e1, e2, e3, e5, e6, e7.trans hm, (canc e4 e8).1, (canc e4 e8).2.1, fun _ _ => by rw [(canc e4 e8).2.2]; simp [added, fileOf]⟩

theorem vimStep_length {limit : Int} {ks : List Rune} {m m' : Bool} {b b' : Book} (h : VimStep limit ks m b m' b') : 0 < ks.length := by
  cases h with
  | command hc => cases hc <;> simp
  | _ => simp

theorem await_vim (hp : Plain c) (hvim : c.vim = true) (hl : 0 < c.h.limit) {keys : List Rune} {m m' : Bool} {b b' : Book}
    (hk : VimSteps c.h.limit keys m b m' b') :
    ∀ {o : Op} {rest : List Rune}, Quiet c o → o.Live → o.vimNormal = m → o.events = [] → o.stopped = false → o.inp = keys ++ rest → Seen c o b →
    ∃ d o', d ≤ keys.length ∧ (∀ n, await c (n + d) o = await c n o') ∧ Quiet c o' ∧ o'.Live ∧ o'.vimNormal = m' ∧ o'.events = [] ∧ o'.stopped = false ∧
      o'.inp = rest ∧ Seen c o' b' ∧ o'.hist.file = o.hist.file := by
  induction hk with
  | nil => intro o rest h hv hm he hst hi hs; exact ⟨0, o, Nat.zero_le _, fun _ => rfl, h, hv, hm, he, hst, hi, hs, rfl⟩
  | @cons ks ks' _ _ _ _ _ _ h1 _ ih =>
    intro o rest h hv hm he hst hi hs
    obtain ⟨o1, e1, e2, e3, e4, e5, e6, e7, e8, e9⟩ := iter_step hp hvim hl h hv hm hs (rest := ks' ++ rest) (by rw [hi]; simp) h1
    obtain ⟨d, o', f0, f1, f2⟩ := ih (o := o1) (rest := rest) e2 e3 e7 (e5.trans he) (e6.trans hst) e4 e9
    have := vimStep_length h1
    rw [e8] at f2
    refine ⟨d + 1, o', by rw [List.length_append]; omega, fun n => ?_, f2⟩
    show await c (n + d + 1) o = _
    rw [await_step he hst e1, f1]

end Op

/-- C76, one call: any steps in insert and normal mode, then a key that ends the line.  `Readline` returns what the book says,
insert mode is on again, and the session shows the next state of the book; what has been recorded was also appended to the
history file. -/
theorem C76_readline_partial {c : OCfg} (hp : Op.Plain c) (hvim : c.vim = true) (hl : 0 < c.h.limit) {o : Op} (h : Ready c o) {b b1 b2 : Book}
    (hs : Op.Seen c o b) {keys rest : List Rune} {r : Rune} {m : Bool} {e : Event} (hi : o.inp = keys ++ r :: rest)
    (hk : VimSteps c.h.limit keys false b m b1) (hr : VimEnd (!c.noSave) c.h.limit r m b1 e b2) {fuel : Nat} (hf : keys.length < fuel) :
    ∃ o', o.readline c fuel = .ok (e, o') ∧ Ready c o' ∧ o'.inp = rest ∧ Op.Seen c o' b2 ∧ o'.hist.fd = o.hist.fd ∧
      (o.hist.fd = .opened → b1.pages ≠ [] →
        o'.hist.disk = o.hist.disk ++ fileOf ((added (!c.noSave) b1.stored e).map fun _ => b1.entry)) := by
  obtain ⟨o1, a1, a2, a3, a4, a5, a6, a7, a8, a9⟩ := Op.readline_start h
  have hs1 : Op.Seen c o1 b := ⟨⟨by rw [a6]; exact hs.hist, by rw [a4]; exact hs.line, by rw [a6]; exact hs.enable, hs.fits⟩, by rw [a6]; exact hs.seen⟩
  have hm1 : o1.vimNormal = false := a2.emacs.resolve_left (by simp [hvim])
  obtain ⟨d, o2, g0, g1, g2, g3, g4, g5, g6, g7, g8, g9⟩ := Op.await_vim hp hvim hl hk a2.quiet a3 hm1 a2.events a2.running (a5.trans hi) hs1
  obtain ⟨o3, d1, d2, d3, d4, d5, d6, d7, d8, d9⟩ := Op.iter_vim_end hp hvim hl g2 g3 g4 g8 g7 hr
  rw [g5] at d4
  obtain ⟨n, rfl⟩ : ∃ n, fuel = (n + 1) + d := ⟨fuel - d - 1, by omega⟩
  refine ⟨{ o3 with events := [] }, ?_, ⟨d2.events _, .inr d6, rfl, d5.trans g6⟩, d3, ⟨⟨d7.hist, d7.line, d7.enable, d7.fits⟩, d7.seen⟩,
    d8.trans ((congrArg Prod.snd g9).trans (by rw [a6]; rfl)), fun x y => ?_⟩
  · rw [a1, g1, Op.await_step g5 g6 d1, Op.await_done d4]
  · have k1 : o2.hist.disk = o.hist.disk := (congrArg Prod.fst g9).trans (by rw [a6]; rfl)
    have k2 : o2.hist.fd = o.hist.fd := (congrArg Prod.snd g9).trans (by rw [a6]; rfl)
    rw [← k1]
    exact d9 (k2.trans x) y

/-- C76, partial.  Full statement: in vim mode a session is the notebook of C67 with an insert and a normal mode, where
every change of the line counts: it is kept on its page while other pages are open, and Enter records the line it returns.
This is false of commands in normal mode (`C76_false_lost`, `C76_false_record`, `C76_false_repeat`), whose changes are not
noted on the page.

With that reservation (`VimStep.command`, `Book.entry`), for a whole session with the editing keys, ESC, all commands of normal
mode, Enter, Ctrl-C and Ctrl-D: the calls of `Readline` return what the book says, and the entries then stored, the line and
the page shown are those of the book.  Left out: the commands left out of `VimCmd`, which crash, and Ctrl-D and Ctrl-J in
normal mode, which stall the input (C40). -/
theorem C76_session_partial {c : OCfg} (hp : Op.Plain c) (hvim : c.vim = true) (hl : 0 < c.h.limit) {keys : List Rune} {b b' : Book} {es : List Event}
    (hr : VimRun (!c.noSave) c.h.limit keys b es b') :
    ∀ {o : Op} {rest : List Rune}, Ready c o → Op.Seen c o b → o.inp = keys ++ rest → ∀ {fuel : Nat}, keys.length < fuel →
    ∃ o', calls c fuel es.length o = .ok es ∧ after c fuel es.length o = .ok o' ∧ Ready c o' ∧ o'.inp = rest ∧ Op.Seen c o' b' := by
  induction hr with
  | done => intro o rest h hs hi fuel _; exact ⟨o, rfl, rfl, h, hi, hs⟩
  | @call ks r keys b m b1 b2 b3 e es hk he _ ih =>
    intro o rest h hs hi fuel hf
    simp only [List.length_append, List.length_cons] at hf
    obtain ⟨o1, e1, e2, e3, e4, _⟩ := C76_readline_partial hp hvim hl h hs (rest := keys ++ rest) (by rw [hi]; simp) hk he (fuel := fuel) (by omega)
    obtain ⟨o2, f1, f2, f3⟩ := ih e2 e4 e3 (fuel := fuel) (by omega)
    refine ⟨o2, ?_, ?_, f3⟩
    · show (o.readline c fuel >>= fun p => calls c fuel es.length p.2 >>= fun l => .ok (p.1 :: l)) = _
      rw [e1, R.bind_ok]
      dsimp only
      rw [f1]; rfl
    · show (o.readline c fuel >>= fun p => after c fuel es.length p.2) = _
      rw [e1, R.bind_ok]
      exact f2

/-- A new session shows the book with the entries of the file. -/
theorem C76_start {c : OCfg} (hl : 2 ≤ c.h.limit) (hf : c.h.hasFile = true) (ho : c.h.openOK = true) (prompt : List Rune) (w : Int)
    {es : List (List Rune)} (hes : ∀ e ∈ es, Storable e) (keys : List Rune) :
    Op.Seen c (Op.init prompt true w (Hist.start c.h (fileOf es)) keys) (Book.opened (keepNewest c.h.limit es)) :=
  ⟨(C67_start_file hl hf ho prompt w hes keys).opened, fun _ => .inl (start_spec c.h (fileOf es) hf ho).2.2.2.2.2.1⟩

/-- Vim keys, and a history file with "ab" and "cd". -/
def c76 : OCfg := { c0 with h := ⟨500, true, false, true⟩, vim := true }

def o76 (keys : List Rune) : Op := { o0 keys with hist := Hist.start c76.h (fileOf [[97, 98], [99, 100]]) }

/-- A change made in normal mode is lost when another entry is looked at: "ef" ESC `x` `x` leaves "e" (first part), but after
`k` and `j` the line is "ef" again (second part). -/
theorem C76_false_lost : calls c76 20 1 (o76 [101, 102, 27, 120, 120, 13]) = .ok [.line [101]] ∧
    calls c76 20 1 (o76 [101, 102, 27, 120, 120, 107, 106, 13]) = .ok [.line [101, 102]] := by decide

/-- Enter records another line than the one it returns: ESC `k` `k` shows "ab", `x` `x` leaves "a", Enter returns "a" and
records "ab". -/
theorem C76_false_record : calls c76 20 1 (o76 [27, 107, 107, 120, 120, 13]) = .ok [.line [97]] ∧
    (after c76 20 1 (o76 [27, 107, 107, 120, 120, 13])).map (fun o => o.hist.entries) = .ok [[97, 98], [99, 100], [97, 98]] := by decide

/-- The newest entry is recorded a second time: ESC `k` shows "cd", `x` `x` leaves "c". -/
theorem C76_false_repeat : calls c76 20 1 (o76 [27, 107, 120, 120, 13]) = .ok [.line [99]] ∧
    (after c76 20 1 (o76 [27, 107, 120, 120, 13])).map (fun o => o.hist.entries) = .ok [[97, 98], [99, 100], [99, 100]] := by decide

/-- The line noted: with `h` after the command the change is kept and recorded. -/
example : calls c76 20 1 (o76 [27, 107, 107, 120, 120, 104, 13]) = .ok [.line [97]] ∧
    (after c76 20 1 (o76 [27, 107, 107, 120, 120, 104, 13])).map (fun o => o.hist.entries) = .ok [[97, 98], [99, 100], [97]] := by decide

/-- Two calls in the book: ESC `k` `k` `x` `x` `z` `A` "e" Enter returns and records "ae" ("e" is typed in insert mode); then
"f" ESC `0` Ctrl-C. -/
example : ∃ b, VimRun true 500 ([27, 107, 107, 120, 120, 122, 65, 101] ++ 13 :: ([102, 27, 48] ++ 3 :: [])) (Book.opened [[97, 98], [99, 100]])
    [.line [97, 101], .interrupt [102]] b ∧ b.stored = [[97, 98], [99, 100], [97, 101]] ∧ b.pos = 3 := by
  refine ⟨_, .call (ks := [27, 107, 107, 120, 120, 122, 65, 101]) (.cons .escape (.cons .older (.cons .older (.cons (.command (.x _) (by decide) (by decide) (by decide))
    (.cons (.command (.x _) (by decide) (by decide) (by decide)) (.cons (.unknown (by decide)) (.cons (.command (.A _) (by decide) (by decide) (by decide))
      (.cons (.insert (.edit (.inl rfl))) .nil))))))))
    (.enter (.inl rfl) (by decide)) (.call (ks := [102, 27, 48]) (.cons (.insert (.edit (.inl rfl))) (.cons .escape
      (.cons (.command (.start _ (.inl rfl)) (by decide) (by decide) (by decide)) .nil))) .interrupt .done), rfl, rfl⟩

/-- The hypotheses of `C76_session_partial` hold for that session. -/
example : let o := Op.init [62, 32] true 80 (Hist.start c76.h (fileOf [[97, 98], [99, 100]])) [27, 107, 107, 120, 120, 122, 65, 101, 13, 102, 27, 48, 3]
    Op.Plain c76 ∧ c76.vim = true ∧ 0 < c76.h.limit ∧ Ready c76 o ∧ Op.Seen c76 o (Book.opened [[97, 98], [99, 100]]) := by
  intro o
  refine ⟨⟨rfl, by simp [Op.Observer, c76, c0]⟩, rfl, by decide, init_Ready (p := 2) (by decide) rfl (by decide) (by decide) (start_spec _ _ rfl rfl).2.2.1,
    C76_start (c := c76) (es := [[97, 98], [99, 100]]) (by decide) rfl rfl _ _ ?_ _⟩
  intro e he
  simp only [List.mem_cons, List.not_mem_nil, or_false] at he
  rcases he with rfl | rfl
  · exact ⟨by decide, by decide, by decide, by decide, by unfold Scalar; decide⟩
  · exact ⟨by decide, by decide, by decide, by decide, by unfold Scalar; decide⟩

end RL
