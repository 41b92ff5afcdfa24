import Verif.Props.Cancel
import Verif.Props.Safety
import Verif.Proofs.Tidy
import Verif.Props.Find
import Verif.Spec.Search
/-! # C66: what an incremental search shows -/

namespace RL
open Spec RB Ed

/-- What the search shows. -/
def Search.view (s : Search) (h : Hist) (r : RB) : SView :=
  { text := s.data, fwd := s.fwd, failing := s.failing, line := r.buf, cursor := r.idx, mark := (s.markStart, s.markEnd),
    pos := h.current }

/-- The history is at one of its elements. -/
def Hist.Inside (h : Hist) : Prop := ∃ c, h.current = some c ∧ c ∈ h.order

/-- What the search in the history reports. -/
theorem findBy_hit {cfg : HCfg} {fresh : Bool} {s : Search} {h : Hist} {r : RB} (w : h.WF) {c : Nat} {pre post : List Nat}
    (hc : h.current = some c) (ho : h.order = pre ++ c :: post) (hd : s.data ≠ []) {x : Option (Nat × Nat)}
    (e0 : s.findHistoryBy cfg h r fresh = .ok x) :
    match x with
    | none => ∀ e ∈ c :: (if s.fwd then post else pre.reverse), ∀ j, ¬ Hit cfg.fold h.showItem (s.view h r) fresh c e j
    | some (i, e) => FirstWith (fun e => ∃ j, Hit cfg.fold h.showItem (s.view h r) fresh c e j)
          (c :: if s.fwd then post else pre.reverse) e ∧ Hit cfg.fold h.showItem (s.view h r) fresh c e i ∧
        ∀ k, Hit cfg.fold h.showItem (s.view h r) fresh c e k → if s.fwd then i ≤ k else k ≤ i := by
  unfold Search.findHistoryBy at e0
  by_cases hfw : s.fwd = true
  · have hh : ∀ e j, Hit cfg.fold h.showItem (s.view h r) fresh c e j ↔
        FwdMatch cfg.fold h s.data c (if fresh then r.idx - s.data.length else r.idx) e j := by
      intro e j
      simp [Hit, FwdMatch, Search.view, hfw]
    rw [if_pos hfw] at e0
    obtain ⟨res, k1, k2⟩ := C27_findFwd cfg h w pre post c hc ho fresh s.data hd r.idx
    rw [k1] at e0
    have e0 := Except.ok.inj e0
    subst e0
    match res, k2 with
    | none, k2 => simpa only [hfw, if_true, hh] using k2
    | some (i, e), k2 => simpa only [hfw, if_true, hh] using k2
  · have hh : ∀ e j, Hit cfg.fold h.showItem (s.view h r) fresh c e j ↔
        BckMatch cfg.fold h s.data c (if fresh then r.idx + s.data.length else r.idx) e j := by
      intro e j
      simp [Hit, BckMatch, Search.view, hfw]
    rw [if_neg hfw] at e0
    obtain ⟨res, k1, k2⟩ := C26_findBck cfg h w pre post c hc ho fresh s.data r.idx
    rw [k1] at e0
    have e0 := Except.ok.inj e0
    subst e0
    match res, k2 with
    | none, k2 => simpa only [hfw, Bool.false_eq_true, if_false, hh] using k2
    | some (i, e), k2 => simpa only [hfw, Bool.false_eq_true, if_false, hh] using k2

/-- One search does what `Sought` says and touches nothing of the history but its position. -/
theorem search_sought {U : UTables} {d : DCfg} {cfg : HCfg} {fresh : Bool} {s s' : Search} {h h' : Hist} {r r' : RB} (w : h.WF)
    (hin : h.Inside) (hs : Search.search U d cfg fresh s h r = .ok (s', h', r')) :
    h' = { h with current := h'.current } ∧ h'.Inside ∧
      Sought cfg.fold h.showItem h.order fresh (s.view h r) (s'.view h' r') := by
  unfold Search.search at hs
  obtain ⟨c, hc, hm⟩ := hin
  split at hs
  · next hd =>
    obtain ⟨⟨s1, r1⟩, e1, hs⟩ := R.bind_inv hs
    cases hs
    obtain ⟨rfl, h2, h3⟩ := Search.searchRefresh_ok e1
    refine ⟨rfl, ⟨c, hc, hm⟩, ?_⟩
    have : Search.view (Search.setState { s with failing := false } (-1)) h r' = { s.view h r with failing := false } := by
      simp [Search.view, Search.setState, h2]
    rw [this]
    exact .empty (List.length_eq_zero_iff.1 hd)
  · next hd =>
    have hd : s.data ≠ [] := by simpa using hd
    obtain ⟨x, e0, hs⟩ := R.bind_inv hs
    obtain ⟨pre, post, ho⟩ := List.append_of_mem hm
    have hlook : Looked h.order s.fwd c (c :: if s.fwd then post else pre.reverse) := ⟨pre, post, ho, rfl⟩
    have hfind := findBy_hit w hc ho hd e0
    cases x with
    | none =>
      obtain ⟨⟨s1, r1⟩, e1, hs⟩ := R.bind_inv hs
      cases hs
      obtain ⟨rfl, h2, h3⟩ := Search.searchRefresh_ok e1
      refine ⟨rfl, ⟨c, hc, hm⟩, ?_⟩
      have : Search.view (s.setState (-2)) h r' = { s.view h r with failing := true } := by
        simp [Search.view, Search.setState, h2]
      rw [this]
      exact .none hd hc hlook hfind
    | some p =>
      obtain ⟨i, e⟩ := p
      obtain ⟨r1, e1, hs⟩ := R.bind_inv hs
      obtain ⟨⟨s2, r2⟩, e2, hs⟩ := R.bind_inv hs
      cases hs
      obtain ⟨rfl, h2, h3⟩ := Search.searchRefresh_ok e2
      obtain ⟨h4, h5⟩ := refresh_ok e1
      have h4 := Except.ok.inj h4
      obtain ⟨f1, f2, f3⟩ := hfind
      have hemem : e ∈ h.order := by
        obtain ⟨a, b, hab, _⟩ := f1
        have : e ∈ c :: (if s.fwd then post else pre.reverse) := by rw [hab]; simp
        rw [ho]
        rcases List.mem_cons.1 this with rfl | this
        · simp
        · cases hfw : s.fwd <;> simp only [hfw, Bool.false_eq_true, if_false, if_true] at this
          · simp [List.mem_reverse.1 this]
          · simp [this]
      refine ⟨rfl, ⟨e, rfl, hemem⟩, ?_⟩
      have : Search.view (Search.setState { s with markStart := i, markEnd := i + s.data.length } ((if s.fwd then i + s.data.length else i : Nat) : Int))
          { h with current := some e } r' =
          { s.view h r with failing := false, line := h.showItem e, cursor := if s.fwd then i + s.data.length else i,
                            mark := (i, i + s.data.length), pos := some e } := by
        have hx : ¬ (((if s.fwd then i + s.data.length else i : Nat) : Int) = -2) := by omega
        have hx' : (((if s.fwd then i + s.data.length else i : Nat) : Int) ≥ 0) := by omega
        have hb : r'.buf = h.showItem e := by rw [h2, ← h4]; rfl
        have hi : r'.idx = if s.fwd then i + s.data.length else i := by rw [h2, ← h4]
        simp only [Search.view, Search.setState, if_neg hx, if_pos hx', hb, hi]
      refine (congrArg (Sought _ _ _ _ _) this).mpr ?_
      exact .found hd hc hlook f1 f2 f3

namespace Op
variable {c : OCfg}

/-- What the editing loop shows during a search. -/
def view (o : Op) : SView := o.search.view o.hist o.rb

/-- A search is running. -/
structure InSearch (c : OCfg) (o : Op) : Prop where
  inv : Inv c o
  mode : o.search.inMode = true
  inside : o.hist.Inside
  emacs : Emacs c o
  live : o.Live
  running : o.stopped = false

/-- What a search leaves alone. -/
structure Untouched (o o' : Op) : Prop where
  hist : o'.hist = { o.hist with current := o'.hist.current }
  kill : o'.rb.lastKill = o.rb.lastKill
  events : o'.events = o.events
  vimNormal : o'.vimNormal = o.vimNormal

theorem Untouched.trans {o o' o'' : Op} (h : Untouched o o') (h' : Untouched o' o'') : Untouched o o'' :=
  ⟨by rw [h'.hist, h.hist], h'.kill.trans h.kill, h'.events.trans h.events, h'.vimNormal.trans h.vimNormal⟩

theorem Untouched.order {o o' : Op} (h : Untouched o o') : o'.hist.order = o.hist.order := by rw [h.hist]

theorem Untouched.showItem {o o' : Op} (h : Untouched o o') : o'.hist.showItem = o.hist.showItem := by
  funext x; rw [h.hist]; rfl

/-- A key during a search. -/
theorem iter_inSearch (hf : Friendly c) (hp : c.filter = none) {o : Op} (h : InSearch c o)
    {r : Rune} {rest : List Rune} (hr : SearchKey r ∨ r = 18 ∨ r = 19) (hi : o.inp = r :: rest) :
    ∃ o', o.iter c = .ok o' ∧ o'.inp = rest ∧ InSearch c o' ∧ Untouched o o' ∧
      SearchStep c.h.fold o.hist.showItem o.hist.order r o.view o'.view := by
  have n : stopKey r = false ∧ r ≠ 0 ∧ r ≠ CharEsc ∧ r ≠ CharTranspose ∧ r ≠ CharBell ∧ r ≠ CharInterrupt ∧ r ≠ CharKill := by
    rcases hr with hr | rfl | rfl
    · obtain ⟨a, b, c, d, e, f, g, _⟩ := searchKey_plain hr
      exact ⟨a, b, c, d, e, f, g⟩
    · decide
    · decide
  obtain ⟨hst, n0, n1, n2, n3, n4, n5⟩ := n
  have hns : o.comp.inSelect = false := by
    have := h.inv.excl h.mode
    cases hs : o.comp.inSelect with
    | false => rfl
    | true => rw [(h.inv.comp.sel hs).1] at this; cases this
  have hm : Mid c (o.took r rest) := (h.inv.io _ _ _).mid hns
  obtain ⟨o', e1, e2⟩ := dispatch_safe (r := r) hf hm (fun a => (n2 a).elim)
    (fun a => a.elim (fun a => (n3 a).elim) (fun a => (n4 a).elim)) (fun a => (n5 a).elim)
    (fun a b => by
      rcases h.emacs with d | d
      · rw [d] at a; cases a
      · exact absurd b (by show ¬ o.vimNormal = true; simp [d]))
  have e0 : o.iter c = .ok o' := by
    rw [iter_emacs h.live hp hi n0 hns (h.emacs.imp_right fun a => ⟨a, n1⟩)]; exact e1
  obtain ⟨k, g1, g2⟩ := R.bind_inv e1
  rw [listen_observer hf.listener, R.bind_ok] at g2
  have hsm : (o.took r rest).search.inMode = true := h.mode
  have hw0 : ¬ o.search.width = 0 := by have := h.inv.base.sw; have := h.inv.base.rb.width; omega
  -- the key switch
  have step : ∃ s hi rb, k = { op := { o.took r rest with search := s, hist := hi, rb := rb }, keepSearch := true } ∧
      s.inMode = true ∧ rb.lastKill = o.rb.lastKill ∧ hi = { o.hist with current := hi.current } ∧ hi.Inside ∧
      SearchStep c.h.fold o.hist.showItem o.hist.order r o.view (s.view hi rb) := by
    have main : ∀ (b : Bool) (s0 s : Search) hi rb, Search.search c.U c.d c.h b s0 o.hist o.rb = .ok (s, hi, rb) → s0.inMode = true →
        s.inMode = true ∧ rb.lastKill = o.rb.lastKill ∧ hi = { o.hist with current := hi.current } ∧ hi.Inside ∧
        Sought c.h.fold o.hist.showItem o.hist.order b (s0.view o.hist o.rb) (s.view hi rb) := by
      intro b s0 s hi rb e hm0
      obtain ⟨k1, _, _, _, _, k6, _⟩ := Search.search_ok e
      obtain ⟨q1, q2, q3⟩ := search_sought h.inv.base.hist h.inside e
      exact ⟨k1.trans hm0, k6, q1, q2, q3⟩
    rcases hr with (⟨a, b⟩ | hb) | ha
    · rw [key_text a b] at g1
      unfold keyText at g1
      rw [if_pos hsm] at g1
      obtain ⟨o1, g3, g1⟩ := R.bind_inv g1
      obtain ⟨⟨s, hi, rb⟩, g4, g3⟩ := R.bind_inv g3
      cases g3; cases g1
      obtain ⟨q1, q2, q3, q4, q5⟩ := main _ _ _ _ _ g4 h.mode
      exact ⟨s, hi, rb, rfl, q1, q2, q3, q4, .text a b q5⟩
    · rw [key_backspace hb] at g1
      unfold keyBackspace at g1
      rw [if_pos hsm] at g1
      obtain ⟨o1, g3, g1⟩ := R.bind_inv g1
      obtain ⟨⟨s, hi, rb⟩, g4, g3⟩ := R.bind_inv g3
      cases g3; cases g1
      unfold Search.searchBackspace at g4
      split at g4
      · next hd =>
        obtain ⟨q1, q2, q3, q4, q5⟩ := main _ _ _ _ _ g4 h.mode
        refine ⟨s, hi, rb, rfl, q1, q2, q3, q4, .back hb ?_ q5⟩
        show o.search.data ≠ []
        intro h0
        have hd : o.search.data.length > 0 := hd
        rw [h0] at hd
        exact absurd hd (by simp)
      · next hd =>
        cases g4
        refine ⟨_, _, _, rfl, h.mode, rfl, rfl, h.inside, .backNone hb ?_⟩
        show o.search.data = []
        have hd : ¬ o.search.data.length > 0 := hd
        exact List.length_eq_zero_iff.1 (by omega)
    · rw [key_search (by exact ha)] at g1
      unfold keySearch at g1
      obtain ⟨⟨ok, o1⟩, g3, g1⟩ := R.bind_inv g1
      obtain ⟨⟨ok', s, hi, rb⟩, g4, g3⟩ := R.bind_inv g3
      cases g3
      unfold Search.searchMode at g4
      rw [if_neg (show ¬ (o.took r rest).search.width = 0 from hw0)] at g4
      dsimp only at g4
      rw [if_pos hsm] at g4
      obtain ⟨⟨s1, h1, r1⟩, g5, g4⟩ := R.bind_inv g4
      cases g4
      dsimp only at g1
      cases g1
      obtain ⟨q1, q2, q3, q4, q5⟩ := main _ _ _ _ _ g5 rfl
      exact ⟨_, _, _, rfl, q1, q2, q3, q4, .again ha q5⟩
  obtain ⟨s, hi', rb, rfl, s1, s2, s3, s4, s5⟩ := step
  have f := finish_ok g2
  have fs : o'.search = s := finish_search rfl g2
  have fm : o'.search.inMode = true := by rw [fs]; exact s1
  have fh : o'.hist = hi' := by rw [f.hist, if_neg (by simp [fm])]
  have fb : o'.rb.buf = rb.buf := by show o'.rb.toEd.buf = _; rw [f.line]
  have fi : o'.rb.idx = rb.idx := by show o'.rb.toEd.idx = _; rw [f.line]
  refine ⟨o', e0, f.inp, ⟨e2, fm, by rw [fh]; exact s4, h.emacs.imp_right fun a => f.vimNormal.trans a, .inl (f.gate.trans hst),
    f.stopped.trans h.running⟩, ⟨by rw [fh]; exact s3, ?_, f.events, f.vimNormal⟩, ?_⟩
  · show o'.rb.toEd.lastKill = _
    rw [f.line]; exact s2
  · have : o'.view = s.view hi' rb := by simp only [Op.view, Search.view, fs, fh, fb, fi]
    rw [this]; exact s5

/-- Ctrl-R or Ctrl-S outside a search: the banner appears, nothing else changes. -/
theorem iter_enterSearch (hf : Friendly c) (hp : c.filter = none) {o : Op} (hinv : Inv c o) (htidy : o.Tidy)
    (hsel : o.comp.inSelect = false) (hsm : o.search.inMode = false) (hin : o.hist.Inside) (hl : o.Live) (hv : Emacs c o)
    (hst : o.stopped = false) {r : Rune} {rest : List Rune} (hr : r = 18 ∨ r = 19) (hi : o.inp = r :: rest) :
    ∃ o', o.iter c = .ok o' ∧ o'.inp = rest ∧ InSearch c o' ∧ Untouched o o' ∧
      o'.view = { text := [], fwd := r == 19, failing := false, line := o.rb.buf, cursor := o.rb.idx, mark := (0, 0),
                  pos := o.hist.current } := by
  obtain ⟨x, hc, hxm⟩ := hin
  obtain ⟨o', e0, h, hi'⟩ := iter_startSearch hf hp hinv hsel hsm hc hl hv hr hi
  -- the same iteration again, for the view
  have n : r ≠ 0 ∧ r ≠ CharEsc := by rcases hr with rfl | rfl <;> decide
  have e1 := e0
  rw [iter_emacs hl hp hi n.1 hsel (hv.imp_right fun a => ⟨a, n.2⟩)] at e1
  obtain ⟨k, g1, g2⟩ := R.bind_inv e1
  rw [listen_observer hf.listener, R.bind_ok] at g2
  have hw0 : ¬ o.search.width = 0 := by have := hinv.base.sw; have := hinv.base.rb.width; omega
  rw [key_search hr] at g1
  have step : ∃ s rb, k = { op := { o.took r rest with search := s, rb := rb }, keepSearch := true } ∧ s.inMode = true ∧
      s.data = o.search.data ∧ s.fwd = (r == 19) ∧ s.failing = o.search.failing ∧ s.markStart = o.search.markStart ∧
      s.markEnd = o.search.markEnd ∧ rb.toEd = o.rb.toEd := by
    unfold keySearch at g1
    obtain ⟨⟨ok, o1⟩, g3, g1⟩ := R.bind_inv g1
    obtain ⟨⟨ok', s, hi, rb⟩, g4, g3⟩ := R.bind_inv g3
    cases g3
    unfold Search.searchMode at g4
    rw [if_neg (show ¬ (o.took r rest).search.width = 0 from hw0)] at g4
    dsimp only at g4
    rw [if_neg (by show ¬ o.search.inMode = true; simp [hsm])] at g4
    obtain ⟨⟨s1, r1⟩, g5, g4⟩ := R.bind_inv g4
    cases g4
    dsimp only at g1
    cases g1
    obtain ⟨rfl, g6, _⟩ := Search.searchRefresh_ok g5
    exact ⟨_, _, rfl, rfl, rfl, rfl, rfl, rfl, rfl, g6⟩
  obtain ⟨s, rb, rfl, s1, s2, s3, s4, s5, s6, s7⟩ := step
  have f := finish_ok g2
  have fs : o'.search = s := finish_search rfl g2
  have fm : o'.search.inMode = true := by rw [fs]; exact s1
  have fh : o'.hist = o.hist := by rw [f.hist, if_neg (by simp [fm])]; rfl
  have fl : o'.rb.toEd = o.rb.toEd := f.line.trans s7
  obtain ⟨t1, t2⟩ := htidy hsm
  obtain ⟨m1, m2⟩ := hinv.soff hsm
  refine ⟨o', e0, hi', ⟨h.inv, fm, ⟨x, by rw [fh]; exact hc, by rw [fh]; exact hxm⟩, hv.imp_right fun a => h.vimNormal.trans a, h.live,
    h.stopped.trans hst⟩, ⟨by rw [fh], h.kill, h.events, h.vimNormal⟩, ?_⟩
  have fb : o'.rb.buf = o.rb.buf := congrArg Ed.buf fl
  have fi : o'.rb.idx = o.rb.idx := congrArg Ed.idx fl
  simp only [Op.view, Search.view, fs, fh, fb, fi, s2, s3, s4, s5, s6, t1, t2, m1, m2]

/-- Several keys during a search. -/
theorem iters_inSearch (hf : Friendly c) (hp : c.filter = none) (ks : List Rune) :
    ∀ {o : Op} {rest}, InSearch c o → (∀ r ∈ ks, SearchKey r ∨ r = 18 ∨ r = 19) → o.inp = ks ++ rest →
      ∃ o', iters c ks.length o = .ok o' ∧ o'.inp = rest ∧ InSearch c o' ∧ Untouched o o' ∧
        SearchSteps c.h.fold o.hist.showItem o.hist.order ks o.view o'.view := by
  induction ks with
  | nil => intro o rest h _ hi; exact ⟨o, rfl, hi, h, ⟨rfl, rfl, rfl, rfl⟩, .nil⟩
  | cons r ks ih =>
    intro o rest h hk hi
    obtain ⟨o1, e1, i1, h1, u1, s1⟩ := iter_inSearch hf hp h (hk r (by simp)) hi
    obtain ⟨o2, e2, i2, h2, u2, s2⟩ := ih h1 (fun r hr => hk r (by simp [hr])) i1
    refine ⟨o2, ?_, i2, h2, u1.trans u2, .cons s1 ?_⟩
    · show (if o.stopped = true then _ else _) = _
      rw [if_neg (by simp [h.running]), e1, R.bind_ok]
      exact e2
    · rw [u1.showItem, u1.order] at s2
      exact s2

end Op

theorem sought_text {fold item order fresh} {v v' : SView} (h : Sought fold item order fresh v v') : v'.text = v.text := by
  cases h <;> rfl

theorem steps_typed {fold item order ks} {v v' : SView} (h : SearchSteps fold item order ks v v') : v'.text = typed v.text ks := by
  induction h with
  | nil => rfl
  | @cons r rs v v' v'' h1 _ ih =>
    rw [ih]
    show _ = typed (if _ then _ else _) rs
    congr 1
    cases h1 with
    | text a b q => rw [if_pos ⟨a, b⟩, sought_text q]
    | back a b q => rw [if_neg (by omega), if_pos a, sought_text q]
    | backNone a b => rw [if_neg (by omega), if_pos a, b]; rfl
    | again a q => rw [if_neg (by omega), if_neg (by omega), sought_text q]

/-- C66.  Ctrl-R or Ctrl-S starts a search with an empty search text.  After any further keys (text, backspace, Ctrl-R,
Ctrl-S) the search shows what the specification says, key by key: the search text is what was typed; the line, the cursor
and the marked part are those of the nearest history element with a match, on the side the search looks to; a failed search
leaves the line as it was and says so.  Nothing else changes: no result, no history text, no clipboard.

Hypotheses: emacs keys (or vim's insert mode), no input filter, callbacks that keep their promises, the history is at one
of its elements. -/
theorem C66_search {c : OCfg} (hf : Op.Friendly c) (hp : c.filter = none) {o : Op} (hinv : Op.Inv c o) (htidy : o.Tidy)
    (hsel : o.comp.inSelect = false) (hsm : o.search.inMode = false) (hin : o.hist.Inside) (hl : o.Live) (hv : Op.Emacs c o)
    (hst : o.stopped = false) {r0 : Rune} (hr0 : r0 = 18 ∨ r0 = 19) {ks rest : List Rune}
    (hk : ∀ r ∈ ks, SearchKey r ∨ r = 18 ∨ r = 19) (hi : o.inp = r0 :: (ks ++ rest)) :
    ∃ o', o.iters c (ks.length + 1) = .ok o' ∧ o'.inp = rest ∧ Op.InSearch c o' ∧ Op.Untouched o o' ∧
      SearchSteps c.h.fold o.hist.showItem o.hist.order ks
        { text := [], fwd := r0 == 19, failing := false, line := o.rb.buf, cursor := o.rb.idx, mark := (0, 0), pos := o.hist.current }
        o'.view ∧
      o'.search.data = typed [] ks := by
  obtain ⟨o1, e1, i1, h1, u1, v1⟩ := Op.iter_enterSearch hf hp hinv htidy hsel hsm hin hl hv hst hr0 hi
  obtain ⟨o2, e2, i2, h2, u2, s2⟩ := Op.iters_inSearch hf hp ks h1 hk i1
  rw [u1.showItem, u1.order, v1] at s2
  refine ⟨o2, ?_, i2, h2, u1.trans u2, s2, steps_typed s2⟩
  rw [Nat.add_comm, Op.iters_add]
  have : o.iters c 1 = .ok o1 := by
    show (if o.stopped = true then _ else _) = _
    rw [if_neg (by simp [hst]), e1]; rfl
  rw [this, R.bind_ok, e2]

/-- In every session nothing of an earlier search is left when a new one starts. -/
theorem C66_tidy {c : OCfg} {prompt : List Rune} {w : Int} {h : Hist} {keys : List Rune} {o : Op}
    (hs : Session c (Op.init prompt true w h keys) o) : o.Tidy := by
  generalize hg : Op.init prompt true w h keys = oi at hs
  induction hs with
  | start => subst hg; exact fun _ => ⟨rfl, rfl⟩
  | key _ _ e ih => exact Op.iter_tidy ih e
  | call _ e ih =>
    obtain ⟨r, _, e⟩ := R.bind_inv e
    cases e
    exact ih
  | taken es _ ih => exact ih

/-- Moving from column to column within the line: only backspaces, or only runes of the line. -/
def Moves (line : List Rune) (mv : List Tok) : Prop :=
  (∀ t ∈ mv, t = .bs) ∨ ∃ i j, mv = ((line.take j).drop i).map Tok.ch

theorem searchRefresh_writes {U : UTables} {s s' : Search} {r r' : RB} {x : Int} (h : s.searchRefresh U r x = .ok (s', r')) :
    ∃ n col mv, Moves r.buf mv ∧ r'.out = r.out ++ (if 0 < s.markStart then underlined mv r.buf s.markStart s.markEnd else []) ++
      searchBanner s'.failing s'.fwd s'.data n col := by
  unfold Search.searchRefresh at h
  obtain ⟨_, _, h⟩ := R.bind_inv h
  obtain ⟨_, _, h⟩ := R.bind_inv h
  obtain ⟨col, _, h⟩ := R.bind_inv h
  obtain ⟨r1, e1, h⟩ := R.bind_inv h
  obtain ⟨n, _, h⟩ := R.bind_inv h
  obtain ⟨b, e2, h⟩ := R.bind_inv h
  cases h
  have hu : ∃ mv, Moves r.buf mv ∧ r1.out = r.out ++ (if 0 < s.markStart then underlined mv r.buf s.markStart s.markEnd else []) := by
    unfold Search.underline at e1
    by_cases hm : s.markStart > 0
    · rw [if_pos hm] at e1
      unfold RB.setStyle at e1
      split at e1
      · cases e1
      · have last : ∀ {mv : List Tok} {t : List Rune}, slice r.buf s.markStart s.markEnd = .ok t →
            r1 = r.write (mv ++ [.sgr (str "4")] ++ t.map Tok.ch ++ [.sgr (str "0")]) →
            r1.out = r.out ++ (if 0 < s.markStart then underlined mv r.buf s.markStart s.markEnd else []) := by
          intro mv t e4 e5
          have ht : t = (r.buf.take s.markEnd).drop s.markStart := by
            unfold slice at e4
            split at e4
            · cases e4; rfl
            · cases e4
          rw [if_pos hm, e5, ht]
          simp [RB.write, underlined]
        dsimp only at e1
        split at e1
        · obtain ⟨u, e5, e1⟩ := R.bind_inv e1
          rw [R.bind_ok] at e1
          obtain ⟨t, e4, e1⟩ := R.bind_inv e1
          refine ⟨_, .inr ⟨r.idx, s.markStart, ?_⟩, last e4 (Except.ok.inj e1).symm⟩
          unfold slice at e5
          split at e5
          · cases e5; rfl
          · cases e5
        · obtain ⟨u, e5, e1⟩ := R.bind_inv e1
          rw [R.bind_ok] at e1
          obtain ⟨t, e4, e1⟩ := R.bind_inv e1
          exact ⟨_, .inl fun t ht => List.eq_of_mem_replicate ht, last e4 (Except.ok.inj e1).symm⟩
    · rw [if_neg hm] at e1
      cases e1
      exact ⟨[], .inl (by simp), by rw [if_neg hm]; simp⟩
  obtain ⟨mv, hmv, hu⟩ := hu
  unfold Search.banner at e2
  obtain ⟨nl, e3, e2⟩ := R.bind_inv e2
  cases e2
  unfold repeatR at e3
  split at e3
  · cases e3
  · next hn =>
    cases e3
    refine ⟨n.toNat, col, mv, hmv, ?_⟩
    have : ∀ k : Nat, (List.replicate k [Tok.ch 10]).flatten = List.replicate k (Tok.ch 10) := by
      intro k
      induction k with
      | zero => rfl
      | succ k ih => rw [List.replicate_succ, List.flatten_cons, ih]; rfl
    rw [this]
    have hn' : ((n.toNat : Nat) : Int) = n := Int.toNat_of_nonneg (by omega)
    have lits : ∀ b : Bool, str (if b then "fwd-i-search: " else "bck-i-search: ") = str (if b then "fwd" else "bck") ++ str "-i-search: " := by
      decide
    show r1.out ++ _ = _
    rw [hu]
    unfold searchBanner
    rw [hn', lits]
    simp only [List.append_assoc, List.map_append, Search.lit]
    cases (s.setState x).failing <;> cases (s.setState x).fwd <;> rfl

/-- What a search writes: after the redrawn line, the matched text again, underlined (unless it starts in column 0 of the
line), and the banner with state, direction and search text. -/
theorem C66_banner {U : UTables} {d : DCfg} {cfg : HCfg} {fresh : Bool} {s s' : Search} {h h' : Hist} {r r' : RB}
    (hs : Search.search U d cfg fresh s h r = .ok (s', h', r')) :
    ∃ pre n col mv, Moves r'.buf mv ∧
      r'.out = pre ++ (if 0 < s'.markStart then underlined mv r'.buf s'.markStart s'.markEnd else []) ++
        searchBanner s'.failing s'.fwd s'.data n col := by
  have key : ∀ {s0 : Search} {r0 : RB} {x}, s0.searchRefresh U r0 x = .ok (s', r') →
      ∃ pre n col mv, Moves r'.buf mv ∧
        r'.out = pre ++ (if 0 < s'.markStart then underlined mv r'.buf s'.markStart s'.markEnd else []) ++
          searchBanner s'.failing s'.fwd s'.data n col := by
    intro s0 r0 x e
    obtain ⟨n, col, mv, a, b⟩ := searchRefresh_writes e
    obtain ⟨e1, e2, _⟩ := Search.searchRefresh_ok e
    have hb : r'.buf = r0.buf := congrArg Ed.buf e2
    have hm : s'.markStart = s0.markStart ∧ s'.markEnd = s0.markEnd := by
      rw [e1]; unfold Search.setState; split
      · exact ⟨rfl, rfl⟩
      · split <;> exact ⟨rfl, rfl⟩
    rw [hb, hm.1, hm.2]
    exact ⟨_, n, col, mv, a, b⟩
  unfold Search.search at hs
  split at hs
  · obtain ⟨⟨s1, r1⟩, e1, hs⟩ := R.bind_inv hs
    cases hs
    exact key e1
  · obtain ⟨x, e0, hs⟩ := R.bind_inv hs
    cases x with
    | none =>
      obtain ⟨⟨s1, r1⟩, e1, hs⟩ := R.bind_inv hs
      cases hs
      exact key e1
    | some p =>
      obtain ⟨r1, e1, hs⟩ := R.bind_inv hs
      obtain ⟨⟨s2, r2⟩, e2, hs⟩ := R.bind_inv hs
      cases hs
      exact key e2

/-- Any editing key that is neither text nor a deletion (Ctrl-A, Ctrl-B, Ctrl-E, Ctrl-F, Ctrl-K, Ctrl-U, Ctrl-Y) accepts what
the search shows: the search is over, the key acts on the line shown, and the history stays where the search left it. -/
theorem C66_accept {c : OCfg} (hf : Op.Friendly c) (hp : c.filter = none) {o : Op} (h : Op.InSearch c o) {r : Rune} {rest : List Rune}
    (hr : r < 32) (h4 : r ≠ 4) (h8 : r ≠ 8) {z : Line} (he : editKey r o.rb.toEd.line = some z) (hi : o.inp = r :: rest) :
    ∃ o', o.iter c = .ok o' ∧ o'.inp = rest ∧ Op.Inv c o' ∧ o'.search.inMode = false ∧ o'.rb.toEd.line = z ∧
      o'.hist.current = o.hist.current ∧ o'.hist.order = keepNewest c.h.limit o.hist.order ∧ o'.events = o.events ∧ o'.Live := by
  have hrs : r = 1 ∨ r = 2 ∨ r = 5 ∨ r = 6 ∨ r = 11 ∨ r = 21 ∨ r = 25 := by
    unfold editKey at he
    by_cases a1 : r = 1; exact .inl a1
    by_cases a2 : r = 2; exact .inr (.inl a2)
    by_cases a3 : r = 5; exact .inr (.inr (.inl a3))
    by_cases a4 : r = 6; exact .inr (.inr (.inr (.inl a4)))
    by_cases a5 : r = 11; exact .inr (.inr (.inr (.inr (.inl a5))))
    by_cases a6 : r = 21; exact .inr (.inr (.inr (.inr (.inr (.inl a6)))))
    by_cases a7 : r = 25; exact .inr (.inr (.inr (.inr (.inr (.inr a7)))))
    have a8 : ¬ (r = 8 ∨ r = 127) := by omega
    have a9 : ¬ 32 ≤ r := by omega
    rw [if_neg a1, if_neg a2, if_neg a3, if_neg a4, if_neg a8, if_neg a5, if_neg a6, if_neg a7, if_neg h4, if_neg a9] at he
    cases he
  obtain ⟨k, fn, hk, hb, ht⟩ : ∃ k f, Op.simpleKey r = some k ∧ basic k = some f ∧ f o.rb.toEd.line = z := by
    rcases hrs with rfl | rfl | rfl | rfl | rfl | rfl | rfl <;> cases he <;> exact ⟨_, _, rfl, rfl, rfl⟩
  have n : stopKey r = false ∧ r ≠ 0 ∧ r ≠ CharEsc ∧ r ≠ CharTranspose ∧ r ≠ CharBell ∧ r ≠ CharInterrupt := by
    rcases hrs with rfl | rfl | rfl | rfl | rfl | rfl | rfl <;> decide
  obtain ⟨hst, n0, n1, n2, n3, n4⟩ := n
  have hic := h.inv.excl h.mode
  have hns : o.comp.inSelect = false := by
    cases hs : o.comp.inSelect with
    | false => rfl
    | true => rw [(h.inv.comp.sel hs).1] at hic; cases hic
  have hm : Op.Mid c (o.took r rest) := (h.inv.io _ _ _).mid hns
  obtain ⟨o', e1, e2⟩ := Op.dispatch_safe (r := r) hf hm (fun a => (n2 a).elim)
    (fun a => a.elim (fun a => (n3 a).elim) (fun a => (n4 a).elim))
    (fun _ a => absurd a (by show ¬ o.comp.inComplete = true; simp [hic]))
    (fun a b => by
      rcases h.emacs with d | d
      · rw [d] at a; cases a
      · exact absurd b (by show ¬ o.vimNormal = true; simp [d]))
  have e0 : o.iter c = .ok o' := by
    rw [Op.iter_emacs h.live hp hi n0 hns (h.emacs.imp_right fun a => ⟨a, n1⟩)]; exact e1
  obtain ⟨kr, g1, f⟩ := Op.dispatch_ok hf.listener e1
  rw [Op.key_simple hk] at g1
  obtain ⟨o1, g2, g1⟩ := R.bind_inv g1
  cases g1
  obtain ⟨r1, rfl, g3, _⟩ := Op.edit_ok g2
  obtain ⟨x, hx, _⟩ := h.inside
  have fm : o'.search.inMode = false := by
    cases hh : o'.search.inMode with
    | false => rfl
    | true => have := (f.smode.1 hh).2; cases this
  obtain ⟨u1, _, _, u4⟩ := update_false_order (h := o.hist) (c := x) hx c.h r1.buf
  have fh : o'.hist = o.hist.update c.h r1.buf false := by rw [f.hist, if_pos ⟨rfl, fm⟩]; rfl
  refine ⟨o', e0, f.inp, e2, fm, ?_, by rw [fh, u4, hx], by rw [fh, u1], f.events, .inl (f.gate.trans hst)⟩
  obtain ⟨e', e4, _, e6⟩ := core_basic hb h.inv.base.rb.idx
  have g3 : Cmd.core k o.rb.toEd = .ok r1.toEd := g3
  rw [e4, Except.ok.injEq] at g3
  show o'.rb.toEd.line = z
  rw [f.line]
  show r1.toEd.line = z
  rw [← g3, e6]
  exact ht

/-- The view after `n` keys of a call of `Readline` that follows `k` calls. -/
def viewAfter (c : OCfg) (k n : Nat) (o : Op) : R SView := do
  let o ← after c 20 k o
  let o ← o.refreshNil c
  let o ← o.kickRead.iters c n
  .ok o.view

/-- "ab" and "cab" are stored, "x" is typed.  Ctrl-R, then "a": the newest entry "cab" with the cursor before the match;
"b": the match grows; Ctrl-R: the next older entry "ab"; Ctrl-S: the cursor goes behind the match; Ctrl-S: back to
"cab"; "z": fails. -/
example :
    let o := o0 [97, 98, 13, 99, 97, 98, 13, 120, 18, 97, 98, 18, 19, 19, 122]
    viewAfter c0 2 3 o = .ok ⟨[97], false, false, [99, 97, 98], 1, (1, 2), some 1⟩ ∧
    viewAfter c0 2 4 o = .ok ⟨[97, 98], false, false, [99, 97, 98], 1, (1, 3), some 1⟩ ∧
    viewAfter c0 2 5 o = .ok ⟨[97, 98], false, false, [97, 98], 0, (0, 2), some 0⟩ ∧
    viewAfter c0 2 6 o = .ok ⟨[97, 98], true, false, [97, 98], 2, (0, 2), some 0⟩ ∧
    viewAfter c0 2 7 o = .ok ⟨[97, 98], true, false, [99, 97, 98], 3, (1, 3), some 1⟩ ∧
    viewAfter c0 2 8 o = .ok ⟨[97, 98, 122], true, true, [99, 97, 98], 3, (1, 3), some 1⟩ := by decide

/-- The hypotheses of `C66_search` hold before the Ctrl-R of a session: "a" stored, "x" typed. -/
example : ∃ o, Op.Inv c0 o ∧ o.Tidy ∧ o.comp.inSelect = false ∧ o.search.inMode = false ∧ o.hist.Inside ∧ o.Live ∧ Op.Emacs c0 o ∧
    o.stopped = false ∧ o.inp = 18 :: ([97, 127, 18] ++ [1]) ∧ ∀ r ∈ [97, 127, 18], SearchKey r ∨ r = 18 ∨ r = 19 := by
  have hf : Op.Friendly c0 := ⟨by simp [c0], by simp [c0]⟩
  have hs : Session c0 (Op.init [] true 80 (Hist.fresh []) [97, 13, 120, 18, 97, 127, 18, 1]) _ :=
    .key (.call (.taken [] (.key (.key (.call (.start _) rfl) ?_ rfl) ?_ rfl)) rfl) ?_ rfl
  · refine ⟨_, Reachable.inv hf ⟨[], 80, Hist.fresh [], _, 0, by decide, rfl, by decide, by decide, Hist.fresh_WF _, rfl, hs⟩,
      C66_tidy hs, rfl, rfl, ⟨1, rfl, by decide⟩, .inl rfl, .inl rfl, rfl, rfl, by unfold SearchKey; decide⟩
  all_goals
    intro r hr
    have := Option.some.inj hr
    subst this
    rintro (h | h | h | h | h)
    · exact absurd h.1 (by decide)
    · exact absurd h.1 (by decide)
    · exact absurd h.1 (by decide)
    · exact absurd h.1 (by decide)
    · exact absurd h.1 (by decide)

/-- How often underlining was switched on in a session with one stored line and two further keys. -/
def underlines (keys : List Rune) : R Nat := do
  let o ← after c0 20 1 (o0 keys)
  let o ← o.refreshNil c0
  let o ← o.kickRead.iters c0 2
  .ok (o.rb.out.count (.sgr (str "4")))

/-- A match that starts in column 0 of the line is not underlined: with "ba" stored, Ctrl-R "a" underlines two cursor blocks
and the match; with "ab" stored only the cursor blocks. -/
theorem C66_false_underline : underlines [98, 97, 13, 18, 97] = .ok 3 ∧ underlines [97, 98, 13, 18, 97] = .ok 2 := by decide

end RL
