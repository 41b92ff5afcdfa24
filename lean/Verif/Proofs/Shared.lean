import Verif.Spec.Shared
import Verif.Proofs.HistFile
import Verif.Props.HistFile
/-! Lemmas about several sessions on one history file. -/

namespace RL.Share
open Spec Hist

theorem upd_same {β} (f : Nat → β) (i : Nat) (x : β) : upd f i x i = x := if_pos rfl

theorem upd_other {β} (f : Nat → β) {i j : Nat} (x : β) (h : j ≠ i) : upd f i x j = f j := if_neg h

/-- A session that waits for a line and has the entries `es`. -/
structure Live (cfg : HCfg) (h : Hist) (es : List (List Rune)) : Prop where
  wf : h.WF
  enable : h.enable = true
  cur : h.current = h.back
  ne : h.order ≠ []
  fd : h.fd = .opened
  entries : h.entries = es
  le : es.length ≤ cfg.limit.toNat

/-- A session that has read the file. -/
structure Loaded (cfg : HCfg) (h : Hist) (es : List (List Rune)) : Prop where
  wf : h.WF
  enable : h.enable = true
  fd : h.fd = .opened
  sources : (h.order.map fun i => (h.elems i).source) = es
  le : es.length ≤ cfg.limit.toNat

theorem load_loaded (cfg : HCfg) {es : List (List Rune)} (hes : ∀ e ∈ es, Storable e) :
    Loaded cfg (load cfg (fileOf es)) (keepNewest cfg.limit es) := by
  have w0 : ({ fresh [] with fd := Fd.opened } : Hist).WF := { fresh_WF [] with }
  have ht : fileTexts (fileOf es) = es := by
    have := fileTexts_storable hes []
    simpa [fileTexts, termLines] using this
  obtain ⟨k1, _, k3, k4, _⟩ := loadLines_texts cfg (termLines [] (fileOf es)) { fresh [] with fd := Fd.opened } w0 (by simp [fresh])
  have hs : ({ fresh [] with fd := Fd.opened } : Hist).order = [] := rfl
  rw [hs, List.map_nil, List.nil_append, show List.filter (fun t => decide (t ≠ [])) (List.map lineText (termLines [] (fileOf es))) = es from ht] at k1
  exact ⟨loadLines_WF w0 cfg _, k4, k3, k1, keepNewest_length _ _⟩

theorem lines_length {es : List (List Rune)} (hes : ∀ e ∈ es, Storable e) : (termLines [] (fileOf es)).length = es.length := by
  have := termLines_fileOf (es := es) (fun e he => (hes e he).oneLine) []
  rw [List.append_nil] at this
  rw [this]; simp [termLines]

theorem Loaded.finish {cfg h es} (l : Loaded cfg h es) : Live cfg (finish h) es where
  wf := push_WF (ver_WF l.wf) []
  enable := l.enable
  cur := by simp [Share.finish, push, back, setItem]
  ne := by simp [Share.finish, push]
  fd := l.fd
  entries := by
    show (push [] { h with ver := h.ver + 1 }).entries = es
    rw [push_entries (ver_WF l.wf)]; exact l.sources
  le := l.le

theorem Loaded.content {cfg h es} (l : Loaded cfg h es) : content h = fileOf es := by
  unfold Share.content
  rw [fileOf_map, l.sources]

theorem record_news (es : List (List Rune)) (t : List Rune) : record es t = es ++ news es t := by
  unfold record news
  split <;> simp

theorem Live.new {cfg : HCfg} (hl : 1 ≤ cfg.limit) {h es} (l : Live cfg h es) (d : List Nat) (t : List Rune) :
    ∃ h', ({ h with disk := d } : Hist).new cfg t = .ok h' ∧ Live cfg h' (keepNewest cfg.limit (record es t)) ∧ h'.disk = d ++ fileOf (news es t) := by
  have w : ({ h with disk := d } : Hist).WF := { l.wf with }
  obtain ⟨h', e1, w1, e2, e3, e4, e5, e6, more, m1, m2, _⟩ := new_record cfg hl { h with disk := d } w l.enable l.cur l.ne l.fd es
    (by rw [keepNewest_self l.le]; exact l.entries) t
  refine ⟨h', e1, ⟨w1, e2, e3, e4, e5, e6, keepNewest_length _ _⟩, ?_⟩
  rw [record_news] at m1
  rw [m2, List.append_cancel_left m1]

theorem fileOf_app (a b : List (List Rune)) : fileOf (a ++ b) = fileOf a ++ fileOf b := by simp [fileOf]

theorem fileOf_suffix {a b : List (List Rune)} (h : a <:+ b) : (fileOf a).length ≤ (fileOf b).length := by
  obtain ⟨c, rfl⟩ := h
  rw [fileOf_app]; simp

theorem news_storable {es : List (List Rune)} {t : List Rune} (h : t = [] ∨ Storable t) : ∀ e ∈ news es t, Storable e ∧ e = t := by
  intro e he
  unfold news at he
  split at he
  · simp at he
  · rename_i h1
    simp only [List.mem_singleton] at he
    subst he
    refine ⟨?_, rfl⟩
    rcases h with h | h
    · exact absurd (.inl h) h1
    · exact h

/-! ## Beginning without interruption -/

/-- The sessions, seen as the specification does. -/
structure Rel (cfg : HCfg) (s : Sys) (m : Shared) : Prop where
  file : s.data s.cur = fileOf m.lines
  lines : ∀ e ∈ m.lines, Storable e
  cur : s.cur < s.next
  tmp : ∀ k, s.tmp = some k → k < s.next ∧ k ≠ s.cur ∧ ∀ i, (s.sess i).phase = .ready → (s.sess i).ino ≠ k
  ino : ∀ i, (s.sess i).phase = .ready → (s.sess i).ino < s.next
  off : ∀ i, m.mem i = none → (s.sess i).phase = .off
  ready : ∀ i es, m.mem i = some es → (s.sess i).phase = .ready ∧ Live cfg (s.sess i).h es ∧ (m.on i = true ↔ (s.sess i).ino = s.cur)

theorem start_Rel (cfg : HCfg) {lines : List (List Rune)} (h : ∀ e ∈ lines, Storable e) (left : Option (List Nat)) :
    Rel cfg (start (fileOf lines) left) (Shared.start lines) where
  file := rfl
  lines := h
  cur := by simp [start]
  tmp := by
    intro k hk
    cases left with
    | none => simp [start] at hk
    | some l =>
      simp only [start, Option.map_some, Option.some.injEq] at hk
      subst hk
      simp [start]
  ino := by simp [start]
  off := by simp [start]
  ready := by simp [Shared.start]

theorem run_append (cfg : HCfg) (a b : List Step) (s : Sys) : run cfg (a ++ b) s = run cfg a s >>= run cfg b := by
  induction a generalizing s with
  | nil => rfl
  | cons x a ih =>
    simp only [List.cons_append, run]
    cases step cfg x s with
    | error e => rfl
    | ok s' => exact ih s'

theorem run_one {cfg : HCfg} {a : Step} {s s' : Sys} (h : step cfg a s = .ok s') : run cfg [a] s = .ok s' := by
  simp only [run, h]; rfl

theorem rel_step {cfg : HCfg} (hl : 1 ≤ cfg.limit) {a s m m' log} (r : Rel cfg s m) (h : SharedStep cfg.limit a m m' log) :
    ∃ s', run cfg a s = .ok s' ∧ Rel cfg s' m' := by
  cases h with
  | @join i _ h1 h2 =>
    have hlen := lines_length r.lines
    have hL := load_loaded cfg r.lines
    rw [keepNewest_self (by omega)] at hL
    have e : step cfg (.open i) s = .ok { s with sess := upd s.sess i ⟨finish (load cfg (fileOf m.lines)), s.cur, .ready⟩ } := by
      simp only [step, r.off i h1, if_true, r.file, hlen]
      rw [if_neg (by omega)]
    refine ⟨_, run_one e, r.file, r.lines, r.cur, ?_, ?_, ?_, ?_⟩
    · intro k hk
      obtain ⟨t1, t2, t3⟩ := r.tmp k hk
      refine ⟨t1, t2, fun j hj => ?_⟩
      dsimp only at hj ⊢
      by_cases hji : j = i
      · subst hji; rw [upd_same]; exact Ne.symm t2
      · rw [upd_other _ _ hji] at hj ⊢; exact t3 j hj
    · intro j hj
      dsimp only at hj ⊢
      by_cases hji : j = i
      · subst hji; rw [upd_same]; exact r.cur
      · rw [upd_other _ _ hji] at hj ⊢; exact r.ino j hj
    · intro j hj
      dsimp only at hj ⊢
      by_cases hji : j = i
      · subst hji; rw [upd_same] at hj; cases hj
      · rw [upd_other _ _ hji] at hj ⊢; exact r.off j hj
    · intro j es hj
      dsimp only at hj ⊢
      by_cases hji : j = i
      · subst hji
        rw [upd_same] at hj
        cases hj
        simp only [upd_same]
        exact ⟨trivial, hL.finish, by simp⟩
      · rw [upd_other _ _ hji] at hj
        rw [upd_other _ _ hji, upd_other _ _ hji]
        exact r.ready j es hj
  | @trim i n _ h1 h2 h3 =>
    have hlen := lines_length r.lines
    have hL := load_loaded cfg r.lines
    let h := load cfg (fileOf m.lines)
    let k := s.tmp.getD s.next
    have hk : k ≠ s.cur ∧ k < (if s.tmp = none then s.next + 1 else s.next) ∧ ∀ j, (s.sess j).phase = .ready → (s.sess j).ino ≠ k := by
      cases ht : s.tmp with
      | none =>
        have c := r.cur
        refine ⟨by simp only [k, ht, Option.getD_none]; omega, by simp [k, ht], fun j hj => ?_⟩
        have := r.ino j hj
        simp only [k, ht, Option.getD_none]; omega
      | some k' =>
        obtain ⟨t1, t2, t3⟩ := r.tmp k' ht
        exact ⟨by simpa [k, ht] using t2, by simpa [k, ht] using t1, by simpa [k, ht] using t3⟩
    let s1 : Sys := { s with sess := upd s.sess i ⟨h, s.cur, .loaded⟩ }
    let s2 : Sys := { s1 with
      data := upd s1.data k []
      tmp := some k
      next := if s.tmp = none then s.next + 1 else s.next
      sess := upd s1.sess i ⟨h, s.cur, .writing k (fileOf (keepNewest cfg.limit m.lines))⟩ }
    let s3 : Sys := { s2 with
      data := upd s2.data k (fileOf (keepNewest cfg.limit m.lines))
      sess := upd s2.sess i ⟨h, s.cur, .writing k []⟩ }
    let s4 : Sys := { s3 with cur := k, tmp := none, sess := upd s3.sess i ⟨finish h, k, .ready⟩ }
    have e1 : step cfg (.open i) s = .ok s1 := by
      simp only [step, r.off i h1, if_true, r.file, hlen]
      rw [if_pos (by omega)]
    have e2 : step cfg (.tmp i) s1 = .ok s2 := by
      have : s1.sess i = ⟨h, s.cur, .loaded⟩ := upd_same _ _ _
      simp only [step, this, if_true]
      rw [show content h = _ from hL.content]
    have e3 : step cfg (.write i n) s2 = .ok s3 := by
      have h4 : s2.sess i = ⟨h, s.cur, .writing k (fileOf (keepNewest cfg.limit m.lines))⟩ := upd_same _ _ _
      have h5 : s2.data k = [] := upd_same _ _ _
      have h6 := fileOf_suffix (keepNewest_suffix cfg.limit m.lines)
      simp only [step, h4, h5, List.nil_append]
      rw [List.take_of_length_le (by omega), List.drop_of_length_le (by omega)]
    have e4 : step cfg (.rename i) s3 = .ok s4 := by
      have h4 : s3.sess i = ⟨h, s.cur, .writing k []⟩ := upd_same _ _ _
      have h5 : s3.tmp = some k := rfl
      simp only [step, h4, h5]
      rfl
    have other : ∀ j, j ≠ i → s4.sess j = s.sess j := by
      intro j hj
      show upd (upd (upd (upd s.sess i _) i _) i _) i _ j = _
      rw [upd_other _ _ hj, upd_other _ _ hj, upd_other _ _ hj, upd_other _ _ hj]
    have self : s4.sess i = ⟨finish h, k, .ready⟩ := upd_same _ _ _
    refine ⟨s4, ?_, ?_, ?_, hk.2.1, ?_, ?_, ?_, ?_⟩
    · simp only [run, e1, e2, e3, e4, R.bind_ok]
    · exact upd_same _ _ _
    · intro e he; exact r.lines e (mem_keepNewest he)
    · intro k' hk'; cases hk'
    · intro j hj
      by_cases hji : j = i
      · subst hji; rw [self]; exact hk.2.1
      · rw [other j hji] at hj ⊢
        have := r.ino j hj
        show _ < if s.tmp = none then s.next + 1 else s.next
        split <;> omega
    · intro j hj
      dsimp only at hj
      by_cases hji : j = i
      · subst hji; rw [upd_same] at hj; cases hj
      · rw [upd_other _ _ hji] at hj; rw [other j hji]; exact r.off j hj
    · intro j es hj
      dsimp only at hj ⊢
      by_cases hji : j = i
      · subst hji
        rw [upd_same] at hj
        cases hj
        rw [self]
        exact ⟨rfl, hL.finish, by simp [s4]⟩
      · rw [upd_other _ _ hji] at hj
        rw [other j hji]
        obtain ⟨q1, q2, _⟩ := r.ready j es hj
        refine ⟨q1, q2, ?_⟩
        have := hk.2.2 j q1
        simp [hji, s4, this]
  | @say i t _ es h1 h2 =>
    obtain ⟨q1, q2, q3⟩ := r.ready i es h1
    obtain ⟨h', e1, l1, d1⟩ := q2.new hl (s.data (s.sess i).ino) t
    have e : step cfg (.save i t) s = .ok { s with data := upd s.data (s.sess i).ino (s.data (s.sess i).ino ++ fileOf (news es t)), sess := upd s.sess i { s.sess i with h := h' } } := by
      simp only [step, q1, if_true, e1, R.bind_ok, d1]
    refine ⟨_, run_one e, ?_, ?_, r.cur, ?_, ?_, ?_, ?_⟩
    · dsimp only
      by_cases ho : m.on i = true
      · rw [if_pos ho, q3.1 ho, upd_same, r.file, fileOf_app]
      · rw [if_neg ho, upd_other _ _ (fun h => ho (q3.2 h.symm)), r.file]
    · intro e he
      dsimp only at he
      split at he
      · rcases List.mem_append.1 he with he | he
        · exact r.lines e he
        · exact (news_storable h2 e he).1
      · exact r.lines e he
    · intro k hk
      obtain ⟨t1, t2, t3⟩ := r.tmp k hk
      refine ⟨t1, t2, fun j hj => ?_⟩
      dsimp only at hj ⊢
      by_cases hji : j = i
      · subst hji; rw [upd_same]; exact t3 j q1
      · rw [upd_other _ _ hji] at hj ⊢; exact t3 j hj
    · intro j hj
      dsimp only at hj ⊢
      by_cases hji : j = i
      · subst hji; rw [upd_same]; exact r.ino j q1
      · rw [upd_other _ _ hji] at hj ⊢; exact r.ino j hj
    · intro j hj
      dsimp only at hj ⊢
      by_cases hji : j = i
      · subst hji; rw [upd_same] at hj; cases hj
      · rw [upd_other _ _ hji] at hj ⊢; exact r.off j hj
    · intro j es' hj
      dsimp only at hj ⊢
      by_cases hji : j = i
      · subst hji
        rw [upd_same] at hj
        cases hj
        simp only [upd_same]
        exact ⟨q1, l1, q3⟩
      · rw [upd_other _ _ hji] at hj
        rw [upd_other _ _ hji]
        exact r.ready j es' hj
  | @leave i _ =>
    have e : step cfg (.close i) s = .ok { s with sess := upd s.sess i { s.sess i with phase := .off } } := rfl
    refine ⟨_, run_one e, r.file, r.lines, r.cur, ?_, ?_, ?_, ?_⟩
    · intro k hk
      obtain ⟨t1, t2, t3⟩ := r.tmp k hk
      refine ⟨t1, t2, fun j hj => ?_⟩
      dsimp only at hj ⊢
      by_cases hji : j = i
      · subst hji; rw [upd_same] at hj; cases hj
      · rw [upd_other _ _ hji] at hj ⊢; exact t3 j hj
    · intro j hj
      dsimp only at hj ⊢
      by_cases hji : j = i
      · subst hji; rw [upd_same] at hj; cases hj
      · rw [upd_other _ _ hji] at hj ⊢; exact r.ino j hj
    · intro j hj
      dsimp only at hj ⊢
      by_cases hji : j = i
      · subst hji; rw [upd_same]
      · rw [upd_other _ _ hji] at hj ⊢; exact r.off j hj
    · intro j es hj
      dsimp only at hj ⊢
      by_cases hji : j = i
      · subst hji; rw [upd_same] at hj; cases hj
      · rw [upd_other _ _ hji] at hj
        rw [upd_other _ _ hji, upd_other _ _ hji]
        exact r.ready j es hj

theorem rel_run {cfg : HCfg} (hl : 1 ≤ cfg.limit) {as s m m' log} (r : Rel cfg s m) (h : SharedRun cfg.limit as m m' log) :
    ∃ s', run cfg as s = .ok s' ∧ Rel cfg s' m' := by
  induction h generalizing s with
  | nil => exact ⟨s, rfl, r⟩
  | cons h1 _ ih =>
    obtain ⟨s1, e1, r1⟩ := rel_step hl r h1
    obtain ⟨s2, e2, r2⟩ := ih r1
    exact ⟨s2, by rw [run_append, e1]; exact e2, r2⟩

/-! ## Any order -/

/-- What holds at every moment if no two sessions replace the file at the same time. -/
structure Sound (cfg : HCfg) (P : List Rune → Prop) (s : Sys) : Prop where
  cur : s.cur < s.next
  file : Whole P (s.data s.cur)
  fds : ∀ i, (s.sess i).phase = .ready → (s.sess i).ino < s.next ∧ Whole P (s.data (s.sess i).ino) ∧ ∃ es, Live cfg (s.sess i).h es
  loaded : ∀ i, (s.sess i).phase = .loaded → ∃ es, Loaded cfg (s.sess i).h es ∧ ∀ e ∈ es, Storable e ∧ P e
  tmp : ∀ k, s.tmp = some k → k < s.next ∧ k ≠ s.cur ∧ ∀ i, (s.sess i).phase = .ready → (s.sess i).ino ≠ k
  writing : ∀ i k left, (s.sess i).phase = .writing k left → s.tmp = some k ∧ Whole P (s.data k ++ left) ∧
    (∃ es, Loaded cfg (s.sess i).h es) ∧ ∀ j k' l', (s.sess j).phase = .writing k' l' → j = i

theorem whole_append {P : List Rune → Prop} {d : List Nat} (h : Whole P d) {more} (hm : ∀ e ∈ more, Storable e ∧ P e) : Whole P (d ++ fileOf more) := by
  obtain ⟨es, rfl, h⟩ := h
  refine ⟨es ++ more, (fileOf_app _ _).symm, fun e he => ?_⟩
  rcases List.mem_append.1 he with he | he
  · exact h e he
  · exact hm e he

theorem sound_step {cfg : HCfg} (hl : 1 ≤ cfg.limit) {P : List Rune → Prop} {a s} (r : Sound cfg P s)
    (ha : ∀ i t, a = .save i t → t = [] ∨ (Storable t ∧ P t))
    (h1 : ∀ i, a = .tmp i → ∀ j k left, (s.sess j).phase ≠ .writing k left) : ∃ s', step cfg a s = .ok s' ∧ Sound cfg P s' := by
  cases a with
  | «open» i =>
    by_cases hp : (s.sess i).phase = .off
    · obtain ⟨es, hes, hP⟩ := r.file
      have hL := load_loaded cfg (es := es) fun e he => (hP e he).1
      have key : ∀ x : Sess, x.ino = s.cur → ((x.phase = .loaded ∧ x.h = load cfg (fileOf es)) ∨ (x.phase = .ready ∧ x.h = finish (load cfg (fileOf es)))) →
          Sound cfg P { s with sess := upd s.sess i x } := by
        intro x hx hx2
        have nw : ∀ k l, x.phase ≠ .writing k l := by
          intro k l h
          rcases hx2 with hx2 | hx2 <;> rw [hx2.1] at h <;> cases h
        refine ⟨r.cur, r.file, ?_, ?_, ?_, ?_⟩
        · intro j hj
          dsimp only at hj ⊢
          by_cases hji : j = i
          · subst hji
            rw [upd_same] at hj ⊢
            rw [hx]
            refine ⟨r.cur, r.file, keepNewest cfg.limit es, ?_⟩
            rcases hx2 with hx2 | hx2
            · rw [hx2.1] at hj; cases hj
            · rw [hx2.2]; exact hL.finish
          · rw [upd_other _ _ hji] at hj ⊢; exact r.fds j hj
        · intro j hj
          dsimp only at hj ⊢
          by_cases hji : j = i
          · subst hji
            rw [upd_same] at hj ⊢
            rcases hx2 with hx2 | hx2
            · rw [hx2.2]; exact ⟨_, hL, fun e he => hP e (mem_keepNewest he)⟩
            · rw [hx2.1] at hj; cases hj
          · rw [upd_other _ _ hji] at hj ⊢; exact r.loaded j hj
        · intro k hk
          obtain ⟨t1, t2, t3⟩ := r.tmp k hk
          refine ⟨t1, t2, fun j hj => ?_⟩
          dsimp only at hj ⊢
          by_cases hji : j = i
          · subst hji; rw [upd_same, hx]; exact Ne.symm t2
          · rw [upd_other _ _ hji] at hj ⊢; exact t3 j hj
        · intro j k l hj
          dsimp only at hj ⊢
          by_cases hji : j = i
          · subst hji; rw [upd_same] at hj; exact absurd hj (nw _ _)
          · rw [upd_other _ _ hji] at hj ⊢
            obtain ⟨q1, q2, q3, q4⟩ := r.writing j k l hj
            refine ⟨q1, q2, q3, fun j' k' l' hj' => ?_⟩
            by_cases hji' : j' = i
            · subst hji'; rw [upd_same] at hj'; exact absurd hj' (nw _ _)
            · rw [upd_other _ _ hji'] at hj'; exact q4 _ _ _ hj'
      simp only [step, hp, if_true, hes]
      split
      · exact ⟨_, rfl, key _ rfl (.inl ⟨rfl, rfl⟩)⟩
      · exact ⟨_, rfl, key _ rfl (.inr ⟨rfl, rfl⟩)⟩
    · exact ⟨s, by simp only [step]; rw [if_neg hp], r⟩
  | tmp i =>
    by_cases hp : (s.sess i).phase = .loaded
    · have nw := h1 i rfl
      obtain ⟨es, hL, hP⟩ := r.loaded i hp
      let k := s.tmp.getD s.next
      have hk : k ≠ s.cur ∧ k < (if s.tmp = none then s.next + 1 else s.next) ∧ ∀ j, (s.sess j).phase = .ready → (s.sess j).ino ≠ k := by
        cases ht : s.tmp with
        | none =>
          have c := r.cur
          refine ⟨by simp only [k, ht, Option.getD_none]; omega, by simp [k, ht], fun j hj => ?_⟩
          have := (r.fds j hj).1
          simp only [k, ht, Option.getD_none]; omega
        | some k' =>
          obtain ⟨t1, t2, t3⟩ := r.tmp k' ht
          exact ⟨by simpa [k, ht] using t2, by simpa [k, ht] using t1, by simpa [k, ht] using t3⟩
      have hn : s.next ≤ if s.tmp = none then s.next + 1 else s.next := by split <;> omega
      refine ⟨_, by simp only [step, hp, if_true]; rfl, ?_, ?_, ?_, ?_, ?_, ?_⟩
      · exact Nat.lt_of_lt_of_le r.cur hn
      · dsimp only; rw [upd_other _ _ (Ne.symm hk.1)]; exact r.file
      · intro j hj
        dsimp only at hj ⊢
        by_cases hji : j = i
        · subst hji; rw [upd_same] at hj; cases hj
        · rw [upd_other _ _ hji] at hj ⊢
          obtain ⟨q1, q2, q3⟩ := r.fds j hj
          refine ⟨Nat.lt_of_lt_of_le q1 hn, ?_, q3⟩
          rw [upd_other _ _ (hk.2.2 j hj)]; exact q2
      · intro j hj
        dsimp only at hj ⊢
        by_cases hji : j = i
        · subst hji; rw [upd_same] at hj; cases hj
        · rw [upd_other _ _ hji] at hj ⊢; exact r.loaded j hj
      · intro k' hk'
        cases hk'
        refine ⟨hk.2.1, hk.1, fun j hj => ?_⟩
        dsimp only at hj ⊢
        by_cases hji : j = i
        · subst hji; rw [upd_same] at hj; cases hj
        · rw [upd_other _ _ hji] at hj ⊢; exact hk.2.2 j hj
      · intro j k' l hj
        dsimp only at hj ⊢
        by_cases hji : j = i
        · subst hji
          rw [upd_same] at hj ⊢
          cases hj
          refine ⟨rfl, ?_, ⟨es, hL⟩, fun j' k' l' hj' => ?_⟩
          · rw [upd_same, hL.content]; exact ⟨es, rfl, hP⟩
          · by_cases hji' : j' = j
            · exact hji'
            · rw [upd_other _ _ hji'] at hj'; exact absurd hj' (nw _ _ _)
        · rw [upd_other _ _ hji] at hj; exact absurd hj (nw _ _ _)
    · exact ⟨s, by simp only [step]; rw [if_neg hp], r⟩
  | write i n =>
    cases hp : (s.sess i).phase with
    | writing k left =>
      obtain ⟨q1, q2, q3, q4⟩ := r.writing i k left hp
      obtain ⟨t1, t2, t3⟩ := r.tmp k q1
      have e : step cfg (.write i n) s = .ok { s with
          data := upd s.data k (s.data k ++ left.take n), sess := upd s.sess i { s.sess i with phase := .writing k (left.drop n) } } := by
        simp only [step, hp]
      refine ⟨_, e, r.cur, ?_, ?_, ?_, ?_, ?_⟩
      · dsimp only; rw [upd_other _ _ (Ne.symm t2)]; exact r.file
      · intro j hj
        dsimp only at hj ⊢
        by_cases hji : j = i
        · subst hji; rw [upd_same] at hj; cases hj
        · rw [upd_other _ _ hji] at hj ⊢
          rw [upd_other _ _ (t3 j hj)]; exact r.fds j hj
      · intro j hj
        dsimp only at hj ⊢
        by_cases hji : j = i
        · subst hji; rw [upd_same] at hj; cases hj
        · rw [upd_other _ _ hji] at hj ⊢; exact r.loaded j hj
      · intro k' hk'
        obtain ⟨u1, u2, u3⟩ := r.tmp k' hk'
        refine ⟨u1, u2, fun j hj => ?_⟩
        dsimp only at hj ⊢
        by_cases hji : j = i
        · subst hji; rw [upd_same] at hj; cases hj
        · rw [upd_other _ _ hji] at hj ⊢; exact u3 j hj
      · intro j k' l hj
        dsimp only at hj ⊢
        by_cases hji : j = i
        · subst hji
          rw [upd_same] at hj ⊢
          cases hj
          refine ⟨q1, ?_, q3, fun j' k' l' hj' => ?_⟩
          · rw [upd_same, List.append_assoc, List.take_append_drop]; exact q2
          · by_cases hji' : j' = j
            · exact hji'
            · rw [upd_other _ _ hji'] at hj'; exact q4 _ _ _ hj'
        · rw [upd_other _ _ hji] at hj; exact absurd (q4 _ _ _ hj) hji
    | _ => exact ⟨s, by simp only [step, hp], r⟩
  | rename i =>
    cases hp : (s.sess i).phase with
    | writing k left =>
      cases left with
      | cons x l => exact ⟨s, by simp only [step, hp], r⟩
      | nil =>
        obtain ⟨q1, q2, ⟨es, q3⟩, q4⟩ := r.writing i k [] hp
        obtain ⟨t1, t2, t3⟩ := r.tmp k q1
        rw [List.append_nil] at q2
        refine ⟨_, by simp only [step, hp, q1]; rfl, t1, q2, ?_, ?_, ?_, ?_⟩
        · intro j hj
          dsimp only at hj ⊢
          by_cases hji : j = i
          · subst hji; rw [upd_same]; exact ⟨t1, q2, es, q3.finish⟩
          · rw [upd_other _ _ hji] at hj ⊢; exact r.fds j hj
        · intro j hj
          dsimp only at hj ⊢
          by_cases hji : j = i
          · subst hji; rw [upd_same] at hj; cases hj
          · rw [upd_other _ _ hji] at hj ⊢; exact r.loaded j hj
        · intro k' hk'; cases hk'
        · intro j k' l hj
          dsimp only at hj ⊢
          by_cases hji : j = i
          · subst hji; rw [upd_same] at hj; cases hj
          · rw [upd_other _ _ hji] at hj; exact absurd (q4 _ _ _ hj) hji
    | _ => exact ⟨s, by simp only [step, hp], r⟩
  | save i t =>
    by_cases hp : (s.sess i).phase = .ready
    · obtain ⟨q1, q2, es, q3⟩ := r.fds i hp
      obtain ⟨h', e1, l1, d1⟩ := q3.new hl (s.data (s.sess i).ino) t
      have hm : ∀ e ∈ news es t, Storable e ∧ P e := by
        intro e he
        rcases ha i t rfl with h0 | h0
        · exact absurd he (by simp [news, h0])
        · have := news_storable (.inr h0.1) e he
          exact ⟨this.1, this.2 ▸ h0.2⟩
      have wh : ∀ k, Whole P (s.data k) → Whole P (upd s.data (s.sess i).ino (s.data (s.sess i).ino ++ fileOf (news es t)) k) := by
        intro k hk
        by_cases hki : k = (s.sess i).ino
        · subst hki; rw [upd_same]; exact whole_append hk hm
        · rw [upd_other _ _ hki]; exact hk
      have e : step cfg (.save i t) s = .ok { s with
          data := upd s.data (s.sess i).ino (s.data (s.sess i).ino ++ fileOf (news es t)), sess := upd s.sess i { s.sess i with h := h' } } := by
        simp only [step, hp, if_true, e1, R.bind_ok, d1]
      refine ⟨_, e, r.cur, wh _ r.file, ?_, ?_, ?_, ?_⟩
      · intro j hj
        dsimp only at hj ⊢
        by_cases hji : j = i
        · subst hji
          simp only [upd_same]
          exact ⟨q1, whole_append q2 hm, _, l1⟩
        · rw [upd_other _ _ hji] at hj ⊢
          obtain ⟨p1, p2, p3⟩ := r.fds j hj
          exact ⟨p1, wh _ p2, p3⟩
      · intro j hj
        dsimp only at hj ⊢
        by_cases hji : j = i
        · subst hji; rw [upd_same] at hj; exact absurd (hp.symm.trans hj) (by simp)
        · rw [upd_other _ _ hji] at hj ⊢; exact r.loaded j hj
      · intro k' hk'
        obtain ⟨u1, u2, u3⟩ := r.tmp k' hk'
        refine ⟨u1, u2, fun j hj => ?_⟩
        dsimp only at hj ⊢
        by_cases hji : j = i
        · subst hji; rw [upd_same]; exact u3 j hp
        · rw [upd_other _ _ hji] at hj ⊢; exact u3 j hj
      · intro j k' l hj
        dsimp only at hj ⊢
        by_cases hji : j = i
        · subst hji; rw [upd_same] at hj; exact absurd (hp.symm.trans hj) (by simp)
        · rw [upd_other _ _ hji] at hj ⊢
          obtain ⟨p1, p2, p3, p4⟩ := r.writing j k' l hj
          refine ⟨p1, ?_, p3, fun j' k'' l' hj' => ?_⟩
          · rw [upd_other _ _ (Ne.symm ((r.tmp k' p1).2.2 i hp))]; exact p2
          · by_cases hji' : j' = i
            · subst hji'; rw [upd_same] at hj'; exact absurd (hp.symm.trans hj') (by simp)
            · rw [upd_other _ _ hji'] at hj'; exact p4 _ _ _ hj'
    · exact ⟨s, by simp only [step]; rw [if_neg hp], r⟩
  | close i =>
    refine ⟨_, rfl, r.cur, r.file, ?_, ?_, ?_, ?_⟩
    · intro j hj
      dsimp only at hj ⊢
      by_cases hji : j = i
      · subst hji; rw [upd_same] at hj; cases hj
      · rw [upd_other _ _ hji] at hj ⊢; exact r.fds j hj
    · intro j hj
      dsimp only at hj ⊢
      by_cases hji : j = i
      · subst hji; rw [upd_same] at hj; cases hj
      · rw [upd_other _ _ hji] at hj ⊢; exact r.loaded j hj
    · intro k' hk'
      obtain ⟨u1, u2, u3⟩ := r.tmp k' hk'
      refine ⟨u1, u2, fun j hj => ?_⟩
      dsimp only at hj ⊢
      by_cases hji : j = i
      · subst hji; rw [upd_same] at hj; cases hj
      · rw [upd_other _ _ hji] at hj ⊢; exact u3 j hj
    · intro j k' l hj
      dsimp only at hj ⊢
      by_cases hji : j = i
      · subst hji; rw [upd_same] at hj; cases hj
      · rw [upd_other _ _ hji] at hj ⊢
        obtain ⟨p1, p2, p3, p4⟩ := r.writing j k' l hj
        refine ⟨p1, p2, p3, fun j' k'' l' hj' => ?_⟩
        by_cases hji' : j' = i
        · subst hji'; rw [upd_same] at hj'; cases hj'
        · rw [upd_other _ _ hji'] at hj'; exact p4 _ _ _ hj'

theorem sound_run {cfg : HCfg} (hl : 1 ≤ cfg.limit) {P : List Rune → Prop} {as s} (r : Sound cfg P s)
    (ha : ∀ i t, .save i t ∈ as → t = [] ∨ (Storable t ∧ P t)) (h : OneWriter cfg as s) : ∃ s', run cfg as s = .ok s' ∧ Sound cfg P s' := by
  induction as generalizing s with
  | nil => exact ⟨s, rfl, r⟩
  | cons a as ih =>
    cases h with
    | cons h1 h2 =>
      obtain ⟨s1, e1, r1⟩ := sound_step hl r (fun i t h => ha i t (by simp [h])) h1
      obtain ⟨s2, e2, r2⟩ := ih r1 (fun i t h => ha i t (by simp [h])) (h2 s1 e1)
      exact ⟨s2, by simp only [run, e1]; exact e2, r2⟩

theorem start_Sound (cfg : HCfg) {P : List Rune → Prop} {lines : List (List Rune)} (h : ∀ e ∈ lines, Storable e ∧ P e) (left : Option (List Nat)) :
    Sound cfg P (start (fileOf lines) left) where
  cur := by simp [start]
  file := ⟨lines, rfl, h⟩
  fds := by simp [start]
  loaded := by simp [start]
  tmp := by
    intro k hk
    cases left with
    | none => simp [start] at hk
    | some l =>
      simp only [start, Option.map_some, Option.some.injEq] at hk
      subst hk
      simp [start]
  writing := by simp [start]

end RL.Share
