import Verif.Spec.Restart
import Verif.Props.Browse
import Verif.Props.Decode
/-! # C74: from the bytes typed to the lines returned, over several runs on one history file -/

namespace RL
open Spec RB Ed Hist

theorem fileOf_append (a b : List (List Rune)) : fileOf (a ++ b) = fileOf a ++ fileOf b := by simp [fileOf]

theorem BookKey.last {limit : Int} (hl : 2 ≤ limit) {r : Rune} {b b' : Book} (h : BookKey limit r b b') (hp : b.pages ≠ []) :
    b'.pages ≠ [] ∧ b'.stored.getLast? = b.stored.getLast? := by
  have note : ∀ b1 : Book, b1.pages = b.pages → b1.stored = b.stored →
      (b1.note limit).pages ≠ [] ∧ (b1.note limit).stored.getLast? = b.stored.getLast? := by
    intro b1 e1 e2
    rw [Book.note, if_neg (by rw [e1]; exact hp)]
    refine ⟨fun a => ?_, ?_⟩
    · have := congrArg List.length a
      simp only [keepNewest, List.length_drop, List.length_set, e1, List.length_nil] at this
      have h0 : b.pages.length ≠ 0 := fun a => hp (List.length_eq_zero_iff.1 a)
      omega
    · show (keepNewest (limit - 1) b1.stored).getLast? = _
      rw [keepNewest_getLast (by omega), e2]
  have turn : ∀ i, (b.turn i).pages = b.pages ∧ (b.turn i).stored = b.stored := by
    intro i
    unfold Book.turn
    split <;> exact ⟨rfl, rfl⟩
  cases h with
  | edit _ => exact note _ rfl rfl
  | older =>
    unfold Book.older
    split
    · exact note _ rfl rfl
    · exact note _ (turn _).1 (turn _).2
  | newer => exact note _ (turn _).1 (turn _).2

theorem BookKeys.last {limit : Int} (hl : 2 ≤ limit) {ks : List Rune} {b b' : Book} (h : BookKeys limit ks b b') :
    b.pages ≠ [] → b'.pages ≠ [] ∧ b'.stored.getLast? = b.stored.getLast? := by
  induction h with
  | nil => exact fun h => ⟨h, rfl⟩
  | cons hk _ ih =>
    intro hp
    obtain ⟨h1, h2⟩ := BookKey.last hl hk hp
    obtain ⟨h3, h4⟩ := ih h1
    exact ⟨h3, h4.trans h2⟩

theorem BookEnd.last {limit : Int} (hl : 2 ≤ limit) {r : Rune} {b b' : Book} {e : Event} (h : BookEnd true limit r b e b') (hp : b.pages ≠ [])
    {all : List (List Rune)} (ha : all.getLast? = b.stored.getLast?) :
    b'.pages ≠ [] ∧ (submitted [e]).foldl record all = all ++ added true b.stored e ∧
      (all ++ added true b.stored e).getLast? = b'.stored.getLast? := by
  have canc : b.cancel.pages ≠ [] ∧ (all ++ ([] : List (List Rune))).getLast? = b.cancel.stored.getLast? := by
    refine ⟨?_, ?_⟩
    · simp [Book.cancel, hp]
    · rw [List.append_nil, ha]; rfl
  cases h with
  | enter _ _ =>
    have hrec : (all ++ added true b.stored (.line b.line.text)) = record all b.line.text := by
      unfold record
      by_cases hc : b.line.text = [] ∨ all.getLast? = some b.line.text
      · rw [if_pos hc, added, if_neg, List.append_nil]
        rintro ⟨_, h1, h2⟩
        rcases hc with h | h
        · exact h1 h
        · exact h2 (ha ▸ h)
      · rw [if_neg hc, added, if_pos]
        exact ⟨rfl, fun h => hc (.inl h), fun h => hc (.inr (ha.trans h))⟩
    refine ⟨by simp [Book.submit], hrec.symm, ?_⟩
    rw [hrec]
    show _ = (keepNewest (limit - 1) (record b.stored b.line.text)).getLast?
    rw [keepNewest_getLast (by omega)]
    unfold record
    rw [ha]
    split
    · exact ha
    · simp
  | interrupt => exact ⟨canc.1, by simp [submitted, added], canc.2⟩
  | eof _ => exact ⟨canc.1, by simp [submitted, added], canc.2⟩

theorem submitted_cons (e : Event) (es : List Event) : submitted (e :: es) = submitted [e] ++ submitted es := by
  cases e <;> rfl

/-- A session on an open history file: the calls return what the notebook says, and the lines recorded are appended to the
file. -/
theorem C74_session {c : OCfg} (hp : Op.Plain c) (hl : 2 ≤ c.h.limit) (hn : c.noSave = false) {keys : List Rune} {b b' : Book} {es : List Event}
    {save : Bool} (hsv : save = true) (hr : BookRun save c.h.limit keys b es b') :
    ∀ {o : Op} {rest : List Rune} {all : List (List Rune)}, Ready c o → Op.Shows c o b → o.inp = keys ++ rest → o.hist.fd = .opened → b.pages ≠ [] →
    all.getLast? = b.stored.getLast? → ∀ {fuel : Nat}, keys.length < fuel →
    ∃ o' more, calls c fuel es.length o = .ok es ∧ after c fuel es.length o = .ok o' ∧ Op.Shows c o' b' ∧
      (submitted es).foldl record all = all ++ more ∧ o'.hist.disk = o.hist.disk ++ fileOf more ∧ Ready c o' := by
  induction hr with
  | done => intro o rest all h hs hi _ _ _ fuel _; exact ⟨o, [], rfl, rfl, hs, by simp [submitted], by simp [fileOf], h⟩
  | @call ks r keys b b1 b2 b3 e es hk he _ ih =>
    subst hsv
    intro o rest all h hs hi ho hpg ha fuel hf
    simp only [List.length_append, List.length_cons] at hf
    obtain ⟨p1, l1⟩ := BookKeys.last hl hk hpg
    obtain ⟨p2, l2, l3⟩ := BookEnd.last hl he p1 (ha.trans l1.symm)
    have he' : BookEnd (!c.noSave) c.h.limit r b1 e b2 := by rw [hn]; exact he
    obtain ⟨o1, e1, e2, e3, e4, e5, e6⟩ := C67_readline hp (by omega) h hs (rest := keys ++ rest) (by rw [hi]; simp) hk he' (fuel := fuel) (by omega)
    obtain ⟨o2, more, f1, f2, f3, f4, f5, f6⟩ := ih e2 e4 e3 (e5.trans ho) p2 l3 (fuel := fuel) (by omega)
    refine ⟨o2, added true b1.stored e ++ more, ?_, ?_, f3, ?_, ?_, f6⟩
    · show (o.readline c fuel >>= fun p => calls c fuel es.length p.2 >>= fun l => .ok (p.1 :: l)) = _
      rw [e1, R.bind_ok]
      dsimp only
      rw [f1]; rfl
    · show (o.readline c fuel >>= fun p => after c fuel es.length p.2) = _
      rw [e1, R.bind_ok]
      exact f2
    · rw [submitted_cons, List.foldl_append, l2, f4, List.append_assoc]
    · have := e6 ho p1
      rw [hn] at this
      rw [f5, this, fileOf_append, List.append_assoc]; rfl

theorem record_storable {es : List (List Rune)} (he : ∀ e ∈ es, Storable e) {ss : List (List Rune)} (hs : ∀ s ∈ ss, s = [] ∨ Storable s) :
    ∀ e ∈ ss.foldl record es, Storable e := by
  induction ss generalizing es with
  | nil => exact he
  | cons s ss ih =>
    refine ih (fun e h => ?_) (fun t ht => hs t (.tail _ ht))
    unfold record at h
    split at h
    · exact he e h
    · rename_i hne
      rcases List.mem_append.1 h with h | h
      · exact he e h
      · rw [List.mem_singleton.1 h]
        exact (hs s (.head _)).resolve_left fun a => hne (.inl a)

/-- One run on a history file. -/
theorem C74_run {c : OCfg} (hp : Op.Plain c) (hl : 2 ≤ c.h.limit) (hn : c.noSave = false) (hf : c.h.hasFile = true) (ho : c.h.openOK = true)
    {prompt : List Rune} {w : Int} {p : Nat} (hw : 0 < w) (hpr : (RB.new prompt true w).promptLen c.U = .ok p)
    (hdvd : 0 < p → ¬ w ∣ (p : Int)) (hpaint : c.d.painter ≠ none) {es : List (List Rune)} (hes : ∀ e ∈ es, Storable e) {evs : List Event} {b : Book}
    {keys : List Rune} (h4 : BookRun true c.h.limit keys (Book.opened (keepNewest c.h.limit es)) evs b) {fuel : Nat} (hfu : keys.length < fuel) :
    ∃ o', calls c fuel evs.length (Op.init prompt true w (Hist.start c.h (fileOf es)) keys) = .ok evs ∧
      after c fuel evs.length (Op.init prompt true w (Hist.start c.h (fileOf es)) keys) = .ok o' ∧ o'.stopped = false ∧
      o'.hist.disk = fileOf ((submitted evs).foldl record (keepNewest c.h.limit es)) := by
  obtain ⟨_, d2, d3⟩ := C23_load c.h hf ho es hes
  have hdisk : (Hist.start c.h (fileOf es)).disk = fileOf (keepNewest c.h.limit es) := by
    rw [d2]
    split
    · rfl
    · rw [keepNewest_self (by omega)]
  obtain ⟨_, _, _, g4, _⟩ := start_spec c.h (fileOf es) hf ho
  have hr : Ready c (Op.init prompt true w (Hist.start c.h (fileOf es)) keys) := init_Ready hw hpr hdvd hpaint d3
  obtain ⟨o', more, q1, q2, _, q4, q5, q6⟩ := C74_session (all := keepNewest c.h.limit es) (rest := []) hp hl hn rfl h4 hr
    (C67_start_file hl hf ho prompt w hes _) (by simp [Op.init]) g4 (by simp [Book.opened]) rfl hfu
  have q5 : o'.hist.disk = (Hist.start c.h (fileOf es)).disk ++ fileOf more := q5
  rw [hdisk, ← fileOf_append, ← q4] at q5
  exact ⟨o', q1, q2, q6.running, q5⟩

/-- C74.  A program is run any number of times on one history file.  Whatever bytes the terminal sends in each run, if they
encode keys of the notebook and the lines submitted can be stored, then every call of `Readline` in every run returns exactly
what the notebook says, starting from the entries the earlier runs left; in the end the file holds exactly these entries. -/
theorem C74_runs {c : OCfg} (hp : Op.Plain c) (hl : 2 ≤ c.h.limit) (hn : c.noSave = false) (hf : c.h.hasFile = true) (ho : c.h.openOK = true)
    {prompt : List Rune} {w : Int} {p : Nat} (hw : 0 < w) (hpr : (RB.new prompt true w).promptLen c.U = .ok p)
    (hdvd : 0 < p → ¬ w ∣ (p : Int)) (hpaint : c.d.painter ≠ none) {es es' : List (List Rune)} {rs : List (List Nat × List Event)}
    (h : Runs c.U c.h.limit es rs es') (hes : ∀ e ∈ es, Storable e) :
    (∀ e ∈ es', Storable e) ∧ ∃ N, ∀ fuel, N ≤ fuel →
      runs c prompt w fuel (fileOf es) (rs.map fun r => (r.1, r.2.length)) = .ok (rs.map (·.2), fileOf es') := by
  induction h with
  | none => exact ⟨hes, 0, fun _ _ => rfl⟩
  | @run es evs b rs es' cs t h1 h2 h3 h4 h5 _ ih =>
    have hkn : ∀ e ∈ keepNewest c.h.limit es, Storable e := fun e he => hes e (mem_keepNewest he)
    obtain ⟨k1, N, k2⟩ := ih (record_storable hkn h5)
    have hkeys := C38_bytes h1 h2 h3
    refine ⟨k1, max N ((cs.flatMap Chunk.keys).length + 1), fun fuel hfu => ?_⟩
    obtain ⟨o', q1, q2, _, q5⟩ := C74_run hp hl hn hf ho hw hpr hdvd hpaint hes h4 (fuel := fuel) (by omega)
    have k2 := k2 fuel (by omega)
    simp only [List.map_cons, runs, hkeys]
    rw [q1, R.bind_ok, q2, R.bind_ok, q5, k2]
    rfl

/-- Two runs on an empty history file.  In the first the terminal sends "hi", Enter.  In the second it sends Up as `ESC [ A`,
"é" as two bytes, and Enter; then the start of a sequence. -/
theorem C74_example : Runs U0 500 [] [([104, 105, 13], [.line [104, 105]]), ([27, 91, 65, 195, 169, 13, 27, 91], [.line [104, 105, 233]])]
    [[104, 105], [104, 105, 233]] := by
  refine .run (cs := [.plain 104, .plain 105, .plain 13]) (t := []) (evs := [.line [104, 105]]) ?_ ?_ .none
    (.call (ks := [104, 105]) (.cons (.edit (.inl rfl)) (.cons (.edit (.inl rfl)) .nil)) (.enter (.inl rfl) (by decide)) .done) ?_
    (.run (cs := [.csi 0 [] 65, .plain 233, .plain 13]) (t := [27, 91]) (evs := [.line [104, 105, 233]]) ?_ ?_ ?_
      (.call (ks := [16, 233]) (.cons .older (.cons (.edit (.inl rfl)) .nil)) (.enter (.inl rfl) (by decide)) .done) ?_ .none)
  · simp only [List.mem_cons, List.not_mem_nil, or_false, forall_eq_or_imp, forall_eq, Chunk.Ok]
    decide
  · show ∀ r ∈ [104, 105, 13], Scalar r
    unfold Scalar; decide
  · intro s hs
    rw [List.mem_singleton.1 hs]
    exact .inr ⟨by decide, by decide, by decide, by decide, by unfold Scalar; decide⟩
  · simp only [List.mem_cons, List.not_mem_nil, or_false, forall_eq_or_imp, forall_eq, Chunk.Ok, Param, false_implies, implies_true, true_and]
    decide
  · show ∀ r ∈ [27, 91, 65, 233, 13, 27, 91], Scalar r
    unfold Scalar; decide
  · exact .intro (n := 0) (x := 91) (.inl rfl) (.rune (.rune .nil))
  · intro s hs
    rw [List.mem_singleton.1 hs]
    exact .inr ⟨by decide, by decide, by decide, by decide, by unfold Scalar; decide⟩

/-- The hypotheses of `C74_runs` hold for these runs. -/
example : ∃ N, ∀ fuel, N ≤ fuel → runs { c0 with h := ⟨500, true, false, true⟩ } [62, 32] 80 fuel []
    [([104, 105, 13], 1), ([27, 91, 65, 195, 169, 13, 27, 91], 1)] =
    .ok ([[.line [104, 105]], [.line [104, 105, 233]]], [104, 105, 10, 104, 105, 195, 169, 10]) :=
  (C74_runs (c := { c0 with h := ⟨500, true, false, true⟩ }) (p := 2) ⟨rfl, by simp [Op.Observer, c0]⟩ (by decide) rfl rfl rfl (by decide) rfl
    (by decide) (by decide) C74_example (fun _ h => by cases h)).2

end RL
