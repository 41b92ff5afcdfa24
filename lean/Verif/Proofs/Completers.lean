import Verif.Spec.Completers
import Verif.Proofs.Runes
import Verif.Proofs.HistFile
/-! The completers. -/

namespace RL
open Spec PTree

/-! ### Lines and words -/

theorem trim_spaces {a b : List Rune} (h : ∀ x ∈ a, isSpace x = true) : trimSpaceLeft (a ++ b) = trimSpaceLeft b := by
  induction a with
  | nil => rfl
  | cons x a ih =>
    rw [List.cons_append, trimSpaceLeft, if_neg (by rw [h x List.mem_cons_self]; decide),
      ih fun y hy => h y (List.mem_cons_of_mem _ hy)]

theorem Phrase.skip {s l : List Rune} {ws : List (List Rune)} (h : Phrase s ws l) : Phrase (skipBlanks s) ws l := by
  have hs : ∀ (a b : List Rune), (∀ x ∈ a, isSpace x = true) → (∀ x, b.head? = some x → isSpace x = false) →
      ∃ a', (∀ x ∈ a', isSpace x = true) ∧ skipBlanks (a ++ b) = a' ++ b := by
    intro a
    induction a with
    | nil =>
      intro b _ hb
      refine ⟨[], by simp, ?_⟩
      cases b with
      | nil => rfl
      | cons x b =>
        rw [List.nil_append, skipBlanks, if_neg]
        rintro rfl
        exact absurd (hb _ rfl) (by decide)
    | cons x a ih =>
      intro b ha hb
      rw [List.cons_append, skipBlanks]
      by_cases h : x = 32
      · rw [if_pos h]; exact ih b (fun y hy => ha y (List.mem_cons_of_mem _ hy)) hb
      · rw [if_neg h]; exact ⟨x :: a, ha, rfl⟩
  cases h with
  | @last a l ha hl hh =>
    obtain ⟨a', h1, h2⟩ := hs a l ha hh
    rw [h2]
    exact .last h1 hl hh
  | @word a w rest l ws ha hw h32 hh hr =>
    rw [List.append_assoc]
    obtain ⟨a', h1, h2⟩ := hs a (w ++ 32 :: rest) ha (by
      intro x hx
      cases w with
      | nil => exact absurd rfl hw
      | cons y w => exact hh x hx)
    rw [h2, ← List.append_assoc]
    exact .word h1 hw h32 hh hr

/-- Every line can be cut into words. -/
theorem phrase_total (s : List Rune) : ∃ ws l, Phrase s ws l := by
  generalize hm : s.length = m
  induction m using Nat.strongRecOn generalizing s with
  | _ m ih =>
    subst hm
    obtain ⟨a, h1, h2, h3⟩ := Hist.trimLeft_spec s
    have hcut : ∀ t : List Rune, (32 : Rune) ∉ t ∨ ∃ w r, t = w ++ 32 :: r ∧ (32 : Rune) ∉ w := by
      intro t
      induction t with
      | nil => left; simp
      | cons x t ih =>
        by_cases hx : x = 32
        · exact .inr ⟨[], t, by simp [hx], by simp⟩
        · rcases ih with h | ⟨w, r, e, hw⟩
          · left; simp [h, Ne.symm hx]
          · exact .inr ⟨x :: w, r, by simp [e], by simp [hw, Ne.symm hx]⟩
    rcases hcut (trimSpaceLeft s) with h | ⟨w, r, e, hw⟩
    · rw [h1]; exact ⟨[], _, .last h2 h h3⟩
    · have hl : r.length < s.length := by rw [h1, e]; simp; omega
      obtain ⟨ws, l, hp⟩ := ih r.length hl r rfl
      refine ⟨w :: ws, l, ?_⟩
      rw [h1, e, ← List.append_assoc]
      have hne : w ≠ [] := by
        rintro rfl
        have := h3 32 (by rw [e]; rfl)
        exact absurd this (by decide)
      refine .word h2 hne hw ?_ hp
      intro x hx
      refine h3 x ?_
      rw [e]
      cases w with
      | nil => exact absurd rfl hne
      | cons y w => exact hx

/-! ### One level of the tree -/

/-- The pairs the two loops go through. -/
def pairs (orig : List Rune) (cs : List PTree) : List (PTree × List Rune) :=
  cs.flatMap fun c => (c.childNames orig).map fun n => (c, n)

theorem scanNames_foldl (line : List Rune) (c : PTree) : ∀ (ns : List (List Rune)) (a : Scan),
    scanNames line c ns a = (ns.map fun n => (c, n)).foldl (fun a p => scanName line p.1 p.2 a) a
  | [], _ => rfl
  | n :: ns, a => by rw [scanNames, scanNames_foldl line c ns]; rfl

theorem scanChildren_foldl (line orig : List Rune) : ∀ (cs : List PTree) (a : Scan),
    scanChildren line orig cs a = (pairs orig cs).foldl (fun a p => scanName line p.1 p.2 a) a
  | [], _ => rfl
  | c :: cs, a => by
    rw [scanChildren, scanChildren_foldl line orig cs, scanNames_foldl, pairs, pairs, List.flatMap_cons, List.foldl_append]

/-- The pairs of a built tree. -/
def cpairs (orig : List Rune) (cs : List Command) : List (Command × List Rune) :=
  cs.flatMap fun c => (c.names orig).map fun n => (c, n)

theorem childNames_build (orig : List Rune) (c : Command) : c.build.childNames orig = (c.names orig).map (· ++ [32]) := by
  cases c with
  | word n cs => rw [Command.build]; rfl
  | dynamic f cs => rw [Command.build]; rfl

theorem children_build (c : Command) : c.build.children = Command.buildL c.children := by
  cases c with
  | word n cs => rw [Command.build]; rfl
  | dynamic f cs => rw [Command.build]; rfl

theorem pairs_build (orig : List Rune) : ∀ cs : List Command,
    pairs orig (Command.buildL cs) = (cpairs orig cs).map fun p => (p.1.build, p.2 ++ [32])
  | [] => by rw [Command.buildL]; rfl
  | c :: cs => by
    have ih := pairs_build orig cs
    rw [Command.buildL]
    unfold pairs cpairs at *
    rw [List.flatMap_cons, List.flatMap_cons, List.map_append, ih, childNames_build]
    simp

theorem cpairs_names (orig : List Rune) (c : Command) : (cpairs orig c.children).map (·.2) = c.next orig := by
  unfold cpairs Command.next
  rw [List.map_flatMap]
  simp [Function.comp_def]

theorem mem_cpairs {orig : List Rune} {cs : List Command} {p : Command × List Rune} :
    p ∈ cpairs orig cs ↔ p.1 ∈ cs ∧ p.2 ∈ p.1.names orig := by
  unfold cpairs
  simp only [List.mem_flatMap, List.mem_map]
  constructor
  · rintro ⟨c, hc, n, hn, rfl⟩; exact ⟨hc, hn⟩
  · rintro ⟨h1, h2⟩; exact ⟨p.1, h1, p.2, h2, rfl⟩

/-- An unfinished word. -/
theorem scanName_last {line n : List Rune} (hl : (32 : Rune) ∉ line) (c : PTree) (a : Scan) :
    scanName line c (n ++ [32]) a = if line.isPrefixOf n then
      { a with newLine := a.newLine ++ [n.drop line.length ++ [32]], offset := line.length, lineCompleter := some c } else a := by
  unfold scanName
  by_cases h : line.length ≥ (n ++ [32]).length
  · rw [if_pos h, if_neg, if_neg]
    · intro hp
      have := (List.isPrefixOf_iff_prefix.mp hp).length_le
      simp at h; omega
    · intro hp
      have := (hasPrefix_iff _ _).mp hp
      exact hl (this.subset (by simp))
  · rw [if_neg h]
    simp only [List.length_append, List.length_cons, List.length_nil] at h
    have hle : line.length ≤ n.length := by omega
    have hiff : hasPrefix (n ++ [32]) line = true ↔ line.isPrefixOf n = true := by
      rw [hasPrefix_iff, List.isPrefixOf_iff_prefix]
      constructor
      · intro h
        exact List.prefix_of_prefix_length_le h (List.prefix_append _ _) hle
      · intro h
        exact h.trans (List.prefix_append _ _)
    by_cases hp : line.isPrefixOf n = true
    · rw [if_pos hp, if_pos (hiff.mpr hp), List.drop_append_of_le_length hle]
    · rw [if_neg hp, if_neg (fun h => hp (hiff.mp h))]

/-- A finished word. -/
theorem scanName_word {w n rest : List Rune} (hw : (32 : Rune) ∉ w) (hn : (32 : Rune) ∉ n) (c : PTree) (a : Scan) :
    ∃ x, scanName (w ++ 32 :: rest) c (n ++ [32]) a = if n = w then
      { newLine := a.newLine ++ [x], offset := w.length + 1, goNext := true, lineCompleter := some c } else a := by
  have heq : ∀ {u v r s : List Rune}, (32 : Rune) ∉ u → (32 : Rune) ∉ v → u ++ 32 :: r = v ++ 32 :: s → u = v := by
    intro u
    induction u with
    | nil =>
      intro v r s _ hv e
      cases v with
      | nil => rfl
      | cons y v => simp at e; exact absurd e.1 (fun h => hv (by simp [h]))
    | cons x u ih =>
      intro v r s hu hv e
      cases v with
      | nil => simp at e; exact absurd e.1 (fun h => hu (by simp [h]))
      | cons y v =>
        simp only [List.cons_append, List.cons.injEq] at e
        rw [e.1, ih (fun h => hu (List.mem_cons_of_mem _ h)) (fun h => hv (List.mem_cons_of_mem _ h)) e.2]
  unfold scanName
  refine ⟨if (w ++ 32 :: rest).length = (n ++ [32]).length then [32] else n ++ [32], ?_⟩
  by_cases h : (w ++ 32 :: rest).length ≥ (n ++ [32]).length
  · rw [if_pos h]
    by_cases hp : n = w
    · subst hp
      rw [if_pos rfl, if_pos ((hasPrefix_iff _ _).mpr ⟨rest, by simp⟩)]
      simp
    · rw [if_neg hp, if_neg]
      intro hq
      obtain ⟨t, ht⟩ := (hasPrefix_iff _ _).mp hq
      rw [List.append_assoc] at ht
      exact hp (heq hn hw ht)
  · rw [if_neg h]
    have hne : ¬ n = w := by rintro rfl; simp at h
    rw [if_neg hne, if_neg]
    intro hq
    obtain ⟨t, ht⟩ := (hasPrefix_iff _ _).mp hq
    rw [List.append_assoc, List.cons_append] at ht
    exact hne (heq hn hw ht.symm)

theorem fold_last {line : List Rune} (hl : (32 : Rune) ∉ line) (ps : List (Command × List Rune)) (a : Scan)
    (hg : a.goNext = false) (hc : a.newLine ≠ [] → a.lineCompleter.isSome = true ∧ a.offset = line.length)
    (hz : a.newLine = [] → a.offset = 0) :
    let b := ps.foldl (fun a p => scanName line p.1.build (p.2 ++ [32]) a) a
    b.newLine = a.newLine ++ extensions line (ps.map (·.2)) ∧ b.goNext = false ∧
      (b.newLine ≠ [] → b.lineCompleter.isSome = true ∧ b.offset = line.length) ∧ (b.newLine = [] → b.offset = 0) := by
  induction ps generalizing a with
  | nil => exact ⟨by simp [extensions], hg, hc, hz⟩
  | cons p ps ih =>
    simp only [List.foldl_cons]
    rw [scanName_last hl]
    by_cases hp : line.isPrefixOf p.2 = true
    · rw [if_pos hp]
      have := ih { a with newLine := a.newLine ++ [p.2.drop line.length ++ [32]], offset := line.length, lineCompleter := some p.1.build }
        hg (fun _ => ⟨rfl, rfl⟩) (fun h => by simp at h)
      simp only at this
      refine ⟨?_, this.2⟩
      rw [this.1]
      simp [extensions, List.filter_cons, hp]
    · rw [if_neg hp]
      have := ih a hg hc hz
      refine ⟨?_, this.2⟩
      rw [this.1]
      simp [extensions, List.filter_cons, hp]

theorem fold_skip {w rest : List Rune} (hw : (32 : Rune) ∉ w) (ps : List (Command × List Rune))
    (hn : ∀ p ∈ ps, (32 : Rune) ∉ p.2) (hx : ∀ p ∈ ps, p.2 ≠ w) (a : Scan) :
    ps.foldl (fun a p => scanName (w ++ 32 :: rest) p.1.build (p.2 ++ [32]) a) a = a := by
  induction ps with
  | nil => rfl
  | cons p ps ih =>
    obtain ⟨x, e⟩ := scanName_word (rest := rest) hw (hn p List.mem_cons_self) p.1.build a
    rw [List.foldl_cons, e, if_neg (hx p List.mem_cons_self)]
    exact ih (fun q hq => hn q (List.mem_cons_of_mem _ hq)) (fun q hq => hx q (List.mem_cons_of_mem _ hq))

theorem fold_word {w rest : List Rune} (hw : (32 : Rune) ∉ w) (ps : List (Command × List Rune))
    (hn : ∀ p ∈ ps, (32 : Rune) ∉ p.2) (hd : (ps.map (·.2)).Nodup) {d : Command} (hx : (d, w) ∈ ps) :
    ∃ x, ps.foldl (fun a p => scanName (w ++ 32 :: rest) p.1.build (p.2 ++ [32]) a) ⟨[], 0, false, none⟩ =
      ⟨[x], w.length + 1, true, some d.build⟩ := by
  induction ps with
  | nil => cases hx
  | cons p ps ih =>
    rw [List.map_cons, List.nodup_cons] at hd
    obtain ⟨x, e⟩ := scanName_word (rest := rest) hw (hn p List.mem_cons_self) p.1.build ⟨[], 0, false, none⟩
    rw [List.foldl_cons, e]
    have hn' : ∀ q ∈ ps, (32 : Rune) ∉ q.2 := fun q hq => hn q (List.mem_cons_of_mem _ hq)
    rcases List.mem_cons.mp hx with rfl | hx
    · rw [if_pos rfl, fold_skip hw ps hn']
      · exact ⟨x, rfl⟩
      · intro q hq h
        exact hd.1 (List.mem_map.mpr ⟨q, hq, h⟩)
    · rw [if_neg]
      · exact ih hn' hd.2 hx
      · intro h
        exact hd.1 (List.mem_map.mpr ⟨_, hx, h.symm⟩)

/-! ### The whole tree -/

theorem depth_child {c : PTree} {cs : List PTree} (h : c ∈ cs) : c.depth ≤ depthL cs := by
  induction cs with
  | nil => cases h
  | cons x cs ih =>
    rw [depthL]
    rcases List.mem_cons.mp h with rfl | h
    · omega
    · have := ih h; omega

theorem mem_buildL {c : Command} {cs : List Command} (h : c ∈ cs) : c.build ∈ Command.buildL cs := by
  induction cs with
  | nil => cases h
  | cons x cs ih =>
    rw [Command.buildL]
    rcases List.mem_cons.mp h with rfl | h
    · exact List.mem_cons_self
    · exact List.mem_cons_of_mem _ (ih h)

theorem depth_build {c d : Command} (h : d ∈ c.children) : d.build.depth < c.build.depth := by
  have : c.build.depth = depthL c.build.children + 1 := by
    cases hc : c.build with
    | node n f cs => rw [depth]; rfl
  rw [this, children_build]
  have := depth_child (mem_buildL h)
  omega

theorem Tidy.child {orig : List Rune} {c d : Command} (ht : c.Tidy orig) (h : d ∈ c.children) : d.Tidy orig :=
  fun _ he => ht _ (.step h he)

/-- What the completer answers for a phrase. -/
theorem doInternal_phrase {orig : List Rune} {s : List Rune} {ws : List (List Rune)} {l : List Rune} (hp : Phrase s ws l) :
    ∀ {c : Command}, c.Tidy orig → ∀ n, c.build.depth ≤ n →
    (∀ d, Command.Walk orig c ws d → doInternal n c.build s s.length orig =
      .ok (extensions l (d.next orig), if extensions l (d.next orig) = [] then 0 else l.length)) ∧
    ((¬ ∃ d, Command.Walk orig c ws d) → doInternal n c.build s s.length orig = .ok ([], 0)) := by
  generalize hm : ws.length = m
  induction m generalizing s ws with
  | zero =>
    cases hp with
    | word => cases hm
    | @last a l ha hl hh =>
      intro c ht n hn
      cases n with
      | zero => cases hc : c.build with | node => rw [hc, depth] at hn; omega
      | succ n =>
        refine ⟨fun d hw => ?_, fun h => absurd ⟨c, .here⟩ h⟩
        cases hw
        rw [doInternal, sliceTo_ok (Nat.le_refl _), List.take_length, R.bind_ok]
        dsimp only
        rw [trim_spaces ha, Hist.trimLeft_head hh, scanChildren_foldl, children_build, pairs_build, List.foldl_map]
        obtain ⟨h1, h2, h3, h4⟩ := fold_last hl (cpairs orig c.children) ⟨[], 0, false, none⟩ rfl (by simp) (by simp)
        revert h1 h2 h3 h4
        generalize (cpairs orig c.children).foldl (fun a p => scanName l p.1.build (p.2 ++ [32]) a) ⟨[], 0, false, none⟩ = b
        intro h1 h2 h3 h4
        rw [cpairs_names, List.nil_append] at h1
        have hoff : b.offset = if extensions l (c.next orig) = [] then 0 else l.length := by
          by_cases he : extensions l (c.next orig) = []
          · rw [if_pos he]; exact h4 (h1.trans he)
          · rw [if_neg he]; exact (h3 (by rw [h1]; exact he)).2
        by_cases h5 : b.newLine.length ≠ 1
        · rw [if_pos h5, h1, hoff]
        · rw [if_neg h5]
          have hne : b.newLine ≠ [] := by
            intro h; apply h5; rw [h]; simp
          obtain ⟨h6, h7⟩ := h3 hne
          cases hlc : b.lineCompleter with
          | none => rw [hlc] at h6; cases h6
          | some d =>
            dsimp only
            rw [h7, List.drop_length]
            rw [if_neg (show ¬ skipBlanks [] ≠ [] from fun h => h rfl), h2, if_neg (by decide), h1, ← hoff, h7]
  | succ m ih =>
    cases hp with
    | last => cases hm
    | @word a w rest l ws ha hw h32 hh hr =>
      intro c ht n hn
      cases n with
      | zero => cases hc : c.build with | node => rw [hc, depth] at hn; omega
      | succ n =>
        have htr : trimSpaceLeft (a ++ w ++ 32 :: rest) = w ++ 32 :: rest := by
          rw [List.append_assoc, trim_spaces ha, Hist.trimLeft_head]
          intro x hx
          cases w with
          | nil => exact absurd rfl hw
          | cons y w => exact hh x hx
        have hnb : ∀ p ∈ cpairs orig c.children, (32 : Rune) ∉ p.2 := by
          intro p hp
          refine (ht c .here).2 p.2 ?_
          rw [← cpairs_names]
          exact List.mem_map.mpr ⟨p, hp, rfl⟩
        have hnd : ((cpairs orig c.children).map (·.2)).Nodup := by
          rw [cpairs_names]; exact (ht c .here).1
        rw [doInternal, sliceTo_ok (Nat.le_refl _), List.take_length, R.bind_ok]
        dsimp only
        rw [htr, scanChildren_foldl, children_build, pairs_build, List.foldl_map]
        by_cases hex : ∃ d, (d, w) ∈ cpairs orig c.children
        · obtain ⟨d, hd⟩ := hex
          obtain ⟨hd1, hd2⟩ := mem_cpairs.mp hd
          obtain ⟨x, e⟩ := fold_word (rest := rest) h32 _ hnb hnd hd
          rw [e]
          dsimp only
          rw [if_neg (show ¬ [x].length ≠ 1 from fun h => h rfl)]
          have hdrop : (w ++ 32 :: rest).drop (w.length + 1) = rest := by simp [List.drop_append]
          rw [hdrop]
          have hcall : (if skipBlanks rest ≠ [] then doInternal n d.build (skipBlanks rest) (skipBlanks rest).length orig
              else if true = true then doInternal n d.build [] 0 orig else .ok ([x], w.length + 1)) =
              doInternal n d.build (skipBlanks rest) (skipBlanks rest).length orig := by
            by_cases hs : skipBlanks rest = []
            · rw [if_neg (fun h => h hs), if_pos rfl, hs]; rfl
            · rw [if_pos hs]
          rw [hcall]
          have hdep := depth_build hd1
          obtain ⟨i1, i2⟩ := ih (Phrase.skip hr) (by simpa using hm) (Tidy.child ht hd1) n (by omega)
          refine ⟨fun e hwalk => ?_, fun hno => i2 ?_⟩
          · cases hwalk with
            | @step _ d' _ _ _ h1 h2 h3 =>
              have hd' : d' = d := by
                have huniq : ∀ (ps : List (Command × List Rune)), (ps.map (·.2)).Nodup → ∀ x y : Command, (x, w) ∈ ps →
                    (y, w) ∈ ps → x = y := by
                  intro ps
                  induction ps with
                  | nil => intro _ x y h; cases h
                  | cons p ps ih =>
                    intro hnd x y hx hy
                    rw [List.map_cons, List.nodup_cons] at hnd
                    rcases List.mem_cons.mp hx with hx | hx <;> rcases List.mem_cons.mp hy with hy | hy
                    · rw [← hy] at hx; exact (Prod.mk.inj hx).1
                    · exact absurd (List.mem_map.mpr ⟨_, hy, by rw [← hx]⟩) hnd.1
                    · exact absurd (List.mem_map.mpr ⟨_, hx, by rw [← hy]⟩) hnd.1
                    · exact ih hnd.2 x y hx hy
                exact huniq _ hnd d' d (mem_cpairs.mpr ⟨h1, h2⟩) hd
              subst hd'
              exact i1 _ h3
          · rintro ⟨e, he⟩
            exact hno ⟨e, .step hd1 hd2 he⟩
        · have e : (cpairs orig c.children).foldl (fun a p => scanName (w ++ 32 :: rest) p.1.build (p.2 ++ [32]) a)
              ⟨[], 0, false, none⟩ = ⟨[], 0, false, none⟩ := by
            refine fold_skip h32 _ hnb ?_ _
            intro p hp h
            exact hex ⟨p.1, by rw [← h]; exact hp⟩
          rw [e]
          refine ⟨fun e hwalk => ?_, fun _ => rfl⟩
          cases hwalk with
          | step h1 h2 h3 => exact absurd ⟨_, mem_cpairs.mpr ⟨h1, h2⟩⟩ hex

/-! ### Segments -/

theorem splitLoop_spec (line : List Rune) : ∀ (rest : List Rune) (idx from_ : Nat) (segs : List (List Rune)),
    from_ ≤ idx → line.drop idx = rest → idx ≤ line.length → (32 : Rune) ∉ (line.take idx).drop from_ →
    (segs.flatMap (· ++ [32])) = line.take from_ → (∀ x ∈ segs, (32 : Rune) ∉ x) →
    ∃ f p ss, splitLoop line idx from_ (idx - from_) segs rest = .ok (f, p, ss) ∧ f ≤ line.length ∧ p = line.length - f ∧
      (32 : Rune) ∉ line.drop f ∧ ss.flatMap (· ++ [32]) = line.take f ∧ ∀ x ∈ ss, (32 : Rune) ∉ x := by
  intro rest
  induction rest with
  | nil =>
    intro idx f segs h1 h2 h3 h4 h5 h6
    have hi : idx = line.length := by
      have := congrArg List.length h2; simp at this; omega
    subst hi
    rw [List.take_length] at h4
    exact ⟨f, line.length - f, segs, rfl, h1, rfl, h4, h5, h6⟩
  | cons x rest ih =>
    intro idx f segs h1 h2 h3 h4 h5 h6
    have hlt : idx < line.length := by
      have := congrArg List.length h2; simp at this; omega
    have hx : line[idx] = x := by
      rw [List.drop_eq_getElem_cons hlt] at h2; exact (List.cons.inj h2).1
    have hrest : line.drop (idx + 1) = rest := by
      rw [List.drop_eq_getElem_cons hlt] at h2; exact (List.cons.inj h2).2
    have htake : line.take (idx + 1) = line.take idx ++ [x] := by
      rw [List.take_succ_eq_append_getElem hlt, hx]
    rw [splitLoop]
    by_cases h32 : x = 32
    · rw [if_pos h32, show slice line f idx = .ok ((line.take idx).drop f) by rw [slice, if_pos ⟨h1, h3⟩], R.bind_ok]
      have := ih (idx + 1) (idx + 1) (segs ++ [(line.take idx).drop f]) (Nat.le_refl _) hrest hlt (by simp)
        (by
          rw [List.flatMap_append, h5, htake, h32]
          simp only [List.flatMap_cons, List.flatMap_nil, List.append_nil]
          rw [← List.append_assoc]
          congr 1
          rw [show line.take f = (line.take idx).take f by rw [List.take_take, Nat.min_eq_left h1], List.take_append_drop])
        (by
          intro y hy
          rcases List.mem_append.mp hy with hy | hy
          · exact h6 y hy
          · rw [List.mem_singleton.mp hy]; exact h4)
      rw [Nat.sub_self] at this
      exact this
    · rw [if_neg h32]
      have := ih (idx + 1) f segs (by omega) hrest hlt (by
          rw [htake, List.drop_append_of_le_length (by simp; omega)]
          simp only [List.mem_append, List.mem_singleton, not_or]
          exact ⟨h4, fun h => h32 h.symm⟩) h5 h6
      rw [show idx + 1 - f = idx - f + 1 by omega] at this
      exact this

end RL
