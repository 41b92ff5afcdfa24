import Verif.Proofs.Vim
import Verif.Proofs.Insert
import Verif.Props.Operation
import Verif.Spec.Session
/-! # C41: vim mode switching; C62: the commands of normal mode -/

namespace RL
open Spec

/-- C41, insert mode: in vim's insert mode a call of `Readline` does what it does in emacs mode, whatever the state of line,
history, search and menu, as long as no key (and no end of input) is seen as ESC after the filter. -/
theorem C41_insert {c : OCfg} {o : Op} (hm : o.vimNormal = false) (hk : ∀ r ∈ 0 :: o.inp, Op.filtered c r ≠ some 27) (fuel : Nat) :
    o.readline c fuel = o.readline { c with vim := false } fuel := by
  show (o.refreshNil c >>= _) = (o.refreshNil c >>= _)
  refine R.bind_congr' fun o1 h1 => ?_
  obtain ⟨_, _, _, _, rfl⟩ := Op.refreshNil_inner h1
  exact Op.await_insert fuel _ hm hk

/-- "ab", Ctrl-B, "c", Enter in vim mode: "acb". -/
example : firstResult { c0 with vim := true } (o0 [97, 98, 2, 99, 13]) = .ok (.line [97, 99, 98]) ∧
    (∀ r ∈ 0 :: (o0 [97, 98, 2, 99, 13]).inp, Op.filtered { c0 with vim := true } r ≠ some 27) ∧
    (o0 [97, 98, 2, 99, 13]).vimNormal = false := by decide

/-- C41, ESC: outside the selection menu ESC does nothing but switch to normal mode. -/
theorem C41_escape {c : OCfg} (hv : c.vim = true) (hf : c.filter = none) {o : Op} (hm : o.vimNormal = false) (hs : o.comp.inSelect = false)
    (hl : o.Live) {rest : List Rune} (hi : o.inp = 27 :: rest) :
    o.iter c = .ok { o with vimNormal := true, inp := rest, gate := false, kick := if o.gate then false else o.kick } := by
  rw [Op.iter_nomenu hl hf hi (by decide) hs]
  unfold Op.viaVim Op.handleVim
  rw [if_pos hv, if_neg (by show ¬ o.vimNormal = true; simp [hm]), if_pos (show (27 : Int) = CharEsc from rfl), R.bind_ok]
  rfl

/-- C41, entering insert mode: `i I a A s S c` and nothing else in `C41_stays`. -/
theorem C41_enter {c : OCfg} (hv : c.vim = true) (hf : c.filter = none) {o o' : Op} (hm : o.vimNormal = true) (hs : o.comp.inSelect = false)
    (hl : o.Live) {r : Rune} {rest : List Rune} (hi : o.inp = r :: rest) (hr : r ∈ [105, 73, 97, 65, 115, 83, 99])
    (h : o.iter c = .ok o') : o'.vimNormal = false ∧ o'.events = o.events := by
  have hr' : r ∈ Op.insertKeys := hr
  have hn : r ≠ 0 ∧ r ≠ 13 ∧ r ≠ 3 := by
    simp only [List.mem_cons, List.not_mem_nil, or_false] at hr
    rcases hr with rfl | rfl | rfl | rfl | rfl | rfl | rfl <;> decide
  rw [Op.iter_nomenu hl hf hi hn.1 hs] at h
  unfold Op.viaVim Op.handleVim Op.vimNormalKey at h
  rw [if_pos hv, if_pos (show (o.took r rest).vimNormal = true from hm), if_neg (Op.not_stop hn.2), Op.vimMovement_insertKey hr',
    R.bind_ok] at h
  dsimp only at h
  obtain ⟨⟨t, o1⟩, h, h3⟩ := R.bind_inv h
  obtain ⟨x, h4, h⟩ := R.bind_inv h
  have key : x = some (t, o1) → t = 0 ∧ o1.vimNormal = false ∧ o1.events = o.events := by
    rintro rfl
    unfold Op.vimEnterInsert at h4
    dsimp only at h4
    have ed : ∀ {o2 : Op} {k}, o2.events = o.events →
        (do let o ← o2.edit c k; (.ok (some (0, { o with vimNormal := false })) : R (Option (Rune × Op)))) = .ok (some (t, o1)) →
        t = 0 ∧ o1.vimNormal = false ∧ o1.events = o.events := by
      intro o2 k g h
      obtain ⟨o3, a, b⟩ := R.bind_inv h
      obtain ⟨_, rfl, _⟩ := Op.edit_ok a
      cases b
      exact ⟨rfl, rfl, g⟩
    simp only [List.mem_cons, List.not_mem_nil, or_false] at hr
    rcases hr with rfl | rfl | rfl | rfl | rfl | rfl | rfl
    · cases h4; exact ⟨rfl, rfl, rfl⟩
    · exact ed (by rfl) h4
    · exact ed (by rfl) h4
    · exact ed (by rfl) h4
    · exact ed (by rfl) h4
    · exact ed (by rfl) h4
    · obtain ⟨⟨n, o2⟩, a, h4⟩ := R.bind_inv (show _ >>= _ = _ from h4)
      have g := (Op.readRune_noText a).1.events
      dsimp only at h4
      by_cases j1 : n = 99
      · rw [if_pos j1] at h4; exact ed g h4
      rw [if_neg j1] at h4
      by_cases j2 : n = 119
      · rw [if_pos j2] at h4; exact ed g h4
      rw [if_neg j2] at h4
      by_cases j3 : n = 104
      · rw [if_pos j3] at h4; exact ed g h4
      rw [if_neg j3] at h4
      by_cases j4 : n = 108
      · rw [if_pos j4] at h4; exact ed g h4
      rw [if_neg j4] at h4
      cases h4; exact ⟨rfl, rfl, g⟩
  cases x with
  | some x =>
    cases h
    obtain ⟨rfl, a, b⟩ := key rfl
    rw [if_pos rfl] at h3
    cases h3
    exact ⟨a, b⟩
  | none => exact absurd h4 (by
      intro h4
      have : ∀ {k} {o2 : Op}, (do let o ← o2.edit c k; (.ok (some (0, { o with vimNormal := false })) : R (Option (Rune × Op)))) ≠ .ok none := by
        intro k o2 h
        obtain ⟨_, _, h⟩ := R.bind_inv h
        cases h
      unfold Op.vimEnterInsert at h4
      dsimp only at h4
      simp only [List.mem_cons, List.not_mem_nil, or_false] at hr
      rcases hr with rfl | rfl | rfl | rfl | rfl | rfl | rfl
      · cases h4
      · exact this h4
      · exact this h4
      · exact this h4
      · exact this h4
      · exact this h4
      · obtain ⟨⟨n, o2⟩, a, h4⟩ := R.bind_inv (show _ >>= _ = _ from h4)
        dsimp only at h4
        by_cases j1 : n = 99
        · rw [if_pos j1] at h4; exact this h4
        rw [if_neg j1] at h4
        by_cases j2 : n = 119
        · rw [if_pos j2] at h4; exact this h4
        rw [if_neg j2] at h4
        by_cases j3 : n = 104
        · rw [if_pos j3] at h4; exact this h4
        rw [if_neg j3] at h4
        by_cases j4 : n = 108
        · rw [if_pos j4] at h4; exact this h4
        rw [if_neg j4] at h4
        cases h4)

/-- C41, normal mode: every key but those that enter insert mode, end the line (13, 3, 0) or bring in text from elsewhere
(`p`, `r`, `j`, `k`) stays in normal mode, produces no result and leaves a line whose characters are among the old ones, in the
old order. -/
theorem C41_stays {c : OCfg} (hv : c.vim = true) (hf : c.filter = none) (ho : Op.Observer c) {o o' : Op} (hm : o.vimNormal = true)
    (hs : o.comp.inSelect = false) (hl : o.Live) (hcur : o.rb.idx ≤ o.rb.buf.length) {r : Rune} {rest : List Rune} (hi : o.inp = r :: rest)
    (h1 : r ∉ [105, 73, 97, 65, 115, 83, 99]) (h2 : r ∉ [0, 3, 13, 106, 107, 112, 114]) (h : o.iter c = .ok o') :
    o'.rb.buf.Sublist o.rb.buf ∧ o'.vimNormal = true ∧ o'.events = o.events := by
  have := Op.iter_noText hv hm hl hf ho hs hcur hi h1 h2 h
  exact ⟨this.sub, this.mode.trans hm, this.events⟩

/-- "ab" typed, ESC, `x` `z` `h` `q`, then `A`, "c": "ac" (`x` at the end deletes nothing and steps back; `z`, `q` do nothing). -/
example : firstResult { c0 with vim := true } (o0 [97, 98, 27, 120, 120, 122, 104, 113, 65, 99, 13]) = .ok (.line [97, 99]) := by decide

/-- C62: a command of normal mode does to the line what `VimCmd` says, and nothing else. -/
theorem C62_command {c : OCfg} (hp : Op.Plain c) (hv : c.vim = true) {o : Op} (h : Op.Quiet c o) (hm : o.vimNormal = true) (hl : o.Live)
    {ks rest : List Rune} {z : Line} {ins : Bool} (hc : VimCmd ks o.rb.toEd.line z ins) (hk : ∀ k ∈ ks, k ∉ [3, 4, 10, 13])
    (hi : o.inp = ks ++ rest) :
    ∃ o', o.iter c = .ok o' ∧ Op.Quiet c o' ∧ o'.rb.toEd.line = z ∧ o'.vimNormal = !ins ∧ o'.inp = rest ∧ o'.events = o.events ∧
      o'.stopped = o.stopped ∧ o'.Live := by
  suffices hk : ∀ k ∈ ks, stopKey k = false by
    obtain ⟨o', e1, e2, e3, e4, e5, e6, e7, e8, _⟩ := Op.iter_vim hp h hv hm hl hc hk hi
    exact ⟨o', e1, e2, e3, e4, e5, e6, e7, e8⟩
  intro k a
  have := hk k a
  simp only [List.mem_cons, List.not_mem_nil, or_false, not_or] at this
  simp [stopKey, CharInterrupt, CharEnter, CharCtrlJ, CharDelete, this]

/-- Several commands in a row, all but the last staying in normal mode. -/
inductive VimKeys : List Rune → Line → Line → Prop
  | nil (z) : VimKeys [] z z
  | cons {ks rest z z' z''} : VimCmd ks z z' false → VimKeys rest z' z'' → VimKeys (ks ++ rest) z z''

/-- Number of iterations for a sequence of commands. -/
theorem C62_commands {c : OCfg} (hp : Op.Plain c) (hv : c.vim = true) {ks : List Rune} {z z' : Line} (hc : VimKeys ks z z') :
    ∀ {o : Op}, Op.Quiet c o → o.vimNormal = true → o.Live → o.stopped = false → (∀ k ∈ ks, k ∉ [3, 4, 10, 13]) → o.rb.toEd.line = z →
      ∀ {rest}, o.inp = ks ++ rest → ∃ n o', Op.iters c n o = .ok o' ∧ Op.Quiet c o' ∧ o'.rb.toEd.line = z' ∧ o'.vimNormal = true ∧
        o'.inp = rest ∧ o'.events = o.events ∧ o'.stopped = false ∧ o'.Live := by
  induction hc with
  | nil z => exact fun h hm hl hs _ hz rest hi => ⟨0, _, rfl, h, hz, hm, hi, rfl, hs, hl⟩
  | cons h1 _ ih =>
    intro o h hm hl hs hk hz rest hi
    subst hz
    rw [List.append_assoc] at hi
    obtain ⟨o1, e1, e2, e3, e4, e5, e6, e7, e8⟩ := C62_command hp hv h hm hl h1 (fun k a => hk k (List.mem_append_left _ a)) hi
    obtain ⟨n, o2, g1, g2, g3, g4, g5, g6, g7, g8⟩ := ih e2 e4 e8 (e7.trans hs) (fun k a => hk k (List.mem_append_right _ a)) e3 e5
    refine ⟨n + 1, o2, ?_, g2, g3, g4, g5, g6.trans e6, g7, g8⟩
    unfold Op.iters
    rw [if_neg (by simp [hs]), e1, R.bind_ok, g1]

/-- "ab cd", ESC, `0` `d` `w` `p` `f` `d` `x` `i` "e", Enter. -/
example : firstResult { c0 with vim := true } (o0 ([97, 98, 32, 99, 100, 27] ++ [48, 100, 119, 112, 102, 100, 120, 105, 101, 13])) =
    .ok (.line [97, 98, 32, 101, 99]) := by decide

/-- The hypotheses hold in a new session that has been switched to normal mode; `d` `w` there is a command. -/
example : ∃ o, Op.Quiet { c0 with vim := true } o ∧ Op.Plain { c0 with vim := true } ∧ o.vimNormal = true ∧ o.Live ∧ o.stopped = false ∧
    o.inp = [100, 119] ++ [105] ∧ VimCmd [100, 119] o.rb.toEd.line o.rb.toEd.line false := by
  refine ⟨{ Op.init [] true 80 (Hist.fresh []) [100, 119, 105] with vimNormal := true, gate := false },
    ((init_Ready (c := { c0 with vim := true }) (prompt := []) (w := 80) (keys := [100, 119, 105]) (p := 0) (by decide) rfl (by decide) (by decide) (Hist.fresh_WF [])).quiet.io [100, 119, 105] false false).vim true,
    ⟨rfl, by intro f hf; cases hf⟩, rfl, .inl rfl, rfl, rfl, .dw (.inl ⟨rfl, rfl⟩)⟩

/-- `w` from "ab" to "cd", `e` from there to the end of "cd", `F` `b` back. -/
example : ∃ z1 z2 z3, VimCmd [119] ⟨[], [97, 98, 32, 99, 100, 32], []⟩ z1 false ∧ z1.left = [97, 98, 32] ∧ VimCmd [101] z1 z2 false ∧
    z2.right = [100, 32] ∧ VimCmd [70, 98] z2 z3 false ∧ z3.left = [97] := by
  refine ⟨⟨[97, 98, 32], [99, 100, 32], []⟩, ⟨[97, 98, 32, 99], [100, 32], []⟩, ⟨[97], [98, 32, 99, 100, 32], []⟩,
    .w (m := 3) (.inl rfl) (.inl ⟨by decide, ⟨32, 99, by decide, rfl, rfl, by unfold WordChar; decide, by unfold WordChar; decide⟩, ?_⟩) ⟨rfl, rfl, rfl⟩, rfl,
    .e (m := 4) (.inl rfl) (by intro x hx; cases hx) (.inl ⟨by decide, ⟨100, 32, rfl, rfl, by unfold WordChar; decide, by unfold WordChar; decide⟩, ?_⟩) ⟨rfl, rfl, rfl⟩, rfl,
    .f (m := 1) (.inr rfl) (by decide) ?_ ⟨rfl, rfl, rfl⟩, rfl⟩
  · rintro j h1 h2 ⟨a, b, _, g1, g2, g3, g4⟩
    obtain rfl | rfl : j = 1 ∨ j = 2 := by simp at h1; omega
    · cases g1; exact g3 (by unfold WordChar; decide)
    · cases g2; exact absurd g4 (by unfold WordChar; decide)
  · intro j h1 h2
    simp at h1; omega
  · unfold FindPos
    rw [if_neg (by decide)]
    refine ⟨by decide, rfl, fun j h1 h2 h3 => ?_⟩
    simp at h2
    obtain rfl | rfl : j = 2 ∨ j = 3 := by omega
    · cases h3
    · cases h3

end RL
