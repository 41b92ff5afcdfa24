import Verif.Proofs.Edit
import Verif.Spec.Concrete
/-! # C07-C14, C16: the edit line -/

namespace RL
open Spec RB Ed

/-! ## C07: the cursor never leaves the line

Full statement (false of the code, see `C07_false`):
`∀ cs r', runCmds U d cs (RB.new prompt interactive width) = .ok r' → r'.idx ≤ r'.buf.length`. -/

/-- C07 is violated: Ctrl-T on a line of one rune with the cursor behind it moves the cursor out of the line, and
typing the next character panics. -/
theorem C07_false :
    (∃ r', runCmds U0 d0 [.insert [97], .transpose] (RB.new [] false 80) = .ok r' ∧ r'.buf.length < r'.idx) ∧
    runCmds U0 d0 [.insert [97], .transpose, .insert [98]] (RB.new [] false 80) = .error .panic := by
  constructor
  · exact ⟨_, rfl, by decide⟩
  · rfl

/-- Along the run of `cs` no Transpose is executed with the cursor at the end of a one-rune line. -/
def AvoidsTransposeBug (U : UTables) (d : DCfg) (cs : List Cmd) (r : RB) : Prop :=
  ∀ pre post r1, cs = pre ++ .transpose :: post → runCmds U d pre r = .ok r1 → ¬ (r1.buf.length = 1 ∧ r1.idx = 1)

/-- C07, partial: the cursor stays in the line for every command sequence that does not run Transpose with the cursor at
the end of a one-rune line.  Missing: exactly that case, in which it is false. -/
theorem C07_cursor_partial (U : UTables) (d : DCfg) (prompt : List Rune) (inter : Bool) (width : Int)
    (cs : List Cmd) (r' : RB)
    (hav : AvoidsTransposeBug U d cs (RB.new prompt inter width))
    (hrun : runCmds U d cs (RB.new prompt inter width) = .ok r') : r'.idx ≤ r'.buf.length := by
  have main : ∀ (cs : List Cmd) (r : RB), r.toEd.Good → AvoidsTransposeBug U d cs r →
      runCmds U d cs r = .ok r' → r'.toEd.Good := by
    intro cs
    induction cs with
    | nil => intro r hg _ h; cases h; exact hg
    | cons c cs ih =>
      intro r hg hav h
      unfold runCmds at h
      cases hc : c.apply U d r with
      | error e => simp [hc] at h
      | ok r1 =>
        simp only [hc, R.bind_ok] at h
        obtain ⟨h1, _⟩ := apply_ok hc
        have hg1 : r1.toEd.Good := by
          by_cases ht : r.toEd.Trigger c
          · cases c <;> simp only [Ed.Trigger] at ht
            case transpose => exact (hav [] cs r rfl rfl ht).elim
            case replace c =>
              rw [(core_replace c r.toEd).2 (by omega)] at h1
              cases h1
            case endWord =>
              rw [(core_endWord hg.1).1 ht] at h1
              cases h1
          · obtain ⟨e', h2, h3⟩ := core_good hg ht
            rw [h1] at h2
            cases h2
            exact h3
        refine ih r1 hg1 ?_ h
        intro pre post r2 hcs hpre
        exact hav (c :: pre) post r2 (by simp [hcs]) (by simp [runCmds, hc, hpre])
  exact (main cs _ ⟨by simp [Ed.CursorIn, RB.new], by simp [RB.new]⟩ hav hrun).1

-- the hypotheses are met by a run with a Transpose in it
example : AvoidsTransposeBug U0 d0 [.insert [97, 98], .transpose] (RB.new [] false 80) ∧
    ∃ r', runCmds U0 d0 [.insert [97, 98], .transpose] (RB.new [] false 80) = .ok r' ∧ r'.buf = [98, 97] := by
  constructor
  · intro pre post r1 h1 h2
    match pre, h1 with
    | [], h1 => simp at h1
    | [c], h1 =>
      simp only [List.cons_append, List.nil_append, List.cons.injEq] at h1
      obtain ⟨rfl, -, -⟩ := h1
      cases h2; decide
    | _ :: _ :: pre, h1 => have := congrArg List.length h1; simp at this
  · exact ⟨_, rfl, rfl⟩

/-- C07, partial: from a state with the cursor in the line every command is defined and leaves the cursor in the line,
except in the three situations of `Ed.Trigger` (Transpose as above, Replace at the end of the line, MoveToEndWord on the
last rune of the line when that is a letter or digit), and provided drawing works. -/
theorem C07_defined_partial (U : UTables) (d : DCfg) (c : Cmd) (r : RB) (hd : r.DrawOK U d) (hg : r.toEd.Good)
    (ht : ¬ r.toEd.Trigger c) :
    ∃ r', c.apply U d r = .ok r' ∧ r'.toEd.Good ∧ r'.DrawOK U d := by
  obtain ⟨e', h1, h2⟩ := core_good hg ht
  obtain ⟨r', h3, h4, h5⟩ := (apply_total hd hg.1).2 e' h1
  exact ⟨r', h3, by rw [h4]; exact h2, hd.congr h5⟩

/-- The excluded situations are exactly those in which the command goes wrong: Replace and MoveToEndWord panic, Transpose
leaves the line. -/
theorem C07_triggers_are_real (U : UTables) (d : DCfg) (c : Cmd) (r : RB) (hd : r.DrawOK U d) (hi : r.toEd.CursorIn)
    (ht : r.toEd.Trigger c) :
    c.apply U d r = .error .panic ∨ ∃ r', c.apply U d r = .ok r' ∧ r'.buf.length < r'.idx := by
  cases c <;> simp only [Ed.Trigger] at ht
  case transpose =>
    right
    obtain ⟨r', h1, h2, _⟩ := (apply_total hd hi).2 _ (core_transpose_short (e := r.toEd) (by omega))
    exact ⟨r', h1, by rw [h2]; simp [ht.1, ht.2]⟩
  case replace c => exact .inl ((apply_total hd hi).1 _ ((core_replace c r.toEd).2 (by omega)))
  case endWord => exact .inl ((apply_total hd hi).1 _ ((core_endWord hi).1 ht))

example : ∃ r : RB, r.DrawOK U0 d0 ∧ r.toEd.Good ∧ ¬ r.toEd.Trigger .transpose ∧ r.buf = [97, 98] ∧ r.idx = 1 :=
  ⟨{ RB.new [62, 32] true 80 with buf := [97, 98], idx := 1 },
    .inr ⟨by simp [d0], by decide, 2, by simp [promptLen, RB.new, colorFilter, colorGo, widthAll, runeWidth, CharEsc, CharTab, U0], by
      intro _; simp [RB.new]⟩,
    ⟨by simp [Ed.CursorIn], by simp [RB.new]⟩, by simp [Ed.Trigger], rfl, rfl⟩

/-! ## C08: basic editing is a text editor -/

/-- C08.  Every sequence of basic commands does to the line what the textbook editor does, whenever it returns. -/
theorem C08_editor (U : UTables) (d : DCfg) (cs : List Cmd) (r r' : RB) (z : Line) (hi : r.toEd.CursorIn)
    (hz : runBasic cs r.toEd.line = some z) (hrun : runCmds U d cs r = .ok r') :
    r'.toEd.line = z ∧ r'.buf = z.left ++ z.right ∧ r'.idx = z.left.length ∧ r'.lastKill = z.kill := by
  have hmain : r'.toEd.line = z ∧ r'.toEd.CursorIn := by
    induction cs generalizing r with
    | nil => cases hrun; cases hz; exact ⟨rfl, hi⟩
    | cons c cs ih =>
      unfold runBasic at hz
      unfold runCmds at hrun
      cases hb : basic c with
      | none => simp [hb] at hz
      | some f =>
        simp only [hb, Option.bind_eq_bind, Option.bind_some] at hz
        cases hc : c.apply U d r with
        | error e => simp [hc] at hrun
        | ok r1 =>
          simp only [hc, R.bind_ok] at hrun
          obtain ⟨h1, _⟩ := apply_ok hc
          obtain ⟨e', h2, h3, h4⟩ := core_basic hb hi
          rw [h1] at h2
          cases h2
          exact ih r1 h3 (by rw [h4]; exact hz) hrun
  obtain ⟨h1, h2⟩ := hmain
  refine ⟨h1, ?_, ?_, ?_⟩ <;> rw [← h1]
  · simp [Ed.line]
  · have : r'.idx ≤ r'.buf.length := h2
    simp [Ed.line]; omega
  · rfl

/-- C08.  ... and it does return when drawing works. -/
theorem C08_total (U : UTables) (d : DCfg) (cs : List Cmd) (r : RB) (z : Line) (hi : r.toEd.CursorIn)
    (hd : r.DrawOK U d) (hz : runBasic cs r.toEd.line = some z) :
    ∃ r', runCmds U d cs r = .ok r' := by
  induction cs generalizing r with
  | nil => exact ⟨r, rfl⟩
  | cons c cs ih =>
    unfold runBasic at hz
    cases hb : basic c with
    | none => simp [hb] at hz
    | some f =>
      simp only [hb, Option.bind_eq_bind, Option.bind_some] at hz
      obtain ⟨e', h2, h3, h4⟩ := core_basic hb hi
      obtain ⟨r1, h5, h6, h7⟩ := (apply_total hd hi).2 e' h2
      obtain ⟨r', h8⟩ := ih r1 (by rw [h6]; exact h3) (hd.congr h7) (by rw [h6, h4]; exact hz)
      exact ⟨r', by simp [runCmds, h5, h8]⟩

-- type "ab", go left, type "c", kill to the end, go home, yank: "bac"
example : runBasic [.insert [97, 98], .left, .insert [99], .kill, .home, .yank] (RB.new [] false 80).toEd.line
    = some { left := [98], right := [97, 99], kill := [98] } := by decide
example : ∃ r', runCmds U0 d0 [.insert [97, 98], .left, .insert [99], .kill, .home, .yank] (RB.new [] false 80) = .ok r' ∧
    r'.buf = [98, 97, 99] ∧ r'.idx = 1 := ⟨_, rfl, rfl, rfl⟩

/-! ## C09: word motion -/

/-- C09.  Meta-B and Meta-F land on word starts and leave the text alone. -/
theorem C09_word_motion (U : UTables) (d : DCfg) (r r' : RB) (hi : r.toEd.CursorIn) :
    (r.moveToPrevWord U d = .ok r' → r'.buf = r.buf ∧ PrevWordPos r.buf r.idx r'.idx) ∧
    (r.moveToNextWord U d = .ok r' → r'.buf = r.buf ∧ NextWordPos r.buf r.idx r'.idx) := by
  constructor
  · intro h
    obtain ⟨h1, _⟩ := refresh_ok h
    obtain ⟨m, h2, _, h4⟩ := core_prevWord hi
    simp only [Cmd.core] at h2
    rw [h1] at h2
    obtain ⟨hb, hx, _⟩ := Ed.fields (Except.ok.inj h2)
    rw [hb, hx]
    exact ⟨rfl, h4⟩
  · intro h
    obtain ⟨h1, _⟩ := refresh_ok h
    obtain ⟨m, h2, _, h4⟩ := core_nextWord r.toEd
    simp only [Cmd.core] at h2
    rw [h1] at h2
    obtain ⟨hb, hx, _⟩ := Ed.fields (Except.ok.inj h2)
    rw [hb, hx]
    exact ⟨rfl, h4⟩

-- "ab cd ef", cursor 4: previous word start 3, next word start 6
example : ∃ r', (RB.moveToPrevWord U0 d0 { RB.new [] false 80 with buf := [97, 98, 32, 99, 100, 32, 101, 102], idx := 4 }) = .ok r'
    ∧ r'.idx = 3 := ⟨_, rfl, rfl⟩
example : ∃ r', (RB.moveToNextWord U0 d0 { RB.new [] false 80 with buf := [97, 98, 32, 99, 100, 32, 101, 102], idx := 4 }) = .ok r'
    ∧ r'.idx = 6 := ⟨_, rfl, rfl⟩

/-! ## C10: killed text can be yanked back

Full statement: for every cut command.  It is false for BackEscapeWord (Ctrl-W) when no word starts strictly between the
beginning of the line and the cursor: the whole line disappears and nothing is put in the kill buffer. -/

/-- A block was cut out of `l` (cursor `i`): `l = pre ++ block ++ post`, the block touches the cursor, what is left is
`pre ++ post` with the cursor between them, and the kill buffer holds the block. -/
def CutBlock (l : List Rune) (i : Nat) (l' : List Rune) (i' : Nat) (kill : List Rune) : Prop :=
  ∃ pre post, l = pre ++ kill ++ post ∧ l' = pre ++ post ∧ i' = pre.length ∧
    pre.length ≤ i ∧ i ≤ pre.length + kill.length

/-- The commands that cut text. -/
def isCut : Cmd → Bool
  | .kill | .killFront | .delete | .deleteWord | .backEscapeWord | .erase => true
  | _ => false

/-- Situations in which a cut command has nothing to cut. -/
def nothingToCut (c : Cmd) (idx len : Nat) : Prop :=
  (c = .killFront ∧ idx = 0) ∨ ((c = .delete ∨ c = .deleteWord) ∧ idx = len)

/-- C10, partial: every cut command but Ctrl-W without a word start left of the cursor either does nothing to the line or
cuts one block at the cursor into the kill buffer, and a Yank brings the line back. Missing: that case of
BackEscapeWord, see `C10_false`. -/
theorem C10_cut_yank_partial (U : UTables) (d : DCfg) (c : Cmd) (r r1 r2 : RB) (hi : r.toEd.CursorIn)
    (hc : isCut c = true) (hw : c = .backEscapeWord → ∃ j, j < r.idx ∧ WordStart r.buf j)
    (h1 : c.apply U d r = .ok r1) (h2 : Cmd.yank.apply U d r1 = .ok r2) :
    (r1.toEd = r.toEd ∧ nothingToCut c r.idx r.buf.length) ∨
      (CutBlock r.buf r.idx r1.buf r1.idx r1.lastKill ∧ r2.buf = r.buf) := by
  obtain ⟨hc1, _⟩ := apply_ok h1
  have hi' : r.idx ≤ r.buf.length := hi
  -- it suffices to show that a block was cut
  have fin : CutBlock r.buf r.idx r1.buf r1.idx r1.lastKill →
      CutBlock r.buf r.idx r1.buf r1.idx r1.lastKill ∧ r2.buf = r.buf := by
    intro h
    refine ⟨h, ?_⟩
    obtain ⟨pre, post, e1, e2, e3, _, _⟩ := h
    have hin : r1.toEd.CursorIn := by simp [Ed.CursorIn, e2, e3]
    obtain ⟨e', k1, k2, k3⟩ := core_basic (c := .yank) (f := (·.yank)) rfl hin
    obtain ⟨k4, _⟩ := apply_ok h2
    rw [k4] at k1
    cases k1
    have h5 := congrArg Line.text k3
    rw [Ed.line_text] at h5
    rw [h5]
    simp [Line.text, Line.yank, Ed.line, e1, e2, e3]
  have basicCase : ∀ {f : Line → Line}, basic c = some f →
      r1.toEd.line = f r.toEd.line ∧ r1.toEd.CursorIn := by
    intro f hf
    obtain ⟨e', k1, k2, k3⟩ := core_basic hf hi
    rw [hc1] at k1
    cases k1
    exact ⟨k3, k2⟩
  have hidx : r1.toEd.CursorIn → r1.idx = r1.toEd.line.left.length := by
    intro h
    have h : r1.idx ≤ r1.buf.length := h
    simp [Ed.line]; omega
  have hbuf : r1.buf = r1.toEd.line.left ++ r1.toEd.line.right := by simp [Ed.line]
  have hlk : r1.lastKill = r1.toEd.line.kill := rfl
  cases c <;> simp only [isCut, Bool.false_eq_true] at hc
  case kill =>
    obtain ⟨h3, h4⟩ := basicCase (f := (·.killRight)) rfl
    refine .inr (fin ⟨r.buf.take r.idx, [], ?_⟩)
    rw [hidx h4, hbuf, hlk, h3]
    simp [Line.killRight, Ed.line]; omega
  case killFront =>
    obtain ⟨h3, h4⟩ := basicCase (f := (·.killLeft)) rfl
    by_cases h0 : r.idx = 0
    · left
      simp only [Cmd.core, killFrontC, h0, if_true, Except.ok.injEq] at hc1
      exact ⟨hc1.symm, .inl ⟨rfl, h0⟩⟩
    · refine .inr (fin ⟨[], r.buf.drop r.idx, ?_⟩)
      have hne : r.buf.take r.idx ≠ [] := by
        intro hc
        rcases List.take_eq_nil_iff.1 hc with h' | h'
        · exact h0 h'
        · simp [h'] at hi'; exact h0 hi'
      rw [hidx h4, hbuf, hlk, h3]
      simp [Line.killLeft, Ed.line, hne]; omega
  case delete =>
    obtain ⟨h3, h4⟩ := basicCase (f := (·.delete)) rfl
    rcases Nat.eq_or_lt_of_le hi' with h0 | h0
    · left
      simp only [Cmd.core, deleteC, h0, if_true, R.map_ok, Except.ok.injEq] at hc1
      exact ⟨hc1.symm, .inr ⟨.inl rfl, h0⟩⟩
    · refine .inr (fin ⟨r.buf.take r.idx, r.buf.drop (r.idx + 1), ?_⟩)
      have h5 : r.buf.drop r.idx = r.buf[r.idx] :: r.buf.drop (r.idx + 1) := List.drop_eq_getElem_cons h0
      have h6 : r.buf = r.buf.take r.idx ++ r.buf[r.idx] :: r.buf.drop (r.idx + 1) := by
        rw [← h5, List.take_append_drop]
      rw [hidx h4, hbuf, hlk, h3]
      simp only [Line.delete, Ed.line, h5]
      refine ⟨by simpa using h6, by simp, by simp, ?_, ?_⟩ <;> simp <;> omega
  case erase =>
    obtain ⟨h3, h4⟩ := basicCase (f := (·.erase)) rfl
    refine .inr (fin ⟨[], [], ?_⟩)
    rw [hidx h4, hbuf, hlk, h3]
    simp [Line.erase, Ed.line]; omega
  case deleteWord =>
    rcases Nat.eq_or_lt_of_le hi' with h0 | h0
    · left
      rw [core_deleteWord_end h0] at hc1
      exact ⟨by simpa using hc1.symm, .inr ⟨.inr rfl, h0⟩⟩
    · obtain ⟨init, m, _, _, _, _, hm1, hm2, _, hm3⟩ := core_deleteWord hi h0
      rw [hc1] at hm3
      have hm4 := Except.ok.inj hm3
      refine .inr (fin ⟨r.buf.take r.idx, r.buf.drop m, ?_⟩)
      rw [show r1.buf = _ from congrArg Ed.buf hm4, show r1.idx = _ from congrArg Ed.idx hm4,
        show r1.lastKill = _ from congrArg Ed.lastKill hm4]
      refine ⟨?_, rfl, ?_, ?_, ?_⟩
      · have h5 : r.buf.take m = r.buf.take r.idx ++ (r.buf.take m).drop r.idx := by
          conv => lhs; rw [← List.take_append_drop r.idx (r.buf.take m)]
          rw [List.take_take, Nat.min_eq_left (by omega)]
        rw [← h5, List.take_append_drop]
      all_goals simp <;> omega
  case backEscapeWord =>
    obtain ⟨j, hj1, hj2⟩ := hw rfl
    rcases greatest_or_none (WordStart r.buf) r.idx with ⟨m, hm⟩ | hn
    · have hm3 := (core_backEscapeWord hi).1 m hm
      have hlt := hm.1
      rw [hc1] at hm3
      have hm4 := Except.ok.inj hm3
      refine .inr (fin ⟨r.buf.take m, r.buf.drop r.idx, ?_⟩)
      rw [show r1.buf = _ from congrArg Ed.buf hm4, show r1.idx = _ from congrArg Ed.idx hm4,
        show r1.lastKill = _ from congrArg Ed.lastKill hm4]
      refine ⟨?_, rfl, ?_, ?_, ?_⟩
      · have h5 : r.buf.take r.idx = r.buf.take m ++ (r.buf.take r.idx).drop m := by
          conv => lhs; rw [← List.take_append_drop m (r.buf.take r.idx)]
          rw [List.take_take, Nat.min_eq_left (by omega)]
        rw [← h5, List.take_append_drop]
      all_goals simp <;> omega
    · exact (hn j hj1 hj2).elim

/-- C10 is violated by Ctrl-W on the first word: "ab cd" with the cursor behind "ab" becomes empty, the kill buffer stays
empty and Yank brings nothing back. -/
theorem C10_false :
    ∃ r1 r2, Cmd.backEscapeWord.apply U0 d0 { RB.new [] false 80 with buf := [97, 98, 32, 99, 100], idx := 2 } = .ok r1 ∧
      Cmd.yank.apply U0 d0 r1 = .ok r2 ∧ r1.buf = [] ∧ r1.lastKill = [] ∧ r2.buf = [] :=
  ⟨_, _, rfl, rfl, rfl, rfl, rfl⟩

-- hypotheses of C10 met by Ctrl-W on the second word of "ab cd"
example : isCut .backEscapeWord = true ∧
    (∃ j, j < 5 ∧ WordStart [97, 98, 32, 99, 100] j) ∧
    ∃ r1 r2, Cmd.backEscapeWord.apply U0 d0 { RB.new [] false 80 with buf := [97, 98, 32, 99, 100], idx := 5 } = .ok r1 ∧
      Cmd.yank.apply U0 d0 r1 = .ok r2 ∧ r1.buf = [97, 98, 32] ∧ r2.buf = [97, 98, 32, 99, 100] :=
  ⟨rfl, ⟨3, by omega, 32, 99, by simp [WordChar]⟩, _, _, rfl, rfl, rfl, rfl⟩

/-! ## C11: Ctrl-W only cuts the previous word

Full statement: text right of the cursor is preserved and the cut text goes to the kill buffer, always. -/

/-- C11, partial: if a word starts strictly between 0 and the cursor, Ctrl-W cuts exactly from the nearest such start to
the cursor.  Missing: the previous word starts at 0 (or there is no word), where the claim is false (`C11_false`). -/
theorem C11_ctrlW_partial (U : UTables) (d : DCfg) (r r' : RB) (hi : r.toEd.CursorIn)
    (hw : ∃ j, j < r.idx ∧ WordStart r.buf j) (h : r.backEscapeWord U d = .ok r') :
    ∃ m, IsGreatestBelow (WordStart r.buf) r.idx m ∧ r'.idx = m ∧
      r'.buf = r.buf.take m ++ r.buf.drop r.idx ∧ r.buf.take r.idx = r.buf.take m ++ r'.lastKill := by
  obtain ⟨hc1, _⟩ := refresh_ok h
  obtain ⟨j, hj1, hj2⟩ := hw
  rcases greatest_or_none (WordStart r.buf) r.idx with ⟨m, hm⟩ | hn
  · have hm3 := (core_backEscapeWord hi).1 m hm
    have hlt := hm.1
    simp only [Cmd.core] at hm3
    rw [hc1] at hm3
    have hm4 := Except.ok.inj hm3
    refine ⟨m, hm, congrArg Ed.idx hm4, congrArg Ed.buf hm4, ?_⟩
    rw [show r'.lastKill = _ from congrArg Ed.lastKill hm4]
    conv => lhs; rw [← List.take_append_drop m (r.buf.take r.idx)]
    rw [List.take_take, Nat.min_eq_left (by omega)]
  · exact (hn j hj1 hj2).elim

/-- What the code does in the missing case: the whole line is dropped, including everything right of the cursor, and
the kill buffer is not touched. -/
theorem C11_first_word (U : UTables) (d : DCfg) (r r' : RB) (hi : r.toEd.CursorIn) (h0 : 0 < r.idx)
    (hw : ¬ ∃ j, j < r.idx ∧ WordStart r.buf j) (h : r.backEscapeWord U d = .ok r') :
    r'.buf = [] ∧ r'.idx = 0 ∧ r'.lastKill = r.lastKill := by
  obtain ⟨hc1, _⟩ := refresh_ok h
  have hm3 := (core_backEscapeWord hi).2.1 h0 (fun j h1 h2 => hw ⟨j, h1, h2⟩)
  simp only [Cmd.core] at hm3
  rw [hc1] at hm3
  have hm4 := Except.ok.inj hm3
  obtain ⟨hb, hx, hk, _⟩ := Ed.fields hm4
  exact ⟨hb, hx, hk⟩

/-- C11 is violated: Ctrl-W behind "ab" in "ab cd" deletes " cd" too. -/
theorem C11_false :
    ∃ r', RB.backEscapeWord U0 d0 { RB.new [] false 80 with buf := [97, 98, 32, 99, 100], idx := 2 } = .ok r' ∧
      ¬ ∃ pre, r'.buf = pre ++ [32, 99, 100] :=
  ⟨_, rfl, by
    rintro ⟨pre, h⟩
    have := congrArg List.length h
    simp at this⟩

/-! ## C12: Meta-D -/

/-- C12.  DeleteWord cuts a block starting at the cursor.  `init` is the first letter or digit at or after the cursor (or
the end of the line); the block ends one position before the first word start after `init`, or at the end of the line. -/
theorem C12_deleteWord (U : UTables) (d : DCfg) (r r' : RB) (hi : r.toEd.CursorIn) (h : r.deleteWord U d = .ok r') :
    (r.idx = r.buf.length → r'.toEd = r.toEd) ∧
    (r.idx < r.buf.length → ∃ init m,
      (r.idx ≤ init ∧ (∀ j, r.idx ≤ j → j < init → ∃ c, r.buf[j]? = some c ∧ ¬ WordChar c) ∧
        (init = r.buf.length ∨ ∃ c, r.buf[init]? = some c ∧ WordChar c)) ∧
      (IsLeastAbove (WordStart r.buf) init (m + 1) ∨ ((∀ j, init < j → ¬ WordStart r.buf j) ∧ m = r.buf.length)) ∧
      r.idx < m ∧ m ≤ r.buf.length ∧
      r'.idx = r.idx ∧ r'.buf = r.buf.take r.idx ++ r.buf.drop m ∧ r.buf.take m = r.buf.take r.idx ++ r'.lastKill) := by
  have h1 := (apply_ok (c := .deleteWord) h).1
  constructor
  · intro h0
    rw [core_deleteWord_end h0] at h1
    simpa using h1.symm
  · intro h0
    obtain ⟨init, m, a1, a2, a3, a4, a5, a6, a7, a8⟩ := core_deleteWord hi h0
    rw [h1] at a8
    have hm4 := Except.ok.inj a8
    refine ⟨init, m, ⟨a1, a3, ?_⟩, a7, a5, a6, (Ed.fields hm4).2.1, (Ed.fields hm4).1, ?_⟩
    · rcases Nat.eq_or_lt_of_le a2 with h2 | h2
      · exact .inl h2
      · exact .inr ⟨_, List.getElem?_eq_getElem h2, a4 _ (List.getElem?_eq_getElem h2)⟩
    · rw [show r'.lastKill = _ from congrArg Ed.lastKill hm4]
      conv => lhs; rw [← List.take_append_drop r.idx (r.buf.take m)]
      rw [List.take_take, Nat.min_eq_left (by omega)]

-- "ab cd ef" with the cursor at 0: one blank is kept in front of "cd"
example : ∃ r', RB.deleteWord U0 d0 { RB.new [] false 80 with buf := [97, 98, 32, 99, 100, 32, 101, 102] } = .ok r' ∧
    r'.buf = [32, 99, 100, 32, 101, 102] ∧ r'.lastKill = [97, 98] := ⟨_, rfl, rfl, rfl⟩

/-! ## C13: Transpose

Full statement: as `C13_transpose_partial` plus "the cursor stays in the line" for lines of one rune, which is false
(`C13_false`). -/

/-- C13, partial: on lines of at least two runes two neighbours are swapped and the cursor goes behind them; shorter lines
are not changed; the text is always a permutation of the old one.  Missing: the cursor on one-rune lines. -/
theorem C13_transpose_partial (U : UTables) (d : DCfg) (r r' : RB) (hi : r.toEd.CursorIn)
    (h : r.transpose U d = .ok r') :
    r'.buf.Perm r.buf ∧
    (2 ≤ r.buf.length → r'.idx ≤ r'.buf.length ∧
      ∃ pre a b post, r.buf = pre ++ a :: b :: post ∧ r'.buf = pre ++ b :: a :: post ∧ r'.idx = pre.length + 2 ∧
        (r.idx = 0 → pre = []) ∧ (0 < r.idx → r.idx < r.buf.length → pre.length + 1 = r.idx) ∧
        (r.idx = r.buf.length → post = [])) ∧
    (r.buf.length < 2 → r'.buf = r.buf) := by
  obtain ⟨hc1, _⟩ := refresh_ok h
  by_cases hl : 2 ≤ r.buf.length
  · obtain ⟨pre, a, b, post, h1, h2, h3, h4, h5⟩ := core_transpose_long hi hl
    simp only [Cmd.core] at h2
    rw [hc1] at h2
    have hm4 := Except.ok.inj h2
    have hb : r'.buf = _ := congrArg Ed.buf hm4
    have hx : r'.idx = _ := congrArg Ed.idx hm4
    refine ⟨?_, fun _ => ⟨?_, pre, a, b, post, h1, hb, hx, fun h => by simpa using h3 h, h4, h5⟩, fun h => by omega⟩
    · rw [hb, h1]
      exact List.Perm.append_left _ (List.Perm.swap ..)
    · rw [hb, hx]; simp
  · have h2 := core_transpose_short (e := r.toEd) (by omega)
    simp only [Cmd.core] at h2
    rw [hc1] at h2
    have hm4 := Except.ok.inj h2
    have hb := (Ed.fields hm4).1
    exact ⟨by rw [hb], fun h => by omega, fun _ => hb⟩

/-- C13 is violated by the cursor of a one-rune line. -/
theorem C13_false :
    ∃ r', RB.transpose U0 d0 { RB.new [] false 80 with buf := [97], idx := 1 } = .ok r' ∧ r'.idx = 2 ∧ r'.buf = [97] :=
  ⟨_, rfl, rfl, rfl⟩

example : ∃ r', RB.transpose U0 d0 { RB.new [] false 80 with buf := [97, 98, 99], idx := 3 } = .ok r' ∧
    r'.buf = [97, 99, 98] ∧ r'.idx = 3 := ⟨_, rfl, rfl, rfl⟩

/-! ## C14: character search -/

/-- C14.  MoveTo (vim f F t T): nearest occurrence strictly right (or left) of the cursor. -/
theorem C14_moveTo (U : UTables) (d : DCfg) (c : Rune) (prev rev success : Bool) (r r' : RB) (hi : r.toEd.CursorIn)
    (h : r.moveTo U d c prev rev = .ok (success, r')) :
    r'.buf = r.buf ∧
    (rev = false →
      (success = true ↔ ∃ j, r.idx < j ∧ r.buf[j]? = some c) ∧
      (success = true → ∃ m, IsLeastAbove (fun i => r.buf[i]? = some c) r.idx m ∧
        r'.idx = if prev then m - 1 else m) ∧
      (success = false → r'.idx = r.idx)) ∧
    (rev = true →
      (success = true ↔ ∃ j, j < r.idx ∧ r.buf[j]? = some c) ∧
      (success = true → ∃ m, IsGreatestBelow (fun i => r.buf[i]? = some c) r.idx m ∧
        r'.idx = if prev then m + 1 else m) ∧
      (success = false → r'.idx = r.idx)) := by
  obtain ⟨h1, _⟩ := refreshV_ok h
  cases rev with
  | false =>
    rcases moveToC_fwd c prev r.toEd with ⟨m, a1, a2, a3⟩ | ⟨a1, a3⟩
    · rw [h1] at a3
      simp only [Except.ok.injEq, Prod.mk.injEq] at a3
      obtain ⟨rfl, a4⟩ := a3
      have hb := congrArg Ed.buf a4
      have hx := congrArg Ed.idx a4
      refine ⟨hb, fun _ => ⟨?_, fun _ => ⟨m, a2, hx⟩, by simp⟩, by simp⟩
      simp only [true_iff]
      exact ⟨m, a2.1, a2.2.1⟩
    · rw [h1] at a3
      simp only [Except.ok.injEq, Prod.mk.injEq] at a3
      obtain ⟨rfl, a4⟩ := a3
      have hb := congrArg Ed.buf a4
      have hx := congrArg Ed.idx a4
      refine ⟨hb, fun _ => ⟨?_, by simp, fun _ => hx⟩, by simp⟩
      simp only [Bool.false_eq_true, false_iff]
      rintro ⟨j, h1, h2⟩
      exact a1 j h1 h2
  | true =>
    rcases moveToC_bwd c prev r.toEd hi with ⟨m, a2, a3⟩ | ⟨a1, a3⟩
    · rw [h1] at a3
      simp only [Except.ok.injEq, Prod.mk.injEq] at a3
      obtain ⟨rfl, a4⟩ := a3
      have hb := congrArg Ed.buf a4
      have hx := congrArg Ed.idx a4
      refine ⟨hb, by simp, fun _ => ⟨?_, fun _ => ⟨m, a2, hx⟩, by simp⟩⟩
      simp only [true_iff]
      exact ⟨m, a2.1, a2.2.1⟩
    · rw [h1] at a3
      simp only [Except.ok.injEq, Prod.mk.injEq] at a3
      obtain ⟨rfl, a4⟩ := a3
      have hb := congrArg Ed.buf a4
      have hx := congrArg Ed.idx a4
      refine ⟨hb, by simp, fun _ => ⟨?_, by simp, fun _ => hx⟩⟩
      simp only [Bool.false_eq_true, false_iff]
      rintro ⟨j, h1, h2⟩
      exact a1 j h1 h2

-- "abcab", cursor 1: `fb` goes to 4, `tb` to 3, `Fa` to 0
example : ∃ r', RB.moveTo U0 d0 { RB.new [] false 80 with buf := [97, 98, 99, 97, 98], idx := 1 } 98 true false = .ok (true, r') ∧
    r'.idx = 3 := ⟨_, rfl, rfl⟩
example : ∃ r', RB.moveTo U0 d0 { RB.new [] false 80 with buf := [97, 98, 99, 97, 98], idx := 1 } 97 false true = .ok (true, r') ∧
    r'.idx = 0 := ⟨_, rfl, rfl⟩

/-! ## C16: redrawing finishes

Full statement (false): `∀ r, ∃ r', r.refreshNil U d = .ok r'` for interactive buffers with a painter whose prompt does
not end in ESC. -/

/-- C16, partial: a redraw finishes exactly when it is not the case that the cursor is left of the end of a line of
positive width while the terminal width is not positive or the prompt width is a positive multiple of it.  Missing: that
case, in which the redraw never ends. -/
theorem C16_redraw_partial (U : UTables) (d : DCfg) (r : RB) (p : Nat) (hint : r.interactive = true)
    (hd : d.painter ≠ none) (hp : r.promptLen U = .ok p) (hi : r.toEd.CursorIn) :
    (¬ (r.idx < r.buf.length ∧ SepDiverges (widthAll U r.buf) p r.width) → ∃ r', r.refreshNil U d = .ok r') ∧
    ((r.idx < r.buf.length ∧ SepDiverges (widthAll U r.buf) p r.width) → r.refreshNil U d = .error .hang) := by
  obtain ⟨r1, hr1⟩ := clean_total hp hi
  obtain ⟨h1, h2⟩ := clean_ok hr1
  have hp1 : r1.promptLen U = .ok p := by rw [promptLen_congr U h2.prompt, hp]
  have hb : r1.buf = r.buf := congrArg Ed.buf h1
  have hx : r1.idx = r.idx := congrArg Ed.idx h1
  have key : r.refreshNil U d = r1.print U d := by
    unfold refreshNil refresh
    rw [if_neg (by simp [hint]), hr1]
    rfl
  obtain ⟨k1, k2⟩ := output_spec (U := U) (d := d) (r := r1) hp1 hd
  rw [hb, hx, h2.width] at k1 k2
  rw [key]
  unfold print
  constructor
  · intro h
    obtain ⟨ts, hts⟩ := k2 h
    exact ⟨_, by rw [hts]; rfl⟩
  · intro h
    rw [k1 h]; rfl

/-- The verdict "hang" of the model is a real endless loop: no number of iterations is enough.  And when the loop ends, the
number of iterations allowed by the model does not matter. -/
theorem C16_hang_is_divergence (W p : Nat) (width : Int) :
    (SepDiverges W p width → ∀ fuel, sepLoop W p width fuel 0 [] = .error .hang) ∧
    (¬ SepDiverges W p width → ∃ s, ∀ fuel, sepFuel W p ≤ fuel → sepLoop W p width fuel 0 [] = .ok s) := by
  refine ⟨fun h fuel => sepLoop_hang W p width h fuel, fun h => ?_⟩
  obtain ⟨s, hs⟩ := sepLoop_ok W p width h (sepFuel W p) (Nat.le_refl _)
  exact ⟨s, fun fuel hf => sepLoop_mono _ _ _ hf hs⟩

/-- C16 is violated: with the prompt as wide as the terminal (here 4 columns), type two characters and go one left. -/
theorem C16_false :
    runCmds U0 d0 [.insert [97, 98], .left] (RB.new [62, 62, 62, 62] true 4) = .error .hang := by
  have hc : ∀ r : RB, r.prompt = [62, 62, 62, 62] → r.promptLen U0 = .ok 4 := by
    intro r h
    simp [promptLen, h, colorFilter, colorGo, widthAll, runeWidth, CharEsc, CharTab, U0]
  have h1 : ∃ r1, Cmd.apply U0 d0 (.insert [97, 98]) (RB.new [62, 62, 62, 62] true 4) = .ok r1 ∧ r1.buf = [97, 98] ∧ r1.idx = 2 ∧
      r1.prompt = [62, 62, 62, 62] ∧ r1.interactive = true ∧ r1.width = 4 := by
    have : ∃ r1, Cmd.apply U0 d0 (.insert [97, 98]) (RB.new [62, 62, 62, 62] true 4) = .ok r1 := by
      simp only [Cmd.apply, writeRunes, refresh]
      rw [if_neg (by simp [RB.new])]
      obtain ⟨r1, hr1⟩ := clean_total (U := U0) (r := RB.new [62, 62, 62, 62] true 4) (hc _ rfl) (by simp [RB.new])
      obtain ⟨k1, k2⟩ := clean_ok hr1
      simp only [hr1, R.bind_ok, k1]
      simp only [writeRunesC, RB.new, sliceFrom, sliceTo, List.length_nil, Nat.le_refl, if_true, R.bind_ok, List.drop_nil,
        List.take_nil, List.nil_append, List.append_nil]
      obtain ⟨ts, hts⟩ := (output_spec (U := U0) (d := d0) (p := 4)
        (r := { r1 with toEd := { buf := [97, 98], idx := 2, lastKill := [], bck := none } })
        (hc _ k2.prompt) (by simp [d0])).2 (by simp)
      simp only [print, Nat.zero_add, List.length_cons, List.length_nil]
      exact ⟨_, by rw [hts]; rfl⟩
    obtain ⟨r1, h⟩ := this
    obtain ⟨k1, k2⟩ := apply_ok h
    have k3 : r1.toEd = { buf := [97, 98], idx := 2, lastKill := [], bck := none } := by
      simpa [Cmd.core, writeRunesC, RB.new, sliceFrom, sliceTo] using k1.symm
    exact ⟨r1, h, congrArg Ed.buf k3, congrArg Ed.idx k3, k2.1, k2.2, k2.3⟩
  obtain ⟨r1, k0, k1, k2, k3, k4, k5⟩ := h1
  simp only [runCmds, k0, R.bind_ok]
  have : Cmd.apply U0 d0 .left r1 = .error .hang := by
    simp only [Cmd.apply, moveBackward, refresh]
    rw [if_neg (by simp [k4])]
    obtain ⟨r2, hr2⟩ := clean_total (U := U0) (r := r1) (hc _ k3) (by simp [k1, k2])
    obtain ⟨l1, l2⟩ := clean_ok hr2
    simp only [hr2, R.bind_ok, l1, moveBackwardC, k2]
    simp only [show ¬ (2 = 0) by omega, if_false, R.bind_ok]
    have := (output_spec (U := U0) (d := d0) (p := 4) (r := { r2 with toEd := { r1.toEd with idx := 2 - 1 } })
      (hc _ (l2.prompt.trans k3)) (by simp [d0])).1 (by
        refine ⟨by simp [k1], ?_⟩
        simp only [k1, l2.width, k5]
        refine ⟨by decide, .inr ⟨by omega, by decide⟩⟩)
    simp only [print]
    rw [this]; rfl
  rw [this]; rfl

-- hypotheses of C16 are met by an ordinary prompt of two columns on 80 columns with the cursor in the middle
example : ∃ r : RB, r.interactive = true ∧ r.promptLen U0 = .ok 2 ∧ r.toEd.CursorIn ∧ r.idx < r.buf.length ∧
    ¬ SepDiverges (widthAll U0 r.buf) 2 r.width :=
  ⟨{ RB.new [62, 32] true 80 with buf := [97, 98], idx := 1 }, rfl,
    by simp [promptLen, RB.new, colorFilter, colorGo, widthAll, runeWidth, CharEsc, CharTab, U0], by simp [Ed.CursorIn], by simp,
    by rintro ⟨-, h | h⟩ <;> simp [RB.new] at h <;> omega⟩

end RL
