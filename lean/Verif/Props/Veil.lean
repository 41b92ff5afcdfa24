import Verif.Proofs.Veil
import Verif.Spec.Session
import Verif.Props.Mask
/-! # C97: a password does not reach the screen, whatever keys are used -/

namespace RL
open Spec

/-- The state after `m` calls of `Readline` and, within the next call, `n` keys. -/
def moment (c : OCfg) (fuel m n : Nat) (o : Op) : R Op := do
  let o ← after c fuel m o
  let o ← o.refreshNil c
  o.kickRead.iters c n

/-- Nobody who looks at the screen can tell the two runs apart: either both go on and have written the same, with results that differ only
in the text, or both end in the same way. -/
def Indistinct (U : UTables) (x y : R Op) : Prop :=
  match x, y with
  | .ok a, .ok b => a.rb.out = b.rb.out ∧ All2 (SameEvent U) a.events b.events
  | .error e, .error e' => e = e'
  | _, _ => False

/-- Neither a search nor a list of candidates is open. -/
def Closed (o : Op) : Prop := o.search.inMode = false ∧ o.comp.inComplete = false ∧ o.comp.inSelect = false

/-- No key of the session starts a search. -/
def NoSearch (ks : List Rune) : Prop := ∀ k ∈ ks, k ≠ 18 ∧ k ≠ 19

theorem All2.keyLike {U : UTables} {ks ks' : List Rune} (h : All2 (SameKey U) ks ks') (hn : NoSearch ks) : All2 (KeyLike U) ks ks' := by
  induction h with
  | nil => exact .nil
  | cons h1 _ ih =>
    exact .cons ⟨h1, (hn _ (by simp)).1, (hn _ (by simp)).2⟩ (ih fun k hk => hn k (by simp [hk]))

theorem SameEvent.refl {U : UTables} (e : Event) : SameEvent U e e := by
  cases e with
  | line s => exact .line (.refl s)
  | eof => exact .eof
  | interrupt s => exact .interrupt (.refl s)

theorem OVeil.start {c : OCfg} {o : Op} (ho : Closed o) (hq : Unrecorded c o.hist) {ks ks' : List Rune} (hk : All2 (SameKey c.U) ks ks') (hn : NoSearch ks) :
    OVeil c { o with inp := ks } { o with inp := ks' } :=
  { rb := { ed := ⟨.refl _, .refl _, rfl⟩, prompt := rfl, hadClean := rfl, interactive := rfl, width := rfl, out := rfl }
    hist := ⟨fun _ => ⟨rfl, .refl _, .refl _⟩, rfl, rfl, rfl, rfl, rfl, rfl⟩
    quiet := hq, smode := ⟨ho.1, ho.1⟩, cmode := ⟨ho.2.1, ho.2.1⟩, sel := ⟨ho.2.2, ho.2.2⟩, inp := RL.All2.keyLike hk hn, gate := rfl, kick := rfl
    events := All2.refl SameEvent.refl _, stopped := rfl }

theorem after_veil {c : OCfg} (hm : Masked c) (fuel : Nat) : ∀ (m : Nat) {o o' : Op}, OVeil c o o' → RRel (OVeil c) (after c fuel m o) (after c fuel m o')
  | 0, _, _, h => h
  | m + 1, _, _, h => (Op.readline_veil hm fuel h).bind fun _ _ hp => after_veil hm fuel m hp.2

theorem calls_veil {c : OCfg} (hm : Masked c) (fuel : Nat) : ∀ (m : Nat) {o o' : Op}, OVeil c o o' →
    RRel (All2 (SameEvent c.U)) (calls c fuel m o) (calls c fuel m o')
  | 0, _, _, _ => .nil
  | m + 1, _, _, h => (Op.readline_veil hm fuel h).bind fun _ _ hp => (calls_veil hm fuel m hp.2).bind fun _ _ hl => .cons hp.1 hl

/-- **C97 (partial).**  With the mask on, without vim mode, completer, filter and interfering listener, and with a history that records nothing
(`Unrecorded`: no automatic saving, a disabled history, or `HistoryLimit` below 1 as in the configuration of `ReadPassword`), two users who type keys
that differ only in the runes typed, each with one that has the same width and is treated alike by the word commands, cannot be told apart at
any moment of any session, from any state of the line, the prompt, the kill buffer and the history.  `fuel` bounds the keys of each call.
Missing: the keys Ctrl-R and Ctrl-S (for which it is false), and the other configurations. -/
theorem C97_session_partial {c : OCfg} (hm : Masked c) {o : Op} (ho : Closed o) (hq : Unrecorded c o.hist) {ks ks' : List Rune}
    (hk : All2 (SameKey c.U) ks ks') (hn : NoSearch ks) (fuel m n : Nat) :
    Indistinct c.U (moment c fuel m n { o with inp := ks }) (moment c fuel m n { o with inp := ks' }) := by
  have h : RRel (OVeil c) (moment c fuel m n { o with inp := ks }) (moment c fuel m n { o with inp := ks' }) :=
    (after_veil hm fuel m (OVeil.start ho hq hk hn)).bind fun _ _ h1 => (Op.refreshNil_veil hm h1).bind fun _ _ h2 => Op.iters_veil hm n (Op.kick_veil h2)
  unfold Indistinct
  cases h1 : moment c fuel m n { o with inp := ks } <;> cases h2 : moment c fuel m n { o with inp := ks' } <;> rw [h1, h2] at h
  · exact h
  · exact h.elim
  · exact h.elim
  · exact ⟨h.rb.out, h.events⟩

/-- **C97 (partial), the results.**  The calls return the same kinds of results, with texts of the same shape: the two users' own texts are all
that differs. -/
theorem C97_results_partial {c : OCfg} (hm : Masked c) {o : Op} (ho : Closed o) (hq : Unrecorded c o.hist) {ks ks' : List Rune}
    (hk : All2 (SameKey c.U) ks ks') (hn : NoSearch ks) (fuel m : Nat) :
    match calls c fuel m { o with inp := ks }, calls c fuel m { o with inp := ks' } with
    | .ok es, .ok es' => All2 (SameEvent c.U) es es'
    | .error e, .error e' => e = e'
    | _, _ => False := by
  have h := calls_veil hm fuel m (OVeil.start ho hq hk hn)
  cases h1 : calls c fuel m { o with inp := ks } <;> cases h2 : calls c fuel m { o with inp := ks' } <;> rw [h1, h2] at h
  · exact h
  · exact h.elim
  · exact h.elim
  · exact h

/-- The key with the rune blotted out: an `x` for every rune that is typed, as wide as an `x` and no word break. -/
def blot (U : UTables) (k : Rune) : Rune := if 32 ≤ k ∧ k ≠ 127 ∧ runeWidth U k = runeWidth U 120 ∧ isWordBreak k = false then 120 else k

theorem blot_same (U : UTables) (ks : List Rune) : All2 (SameKey U) ks (ks.map (blot U)) := by
  induction ks with
  | nil => exact .nil
  | cons k ks ih =>
    refine .cons ?_ ih
    unfold blot
    split
    · next h =>
      refine .inr ⟨⟨h.1, h.2.1⟩, ⟨by decide, by decide⟩, ⟨h.2.2.1, ⟨fun e => ?_, fun e => ?_⟩⟩, ?_⟩
      · have := h.1; omega
      · cases e
      · rw [h.2.2.2]; decide
    · exact .inl rfl

/-- **C97 (partial), in one run.**  What is on the screen can be computed from the keys with every letter and digit replaced by an `x`. -/
theorem C97_blotted_partial {c : OCfg} (hm : Masked c) {o : Op} (ho : Closed o) (hq : Unrecorded c o.hist) {ks : List Rune} (hn : NoSearch ks)
    (fuel m n : Nat) : Indistinct c.U (moment c fuel m n { o with inp := ks }) (moment c fuel m n { o with inp := ks.map (blot c.U) }) :=
  C97_session_partial hm ho hq (blot_same c.U ks) hn fuel m n

/-! ### A password prompt -/

/-- The configuration of `ReadPassword` (/repo/password.go:22-32) with the mask rune `*`. -/
def cPw : OCfg := { c0 with d := dmask, h := ⟨-1, false, false, true⟩, interruptPrompt := [10], eofPrompt := [10] }

theorem masked_pw : Masked cPw := ⟨rfl, rfl, rfl, rfl, fun _ h => by cases h⟩

/-- The prompt `?` on a terminal of 30 columns. -/
def oPw (ks : List Rune) : Op := Op.init [63] true 30 (Hist.fresh []) ks

theorem quiet_pw (ks : List Rune) : Unrecorded cPw (oPw ks).hist := .inr (.inr ⟨by decide, Nat.zero_le 1⟩)

/-- What has been written at the moment `n` keys into the `m`-th call. -/
def sentPw (c : OCfg) (m n : Nat) (o : Op) : Option (List Tok) := (moment c 30 m n o).toOption.map (·.rb.out)

/-- "ab-cd", Meta-b, Ctrl-T, Ctrl-W, Ctrl-E, Ctrl-Y, Enter, "ef", Ctrl-P, Ctrl-C. -/
def keysPw : List Rune := [97, 98, 45, 99, 100, -1, 20, 23, 5, 25, 13, 101, 102, 16, 3]
/-- The same with "qr-st" and "uv". -/
def keysPw' : List Rune := [113, 114, 45, 115, 116, -1, 20, 23, 5, 25, 13, 117, 118, 16, 3]

theorem same_pw : All2 (SameKey cPw.U) keysPw keysPw' := by
  have t : ∀ a b : Rune, 32 ≤ a → a ≠ 127 → 32 ≤ b → b ≠ 127 → runeWidth cPw.U a = runeWidth cPw.U b → isWordBreak a = isWordBreak b →
      SameKey cPw.U a b := fun a b h1 h2 h3 h4 h5 h6 => .inr ⟨⟨h1, h2⟩, ⟨h3, h4⟩, ⟨h5, by omega⟩, h6⟩
  unfold keysPw keysPw'
  exact .cons (t 97 113 (by decide) (by decide) (by decide) (by decide) (by decide) (by decide)) (.cons (t 98 114 (by decide) (by decide) (by decide) (by decide)
    (by decide) (by decide)) (.cons (.inl rfl) (.cons (t 99 115 (by decide) (by decide) (by decide) (by decide) (by decide) (by decide)) (.cons (t 100 116 (by decide)
    (by decide) (by decide) (by decide) (by decide) (by decide)) (.cons (.inl rfl) (.cons (.inl rfl) (.cons (.inl rfl) (.cons (.inl rfl) (.cons (.inl rfl) (.cons (.inl rfl)
    (.cons (t 101 117 (by decide) (by decide) (by decide) (by decide) (by decide) (by decide)) (.cons (t 102 118 (by decide) (by decide) (by decide) (by decide)
    (by decide) (by decide)) (.cons (.inl rfl) (.cons (.inl rfl) .nil))))))))))))))

theorem noSearch_pw : NoSearch keysPw := by unfold NoSearch keysPw; decide

/-- Two sessions of a password prompt with the keys above: the hypotheses of C97 hold, the sessions run, and the two users get different lines. -/
example : Masked cPw ∧ Closed (oPw []) ∧ Unrecorded cPw (oPw []).hist ∧ All2 (SameKey cPw.U) keysPw keysPw' ∧ NoSearch keysPw ∧ keysPw ≠ keysPw' ∧
    (calls cPw 30 2 (oPw keysPw)).toOption ≠ (calls cPw 30 2 (oPw keysPw')).toOption ∧ (calls cPw 30 2 (oPw keysPw)).isOk ∧
    (sentPw cPw 1 3 (oPw keysPw)).isSome :=
  ⟨masked_pw, ⟨rfl, rfl, rfl⟩, quiet_pw _, same_pw, noSearch_pw, by decide, by decide +kernel, by decide +kernel, by decide +kernel⟩

/-- … and, by C97, the same screen at every moment. -/
example (fuel m n : Nat) : Indistinct cPw.U (moment cPw fuel m n (oPw keysPw)) (moment cPw fuel m n (oPw keysPw')) :=
  C97_session_partial masked_pw (o := oPw []) ⟨rfl, rfl, rfl⟩ (quiet_pw _) same_pw noSearch_pw fuel m n

/-- **C97 is false (search).**  A password prompt has Ctrl-R.  The password typed so far is an entry of the history, as the line not yet entered;
a hit is drawn without the mask.  The user types `secret`, Ctrl-R and `e`: the terminal shows `e` where the hit is, underlined, in the masked
line; with `sacrat` the screen is another one, which says that the search fails. -/
theorem C97_false_search :
    (∃ l, sentPw cPw 0 8 (oPw (str "secret" ++ [18, 101])) = some (l ++ [.sgr [52], .ch 101, .sgr [48], .ch 10, .eraseBelow] ++ (str "bck-i-search: e").map Tok.ch ++
      [.sgr [52], .ch 32, .sgr [48], .cr, .up 1, .right 5])) ∧
    (∃ l, sentPw cPw 0 8 (oPw (str "sacrat" ++ [18, 101])) = some (l ++ (str "failing bck-i-search: e").map Tok.ch ++
      [.sgr [52], .ch 32, .sgr [48], .cr, .up 1, .right 7])) := by
  refine ⟨⟨((sentPw cPw 0 8 (oPw (str "secret" ++ [18, 101]))).getD []).take 87, by decide +kernel⟩, ⟨((sentPw cPw 0 8 (oPw (str "sacrat" ++ [18, 101]))).getD []).take 75, by decide +kernel⟩⟩

/-- `Unrecorded` is needed: a masked prompt with an ordinary history shows whether the same password was entered twice.  After `ab` and `ab`, as opposed
to `ab` and `cd`, the second Ctrl-P of the third call rings the bell. -/
theorem C97_false_history : let c := { cPw with h := ⟨500, false, false, true⟩ }
    sentPw c 2 2 (oPw [97, 98, 13, 97, 98, 13, 16, 16]) ≠ sentPw c 2 2 (oPw [97, 98, 13, 99, 100, 13, 16, 16]) ∧
    (sentPw c 2 2 (oPw [97, 98, 13, 97, 98, 13, 16, 16])).map (·.getLast?) = some (some .bell) ∧
    ((sentPw c 2 2 (oPw [97, 98, 13, 99, 100, 13, 16, 16])).map fun l => decide (Tok.bell ∈ l)) = some false := by
  decide +kernel

/-- The word breaks matter: after Meta-b the cursor is where the last word of the password starts. -/
theorem C97_false_words : sentPw cPw 0 6 (oPw (str "ab-cd" ++ [-1])) ≠ sentPw cPw 0 6 (oPw (str "abxcd" ++ [-1])) := by decide +kernel

end RL
