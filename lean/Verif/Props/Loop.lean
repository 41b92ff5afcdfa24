import Verif.Model.Loop
import Verif.Spec.Loop
import Verif.Props.Study
/-! # The loop of a program that reads lines: C85 -/

namespace RL
open Spec

theorem encode_nil_iff (l : List Rune) : (encode l).length = 0 ↔ l = [] := by
  constructor
  · intro h
    have h1 : encode l = [] := List.length_eq_zero_iff.1 h
    have h2 := decode_encode l
    rw [h1] at h2
    exact List.map_eq_nil_iff.1 h2.symm
  · rintro rfl; rfl

/-- A loop that stops at `p` and hands lines to its body. -/
theorem loop_spec {c : OCfg} {fuel : Nat} {get : Event → Result} {next : Result → LoopNext} {p : Event → Bool}
    (hl : ∀ l, next (get (.line l)) = .body ∧ (get (.line l)).line = encode l ∧ p (.line l) = false)
    (hs : ∀ e, p e = true → next (get e) = .stop) (hk : ∀ e, p e = false → (∀ l, e ≠ .line l) → next (get e) = .skip) {n : Nat} {o : Op} {es : List Event}
    (h : calls c fuel n o = .ok es) :
    ∃ o', loop c fuel get next n o = .ok ((enteredLines (until_ p es)).map encode, es.any p, o') ∧
      after c fuel ((until_ p es).length + if es.any p then 1 else 0) o = .ok o' := by
  induction n generalizing o es with
  | zero =>
    cases h
    exact ⟨o, rfl, rfl⟩
  | succ n ih =>
    obtain ⟨⟨e, o1⟩, e1, h⟩ := R.bind_inv h
    obtain ⟨es', e2, h⟩ := R.bind_inv h
    cases h
    obtain ⟨o', i1, i2⟩ := ih e2
    have aft : ∀ k, after c fuel (k + 1) o = after c fuel k o1 := by
      intro k
      show (o.readline c fuel >>= fun p => after c fuel k p.2) = _
      rw [e1, R.bind_ok]
    have lp : loop c fuel get next (n + 1) o = match next (get e) with
        | .skip => loop c fuel get next n o1
        | .stop => .ok ([], true, o1)
        | .body => loop c fuel get next n o1 >>= fun q => .ok ((get e).line :: q.1, q.2.1, q.2.2) := by
      rw [loop, e1, R.bind_ok]
      dsimp only
      cases next (get e) <;> rfl
    by_cases hp : p e = true
    · refine ⟨o1, ?_, ?_⟩
      · rw [lp, hs e hp]
        simp [until_, hp, enteredLines]
      · simp only [until_, List.takeWhile_cons, hp, List.any_cons, Bool.not_true, Bool.true_or, if_true]
        exact aft 0
    · have hp : p e = false := by simpa using hp
      have u : until_ p (e :: es') = e :: until_ p es' := by simp [until_, hp]
      have an : (e :: es').any p = es'.any p := by simp [hp]
      refine ⟨o', ?_, ?_⟩
      · rw [lp, u, an]
        cases e with
        | line l =>
          rw [(hl l).1]
          dsimp only
          rw [i1, R.bind_ok, (hl l).2.1]
          rfl
        | eof => rw [hk _ hp (by simp)]; exact i1
        | interrupt l => rw [hk _ hp (by simp)]; exact i1
      · rw [u, an, List.length_cons, show (until_ p es').length + 1 + (if es'.any p = true then 1 else 0) = ((until_ p es').length + if es'.any p = true then 1 else 0) + 1 by omega, aft]
        exact i2

/-- C85: whatever a session is, the loop with `Line`, `CanContinue` and `CanBreak` hands to its body exactly the lines submitted before the user
leaves, encoded, in order; it ends when the user leaves, and reads nothing after that. -/
theorem C85_line {c : OCfg} {fuel n : Nat} {o : Op} {es : List Event} (h : calls c fuel n o = .ok es) :
    ∃ o', loop c fuel Event.str imNext n o = .ok ((enteredLines (until_ Leaves es)).map encode, es.any Leaves, o') ∧
      after c fuel ((until_ Leaves es).length + if es.any Leaves then 1 else 0) o = .ok o' := by
  refine loop_spec (fun l => ⟨?_, rfl, rfl⟩) ?_ ?_ h
  · simp [imNext, Result.canContinue, Result.canBreak, Event.str]
  · intro e he
    cases e with
    | line l => cases he
    | eof => rfl
    | interrupt l =>
      have : l = [] := by simpa [Leaves] using he
      subst this; rfl
  · intro e he hn
    cases e with
    | line l => exact absurd rfl (hn l)
    | eof => cases he
    | interrupt l =>
      have h0 : l ≠ [] := by simpa [Leaves] using he
      have h1 := mt (encode_nil_iff l).1 h0
      simp [imNext, Result.canContinue, Event.str, h1]

/-- C85: the loop of the demo is the same. -/
theorem C85_demo (r : Event) : demoNext r.str = imNext r.str := by
  cases r with
  | line l => simp [imNext, demoNext, Result.canContinue, Result.canBreak, Event.str]
  | eof => rfl
  | interrupt l =>
    by_cases h : (encode l).length = 0 <;> simp [imNext, demoNext, Result.canContinue, Result.canBreak, Event.str, h]

/-- C85: the loop of the package documentation ends at the first Ctrl-C or end of input, with `Readline` and with `ReadSlice`. -/
theorem C85_doc {c : OCfg} {fuel n : Nat} {o : Op} {es : List Event} (h : calls c fuel n o = .ok es) {get : Event → Result}
    (hg : get = Event.str ∨ get = Event.slice) :
    let p : Event → Bool := fun e => match e with | .line _ => false | _ => true
    ∃ o', loop c fuel get docNext n o = .ok ((enteredLines (until_ p es)).map encode, es.any p, o') ∧
      after c fuel ((until_ p es).length + if es.any p then 1 else 0) o = .ok o' := by
  intro p
  refine loop_spec (p := p) (fun l => ?_) ?_ ?_ h
  · rcases hg with rfl | rfl <;> exact ⟨rfl, rfl, rfl⟩
  · intro e he
    cases e with
    | line l => cases he
    | eof => rcases hg with rfl | rfl <;> rfl
    | interrupt l => rcases hg with rfl | rfl <;> rfl
  · intro e he hn
    cases e with
    | line l => exact absurd rfl (hn l)
    | eof => cases he
    | interrupt l => cases he

/-- C85 with C82: the keys of a study determine what the body of the loop gets. -/
theorem C85_study_partial {c : OCfg} (hf : Op.Friendly c) (hp : Op.Plain c) (hl : 0 < c.h.limit) {f : Completer} (ha : c.auto = some f) {w : Nat}
    {keys : List Rune} {b b' : Book} {ds ds' : List (List Rune)} {es : List Event}
    (hr : StudyRun (!c.noSave) ⟨⟨f, w, widthAll c.U, c.h.limit⟩, c.h.fold⟩ keys b ds es b' ds')
    {o : Op} {rest : List Rune} (h : Ready c o) (ht : o.Tidy) (hw : o.rb.width = w) (hs : Op.Shows c o b) (hd : o.hist.drafts = ds) (hi : o.inp = keys ++ rest)
    {fuel : Nat} (hfuel : keys.length < fuel) :
    ∃ o', loop c fuel Event.str imNext es.length o = .ok ((enteredLines (until_ Leaves es)).map encode, es.any Leaves, o') := by
  obtain ⟨_, h1, _⟩ := C82_session_partial hf hp hl ha hr h ht hw hs hd hi hfuel
  obtain ⟨o', h2, _⟩ := C85_line h1
  exact ⟨o', h2⟩

/-- C85 is false of `ReadSlice` ("same as readline"): the text that was there when Ctrl-C was typed is not returned, so the loop of the demo ends
where with `Readline` it goes on. -/
theorem C85_false_slice (l : List Rune) (h : l ≠ []) :
    (Event.interrupt l).slice ≠ (Event.interrupt l).str ∧ demoNext (Event.interrupt l).slice = .stop ∧ demoNext (Event.interrupt l).str = .skip := by
  have h1 := mt (encode_nil_iff l).1 h
  refine ⟨?_, rfl, ?_⟩
  · intro h2
    have h3 : ([] : List Nat) = encode l := congrArg Result.line h2
    rw [← h3] at h1; exact h1 rfl
  · simp [demoNext, Event.str, h1]

/-- A session: "a", Enter, "b", Ctrl-C, Enter, "c", Enter, Ctrl-C, and keys that are not read any more. -/
def keys85 : List Rune := [97, 13, 98, 3, 13, 99, 13, 3, 100, 13]

example : calls c0 20 6 (o0 keys85) = .ok [.line [97], .interrupt [98], .line [], .line [99], .interrupt [], .line [100]] := by decide +kernel

example : ((loop c0 20 Event.str imNext 6 (o0 keys85)).toOption.map fun q => (q.1, q.2.1, q.2.2.inp)) = some ([[97], [], [99]], true, [100, 13]) := by
  decide +kernel

example : ((loop c0 20 Event.str docNext 6 (o0 keys85)).toOption.map fun q => (q.1, q.2.1, q.2.2.inp)) = some ([[97]], true, [13, 99, 13, 3, 100, 13]) := by
  decide +kernel

end RL
