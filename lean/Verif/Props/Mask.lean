import Verif.Proofs.Mask
import Verif.Spec.Concrete
/-! # C18: masked input does not reach the screen -/

namespace RL
open Spec RB

/-- The session `cs'` does the same as `cs` with other texts. -/
def SameKinds (U : UTables) : List Cmd → List Cmd → Prop := All2 (SameKind U)

/-- C18.  With the mask on, two editing sessions that insert texts of the same shape (same number of runes, same widths,
newlines at the same places) and otherwise do the same write exactly the same to the terminal (and fail in the same way,
if they fail).  `d` is any configuration with the mask on, whatever mask rune and painter. -/
theorem C18_mask_session (U : UTables) (d : DCfg) (hm : d.enableMask = true) (cs cs' : List Cmd) (r : RB)
    (hcs : SameKinds U cs cs') :
    match runCmds U d cs r, runCmds U d cs' r with
    | .ok a, .ok b => a.out = b.out
    | .error e, .error e' => e = e'
    | _, _ => False := by
  have hrefl : ∀ s : List Rune, SameShape U s s := by
    intro s
    induction s with
    | nil => exact .nil
    | cons a s ih => exact .cons ⟨rfl, Iff.rfl⟩ ih
  have hr : Alike U r r := ⟨hrefl _, hrefl _, rfl, rfl, rfl, rfl, rfl, rfl⟩
  have main : ∀ s, Alike U r s → RRel (Alike U) (runCmds U d cs r) (runCmds U d cs' s) := by
    clear hr
    unfold SameKinds at hcs
    induction hcs generalizing r with
    | nil => intro s h; exact h
    | cons h1 _ ih =>
      intro s h
      exact (sameKind_apply hm h h1).bind fun a b hab => ih a b hab
  have := main r hr
  cases h1 : runCmds U d cs r <;> cases h2 : runCmds U d cs' r <;> rw [h1, h2] at this
  · exact this
  · exact this.elim
  · exact this.elim
  · exact this.out

/-- C18 for a single redraw: what is drawn for a masked line is determined by the shape of the line. -/
theorem C18_mask_output (U : UTables) (d : DCfg) (hm : d.enableMask = true) (r : RB) (t : List Rune)
    (h : SameShape U r.buf t) :
    RB.output U d { r with buf := t } = r.output U d := by
  have hrefl : ∀ s : List Rune, SameShape U s s := by
    intro s
    induction s with
    | nil => exact .nil
    | cons a s ih => exact .cons ⟨rfl, Iff.rfl⟩ ih
  have : Alike U r { r with buf := t } := ⟨h, hrefl _, rfl, rfl, rfl, rfl, rfl, rfl⟩
  exact (this.output hm).symm

/-- Mask `*`, default painter. -/
def dmask : DCfg := { enableMask := true, maskRune := 42, painter := some defaultPainter }

/-- The restriction to texts of the same cell widths is needed: double-width runes in the password change what is
written (the prompt has 1 column, the terminal 4). -/
theorem C18_width_leak :
    (runCmds U0 dmask [.insert [97, 98], .left] (RB.new [62] true 4)).toOption.map RB.out ≠
      (runCmds U0 dmask [.insert [0x4e00, 0x4e01], .left] (RB.new [62] true 4)).toOption.map RB.out ∧
    (runCmds U0 dmask [.insert [97, 98], .left] (RB.new [62] true 4)).isOk ∧
    (runCmds U0 dmask [.insert [0x4e00, 0x4e01], .left] (RB.new [62] true 4)).isOk := by
  decide

-- two passwords "abc" and "xyz", one cursor motion: the hypotheses hold
example : SameKinds U0 [.insert [97, 98, 99], .left] [.insert [120, 121, 122], .left] :=
  .cons (.insert (.cons (by simp [LooksSame, runeWidth, U0, CharTab]) (.cons (by simp [LooksSame, runeWidth, U0, CharTab])
    (.cons (by simp [LooksSame, runeWidth, U0, CharTab]) .nil)))) (.cons .left .nil)

end RL
