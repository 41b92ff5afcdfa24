import Verif.Model.VimSwitch
/-! What switching vim mode should do: the program has a current configuration, `SetVimMode` changes it, and its field `VimMode`
says what is the case.  Nothing here knows about the four pointers. -/

namespace RL.Spec

/-- The configurations' fields and the current configuration. -/
def vimState (vim : Nat → Bool) (cur : Nat) : List VSw.Act → (Nat → Bool) × Nat
  | [] => (vim, cur)
  | .setVim on :: as => vimState (fun k => if k = cur then on else vim k) cur as
  | .assign c on :: as => vimState (fun k => if k = c then on else vim k) cur as
  | .setConfig c :: as => vimState vim c as
  | .enter _ :: as => vimState vim cur as
  | .leave :: as => vimState vim cur as
  | .keys _ :: as => vimState vim cur as

/-- What the program has asked for. -/
def vimWanted (vim : Nat → Bool) (cur : Nat) (as : List VSw.Act) : Bool :=
  (vimState vim cur as).1 (vimState vim cur as).2

/-- The last value written to the configuration `c`, when `SetVimMode` always writes to `c`. -/
def vimWritten (b : Bool) (c : Nat) : List VSw.Act → Bool
  | [] => b
  | .setVim on :: as => vimWritten on c as
  | .assign d on :: as => vimWritten (if d = c then on else b) c as
  | _ :: as => vimWritten b c as

/-- The argument of the last `SetConfig`. -/
def vimLast (c : Nat) : List VSw.Act → Nat
  | [] => c
  | .setConfig d :: as => vimLast d as
  | _ :: as => vimLast c as

end RL.Spec
