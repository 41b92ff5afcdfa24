import Verif.Model.Operation
import Verif.Model.Utf8
/-! Model of the program /repo/example/readline-multiline/readline-multiline.go:9-41, which reads commands of several lines. -/

namespace RL

/-- `strings.TrimSpace` on a text. -/
def trimSpace (s : List Rune) : List Rune := (trimSpaceLeft (trimSpaceLeft s).reverse).reverse

/-- `strings.Join(cmds, " ")` -/
def joinSpace : List (List Rune) → List Rune
  | [] => []
  | [t] => t
  | t :: ts => t ++ 32 :: joinSpace ts

/-- The prompts `"> "` and `">>> "`. -/
def prompt1 : List Rune := [62, 32]
def prompt2 : List Rune := [62, 62, 62, 32]

/-- /repo/operation.go:92-94 `SetPrompt`. -/
def Op.setPrompt (p : List Rune) (o : Op) : Op := { o with rb := o.rb.setPrompt p }

/-- /repo/operation.go:496-501 `SaveHistory`. -/
def Op.saveHistory (c : OCfg) (t : List Rune) (o : Op) : R Op := do
  let h ← o.hist.new c.h t
  .ok { o with hist := h }

/-- The loop, lines 21-41 (at most `n` calls of `Readline`): the commands printed, whether the loop has ended, and the state then.  `Readline`
returns the runes of the line as a string (/repo/operation.go:376-379); `SaveHistory` takes the runes of a string. -/
def multiline (c : OCfg) (fuel : Nat) : Nat → List (List Rune) → Op → R (List (List Rune) × Bool × Op)
  | 0, _, o => .ok ([], false, o)
  | n + 1, cmds, o => do
    let (e, o) ← o.readline c fuel
    match e with
    | .line l =>
      let line := trimSpace (decode (encode l))
      if line.length = 0 then multiline c fuel n cmds o
      else
        let cmds := cmds ++ [line]
        if ¬ line.getLast? = some 59 then multiline c fuel n cmds (o.setPrompt prompt2)
        else do
          let cmd := joinSpace cmds
          let o ← (o.setPrompt prompt1).saveHistory c cmd
          let (out, b, o) ← multiline c fuel n [] o
          .ok (cmd :: out, b, o)
    | _ => .ok ([], true, o)

end RL
