import Verif.Model.RuneBuf
/-!
# The editing commands of `RuneBuffer` as data

`Cmd.apply` calls the corresponding method of /repo/runebuf.go; a program using the buffer is a list of commands.
-/

namespace RL

/-- One call of an editing method of `RuneBuffer`. -/
inductive Cmd where
  /-- `WriteRunes` / `WriteString` / `WriteRune` -/
  | insert (s : List Rune)
  /-- `Backspace` -/
  | backspace
  /-- `Delete` -/
  | delete
  /-- `MoveBackward` -/
  | left
  /-- `MoveForward` -/
  | right
  /-- `MoveToLineStart` -/
  | home
  /-- `MoveToLineEnd` -/
  | toEnd
  /-- `Kill` -/
  | kill
  /-- `KillFront` -/
  | killFront
  /-- `Erase` -/
  | erase
  /-- `Yank` -/
  | yank
  /-- `DeleteWord` -/
  | deleteWord
  /-- `BackEscapeWord` -/
  | backEscapeWord
  /-- `MoveToPrevWord` -/
  | prevWord
  /-- `MoveToNextWord` -/
  | nextWord
  /-- `MoveToEndWord` -/
  | endWord
  /-- `Transpose` -/
  | transpose
  /-- `Replace` -/
  | replace (c : Rune)
  /-- `MoveTo` -/
  | moveTo (c : Rune) (prevChar reverse : Bool)
  /-- `Set` -/
  | set (s : List Rune)
  /-- `Backup` -/
  | backup
  /-- `Restore` -/
  | restore
deriving DecidableEq, Repr

/-- Run one command (the methods of /repo/runebuf.go:48-62, 139-418, 581-583). -/
def Cmd.apply (U : UTables) (d : DCfg) : Cmd → RB → R RB
  | .insert s, r => r.writeRunes U d s
  | .backspace, r => r.backspace U d
  | .delete, r => (·.2) <$> r.delete U d
  | .left, r => r.moveBackward U d
  | .right, r => r.moveForward U d
  | .home, r => r.moveToLineStart U d
  | .toEnd, r => r.moveToLineEnd U d
  | .kill, r => r.kill U d
  | .killFront, r => r.killFront U d
  | .erase, r => r.erase U d
  | .yank, r => r.yank U d
  | .deleteWord, r => r.deleteWord U d
  | .backEscapeWord, r => r.backEscapeWord U d
  | .prevWord, r => r.moveToPrevWord U d
  | .nextWord, r => r.moveToNextWord U d
  | .endWord, r => r.moveToEndWord U d
  | .transpose, r => r.transpose U d
  | .replace c, r => r.replace U d c
  | .moveTo c p b, r => (·.2) <$> r.moveTo U d c p b
  | .set s, r => r.set U d s
  | .backup, r => .ok r.backup
  | .restore, r => r.restore U d

/-- Run a sequence of commands. -/
def runCmds (U : UTables) (d : DCfg) : List Cmd → RB → R RB
  | [], r => .ok r
  | c :: cs, r => do
    let r ← c.apply U d r
    runCmds U d cs r

end RL
