import Verif.Model.Utf8
/-!
# /repo/rawreader_windows.go : the keyboard of the Windows console

`ReadConsoleInputW` delivers one event after the other; it does not fail.  The buffer given to `Read` has room for an ESC and a character
(5 bytes); the terminal's `bufio.Reader` has 4096.
-/

namespace RL.Win

/-- `_INPUT_RECORD` with `_KEY_EVENT_RECORD` (/repo/windows_api.go:49-76).  `key` says whether `EventType` is `EVENT_KEY`; `ch` is `unicodeChar`. -/
structure Ev where
  key : Bool := true
  down : Bool := true
  rep : Nat := 1
  vk : Nat := 0
  ch : Nat := 0
deriving DecidableEq

/-- /repo/rawreader_windows.go:29-32 `RawReader` -/
structure RawReader where
  ctrlKey : Bool := false
  altKey : Bool := false

/-- Virtual key codes (/repo/rawreader_windows.go:7-25). -/
def VK_BACK : Nat := 8
def VK_MENU : Nat := 0x12
def VK_LEFT : Nat := 0x25
def VK_UP : Nat := 0x26
def VK_RIGHT : Nat := 0x27
def VK_DOWN : Nat := 0x28
def VK_LCONTROL : Nat := 0xA2
def VK_RCONTROL : Nat := 0xA3

namespace RawReader

/-- /repo/rawreader_windows.go:118-121 `write` -/
def put (c : Rune) : List Nat := encode [c]

/-- /repo/rawreader_windows.go:112-116 `writeEsc` -/
def putEsc (c : Rune) : List Nat := 27 :: encode [c]

/-- One event (/repo/rawreader_windows.go:44-109): the new state, and the bytes if `Read` returns (`none` is `goto next`). -/
def event (r : RawReader) (e : Ev) : RawReader × Option (List Nat) :=
  if e.key = false then (r, none)
  else if e.down = false then
    if r.ctrlKey ∨ r.altKey then
      if e.vk = VK_RCONTROL ∨ e.vk = VK_LCONTROL then ({ r with ctrlKey := false }, none)
      else if e.vk = VK_MENU then ({ r with altKey := false }, none)
      else (r, none)
    else (r, none)
  else if e.ch = 0 then
    let r' := if e.vk = VK_RCONTROL ∨ e.vk = VK_LCONTROL then { r with ctrlKey := true }
      else if e.vk = VK_MENU then { r with altKey := true } else r
    let target : Rune := if e.vk = VK_LEFT then 2 else if e.vk = VK_RIGHT then 6 else if e.vk = VK_UP then 16 else if e.vk = VK_DOWN then 14 else 0
    if target ≠ 0 then (r', some (put target)) else (r', none)
  else
    let char : Rune := e.ch
    if r.ctrlKey then
      let char := if char = 65 then 1 else if char = 69 then 5 else if char = 82 then 18 else if char = 83 then 19 else char
      (r, some (put char))
    else if r.altKey then (r, some (putEsc (if char = VK_BACK then 127 else char)))
    else (r, some (put char))

/-- /repo/rawreader_windows.go:40-110 `Read`, called again and again: the reads, one after the other. -/
def reads (r : RawReader) : List Ev → List (List Nat)
  | [] => []
  | e :: es =>
    match r.event e with
    | (r, none) => r.reads es
    | (r, some b) => b :: r.reads es

end RawReader
end RL.Win
