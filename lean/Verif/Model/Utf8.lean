import Verif.Model.Go
/-!
# Go's conversions between runes and UTF-8 bytes

`[]byte(string(runes))` is used at /repo/history.go:122,316, /repo/operation.go:378,435 (`String`, `Slice`) and by every
`WriteString(string(...))`; `[]rune(string)` at /repo/history.go:86 and /repo/operation.go:38,500.  The rules are those of the Go
language specification (package `unicode/utf8`).  Bytes are natural numbers below 256.
-/

namespace RL

/-- A rune Go can encode: `utf8.ValidRune`. -/
def validRune (r : Rune) : Bool := (0 ≤ r && r < 0xD800) || (0xE000 ≤ r && r ≤ 0x10FFFF)

/-- `utf8.AppendRune` for a valid code point. -/
def encodeValid (n : Nat) : List Nat :=
  if n < 0x80 then [n]
  else if n < 0x800 then [0xC0 + n / 64, 0x80 + n % 64]
  else if n < 0x10000 then [0xE0 + n / 4096, 0x80 + n / 64 % 64, 0x80 + n % 64]
  else [0xF0 + n / 262144, 0x80 + n / 4096 % 64, 0x80 + n / 64 % 64, 0x80 + n % 64]

/-- `utf8.AppendRune`: invalid runes are encoded as U+FFFD. -/
def encodeRune (r : Rune) : List Nat := encodeValid (if validRune r then r.toNat else 0xFFFD)

/-- `[]byte(string(runes))`. -/
def encode : List Rune → List Nat
  | [] => []
  | r :: rs => encodeRune r ++ encode rs

/-- Continuation byte. -/
def contByte (b : Nat) : Bool := 0x80 ≤ b && b ≤ 0xBF

/-- `acceptRanges` of package utf8: allowed range of the second byte after leading byte `b0`. -/
def secondOK (b0 b1 : Nat) : Bool :=
  if b0 = 0xE0 then 0xA0 ≤ b1 && b1 ≤ 0xBF
  else if b0 = 0xED then 0x80 ≤ b1 && b1 ≤ 0x9F
  else if b0 = 0xF0 then 0x90 ≤ b1 && b1 ≤ 0xBF
  else if b0 = 0xF4 then 0x80 ≤ b1 && b1 ≤ 0x8F
  else contByte b1

/-- `utf8.DecodeRune`: the first rune and the number of bytes it takes (U+FFFD and 1 for an invalid byte). -/
def decodeRune : List Nat → Rune × Nat
  | [] => (0xFFFD, 0)
  | b0 :: rest =>
    if b0 < 0x80 then (b0, 1)
    else
      match rest with
      | [] => (0xFFFD, 1)
      | b1 :: rest =>
        if 0xC2 ≤ b0 ∧ b0 ≤ 0xDF ∧ contByte b1 then (((b0 - 0xC0) * 64 + (b1 - 0x80) : Nat), 2)
        else
          match rest with
          | [] => (0xFFFD, 1)
          | b2 :: rest =>
            if 0xE0 ≤ b0 ∧ b0 ≤ 0xEF ∧ secondOK b0 b1 ∧ contByte b2 then
              (((b0 - 0xE0) * 4096 + (b1 - 0x80) * 64 + (b2 - 0x80) : Nat), 3)
            else
              match rest with
              | [] => (0xFFFD, 1)
              | b3 :: _ =>
                if 0xF0 ≤ b0 ∧ b0 ≤ 0xF4 ∧ secondOK b0 b1 ∧ contByte b2 ∧ contByte b3 then
                  (((b0 - 0xF0) * 262144 + (b1 - 0x80) * 4096 + (b2 - 0x80) * 64 + (b3 - 0x80) : Nat), 4)
                else (0xFFFD, 1)

/-- `[]rune(string(bytes))`; the first argument counts bytes already consumed. -/
def decodeGo : Nat → List Nat → List Rune
  | _, [] => []
  | k + 1, _ :: bs => decodeGo k bs
  | 0, b :: bs => (decodeRune (b :: bs)).1 :: decodeGo ((decodeRune (b :: bs)).2 - 1) bs

/-- `[]rune(string(bytes))`. -/
def decode (bs : List Nat) : List Rune := decodeGo 0 bs

end RL
