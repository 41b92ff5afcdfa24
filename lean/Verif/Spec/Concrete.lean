import Verif.Model.Cmd
/-! Concrete parameters used in non-vacuity examples and in counterexamples. -/

namespace RL

/-- A small stand-in for the Unicode tables: control characters have no width, the main CJK blocks are double width. -/
def U0 : UTables where
  zero r := (0 ≤ r && r < 32) || (127 ≤ r && r < 160) || (0x300 ≤ r && r < 0x370)
  dbl r := (0x3040 ≤ r && r ≤ 0x30ff) || (0x4e00 ≤ r && r ≤ 0x9fff) || (0xac00 ≤ r && r ≤ 0xd7a3)
  number r := 48 ≤ r && r ≤ 57
  tabWidth := 4

/-- No mask, default painter. -/
def d0 : DCfg := { enableMask := false, maskRune := 0, painter := some defaultPainter }

end RL
