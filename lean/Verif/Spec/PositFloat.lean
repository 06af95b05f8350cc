import Verif.Spec.EmuFloat
import Verif.Spec.ExtConvert

/-! # Posits computed by native floats (specification) -/

namespace Verif

/-- a float that stands for the number `Y` as an extended number -/
def XNum.toEV : XNum → EV
  | .num x => .num x
  | .inf s => .inf s
  | .nan => .nan

/-- `Y` is the extended number `X` cut down to a float format (to zero below the normal range) -/
def FloatOf (eb fb : ℕ) : EV → XNum → Prop
  | .num x, Y => ∃ b, IsCut eb fb x b ∧ ieee eb fb b = Y
  | .inf s, Y => Y = .inf s
  | .nan, Y => Y = .nan

end Verif
