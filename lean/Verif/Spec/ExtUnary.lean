import Verif.Spec.Extended

/-! # The absolute value of an extended number -/

namespace Verif

/-- the absolute value: the sign of a number or an infinity is dropped -/
def EV.abs : EV → EV
  | .num x => .num |x|
  | .inf _ => .inf false
  | .nan => .nan

end Verif
