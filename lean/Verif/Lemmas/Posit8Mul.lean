import Verif.Lemmas.Posit8

/-! # The `opmul` table of posit8, checked in the kernel -/

namespace Verif.Posit8

theorem mul_ok : checkRows 8 256 mulChk opmulTab 256 = true := by decide +kernel

end Verif.Posit8
