import Verif.Lemmas.Posit8

/-! # The `opdiv` table of posit8, checked in the kernel -/

namespace Verif.Posit8

theorem div_ok : checkRows 8 256 divChk opdivTab 256 = true := by decide +kernel

end Verif.Posit8
