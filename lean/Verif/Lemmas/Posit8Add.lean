import Verif.Lemmas.Posit8

/-! # The `opadd` table of posit8, checked in the kernel -/

namespace Verif.Posit8

theorem add_ok : checkRows 8 256 addChk opaddTab 256 = true := by decide +kernel

end Verif.Posit8
