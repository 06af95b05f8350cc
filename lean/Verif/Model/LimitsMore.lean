import Verif.Model.Config

/-! # `std::numeric_limits<Posit>::digits10` — include/posit.h:936 -/

namespace Verif.Posit

/-- `numeric_limits::digits10` — include/posit.h:936: `((totalbits-3)*30000)/100000`, an `int` -/
def digits10 (c : Cfg) : Int := (((c.N : Int) - 3) * 30000).tdiv 100000

end Verif.Posit
