import Verif.Model.Config
import Verif.Spec.Format

/-! # The posit format a configuration is meant to implement -/

namespace Verif

/-- the format of `Posit<T,N,es,FT,spec>`: with `WithNanInf` the two patterns next to the top one are the infinities
(include/posit.h:31-38) -/
def Cfg.fmt (c : Cfg) : Fmt.Format := ⟨c.N, c.es, c.spec = .withNanInf⟩

end Verif
