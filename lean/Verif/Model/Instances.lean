import Verif.Model.Config

/-! # Instantiations used in the repository, for the examples -/

namespace Verif

/-- `Posit<int8_t,8,0,uint8_t,PositSpec::WithNan>` — include/posit8.hpp / the posit8 tables. -/
def P8 : Cfg := ⟨8, 8, 0, 8, .withNan⟩
/-- `Posit<int8_t,8,0,uint16_t,PositSpec::WithNan>` — a fraction type that holds full products. -/
def P8h : Cfg := ⟨8, 8, 0, 16, .withNan⟩
/-- `Posit<int16_t,16,0,uint32_t,PositSpec::WithNan>`. -/
def P16h : Cfg := ⟨16, 16, 0, 32, .withNan⟩
/-- `Posit<int8_t,8,2,uint8_t,PositSpec::WithNanInf>` — used by the tests. -/
def P8i : Cfg := ⟨8, 8, 2, 8, .withNanInf⟩
/-- `Posit<int16_t,6,0,uint8_t,PositSpec::WithNan>` — a posit narrower than its holder. -/
def P6 : Cfg := ⟨16, 6, 0, 8, .withNan⟩
/-- `Posit<int16_t,12,1,uint16_t,PositSpec::WithNan>`. -/
def P12 : Cfg := ⟨16, 12, 1, 16, .withNan⟩
/-- `Posit<int16_t,16,2,uint16_t,PositSpec::WithInf>` — the old `false` spelling of the last argument. -/
def P16 : Cfg := ⟨16, 16, 2, 16, .withInf⟩
/-- `Posit<int32_t,28,5,uint32_t,PositSpec::WithNan>`. -/
def P28 : Cfg := ⟨32, 28, 5, 32, .withNan⟩
/-- `Posit<int32_t,32,3,uint32_t,PositSpec::WithNan>`. -/
def P32 : Cfg := ⟨32, 32, 3, 32, .withNan⟩
/-- `Posit<int32_t,32,0,uint64_t,PositSpec::WithNan>`. -/
def P32z : Cfg := ⟨32, 32, 0, 64, .withNan⟩
/-- `Posit<int32_t,32,1,uint64_t,PositSpec::WithNan>`. -/
def P32w : Cfg := ⟨32, 32, 1, 64, .withNan⟩
/-- `Posit<int64_t,60,2,uint64_t,PositSpec::WithNanInf>`. -/
def P60 : Cfg := ⟨64, 60, 2, 64, .withNanInf⟩

end Verif
