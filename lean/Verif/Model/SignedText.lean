import Verif.Model.Printf
import Verif.Num.SDbl

/-! # Printing and reading numbers with both zeros -/

namespace Spot

/-- `%.8g` (spot/search_point.cpp:105, 120): the sign of a negative zero is printed. -/
def fmt8S : SDbl → Str
  | .nzero => "-0".toList
  | .of d => fmt8 d

/-- `strtod`: `-0` is a negative zero, as is a negative number that underflows. -/
def strtodS (s : Str) : Option (SDbl × Str) := (strtod s).map fun p => (SDbl.withSign (readSign s).1 p.1, p.2)

end Spot
