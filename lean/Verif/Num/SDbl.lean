import Verif.Num.Arith

/-!
# C++ `double` values with both zeros

The numbers of Num/Dbl with a second zero. IEEE 754 (6.3): the sign of a product or quotient is the exclusive or of the signs; a sum that is exactly zero is `+0` unless both terms
are negative (rounding to nearest); comparisons ignore the sign of zero; the square root of `-0` is `-0`. `exp`, `log` and `pow` do not occur in the code this is used for (MES and EVA).
-/

namespace Spot

/-- A `double`: `-0.0`, or one of the numbers of `Dbl`, where `fin 0` is `+0.0`. -/
inductive SDbl
  | nzero
  | of (d : Dbl)
deriving DecidableEq, Repr

namespace SDbl

/-- The number, whichever zero. -/
def erase : SDbl → Dbl
  | nzero => .fin 0
  | of d => d

/-- `std::signbit` (of a NaN it does not matter). -/
def sign : SDbl → Bool
  | nzero => true
  | of .ninf => true
  | of (.fin q) => decide (q < 0)
  | of _ => false

/-- The number, if zero with the given sign. -/
def withSign (neg : Bool) (d : Dbl) : SDbl := if d = .fin 0 then (if neg then nzero else of (.fin 0)) else of d

/-- Unary minus. -/
def neg (x : SDbl) : SDbl := withSign (!x.sign) (Dbl.neg x.erase)

/-- `a + b`. -/
def add (a b : SDbl) : SDbl := withSign (a.sign && b.sign) (Dbl.add a.erase b.erase)

/-- `a - b`. -/
def sub (a b : SDbl) : SDbl := add a (neg b)

/-- `a * b`. -/
def mul (a b : SDbl) : SDbl := withSign (a.sign ^^ b.sign) (Dbl.mul a.erase b.erase)

/-- `a / b`. -/
def div (a b : SDbl) : SDbl :=
  if b.erase = .fin 0 then
    if a.erase = .nan ∨ a.erase = .fin 0 then of .nan else if a.sign ^^ b.sign then of .ninf else of .pinf
  else withSign (a.sign ^^ b.sign) (Dbl.div a.erase b.erase)

end SDbl

/-- IEEE arithmetic with both zeros. `round8` is spot/search_point.cpp:102-108: `%.8g` prints the sign of zero and `strtod` reads it. -/
instance [Libm] : Arith SDbl where
  add := SDbl.add
  sub := SDbl.sub
  mul := SDbl.mul
  div := SDbl.div
  neg := SDbl.neg
  lit q := SDbl.withSign (decide (q < 0)) (Dbl.ofQ q)
  lt a b := Dbl.lt a.erase b.erase
  le a b := Dbl.le a.erase b.erase
  eq a b := Dbl.eq a.erase b.erase
  sqrt x := SDbl.withSign x.sign (Libm.sqrt x.erase)
  exp x := .of (Libm.exp x.erase)
  log x := .of (Libm.log x.erase)
  pow x y := .of (Libm.pow x.erase y.erase)
  ceil x := SDbl.withSign x.sign (Arith.ceil x.erase)
  trunc x := Arith.trunc x.erase
  round8 x := SDbl.withSign (x.erase.isFin && x.sign) (Arith.round8 x.erase)

end Spot
