import Mathlib.Data.Rat.Floor
import Mathlib.Data.Int.Log

/-!
# Rounding to a floating-point grid

No source in /repo: this is the arithmetic of the C++ runtime (`double`, `printf("%.8g")`, `strtod`) that
`spot/search_point.cpp:102-108` (`search_point::rounded`) and every `par_t` / `fitness_t` computation rely on.
The correct rounding of both conversions (IEEE 754, glibc/libstdc++) is part of the trusted base.
-/

namespace Spot

/-- Round a rational to the nearest integer, ties to even. -/
def rhe (x : ℚ) : ℤ :=
  let f := ⌊x⌋
  let r := x - f
  if r < 1 / 2 then f
  else if 1 / 2 < r then f + 1
  else if f % 2 = 0 then f else f + 1

/-- Round `q` to a grid in base `b` whose spacing is `b ^ fexp e` for `b^e ≤ |q| < b^(e+1)`, nearest, ties to even. -/
def rnd (b : ℕ) (fexp : ℤ → ℤ) (q : ℚ) : ℚ :=
  let k := fexp (Int.log b |q|)
  rhe (q / (b : ℚ) ^ k) * (b : ℚ) ^ k

/-- Exponent function of 8 significant digits (unbounded exponent range), as printed by `std::setprecision(8)`. -/
def fexpDec8 (e : ℤ) : ℤ := e - 7

/-- Exponent function of IEEE binary64 (53 bits, gradual underflow at `2^-1074`). -/
def fexp64 (e : ℤ) : ℤ := max (e - 52) (-1074)

/-- The decimal number printed for `q` with 8 significant digits. -/
def dec8 (q : ℚ) : ℚ := rnd 10 fexpDec8 q

/-- Nearest binary64 value ignoring overflow. -/
def bin64 (q : ℚ) : ℚ := rnd 2 fexp64 q

/-- `q` is a finite binary64 number (value of some finite C++ `double`). -/
def IsDouble (q : ℚ) : Prop := bin64 q = q ∧ |q| < 2 ^ 1024

instance (q : ℚ) : Decidable (IsDouble q) := inferInstanceAs (Decidable (_ ∧ _))

end Spot
