import Verif.Num.Dbl
import Mathlib.Analysis.SpecialFunctions.Pow.Real

/-!
# Arithmetic the numerical code is written in

The optimizers compute with `double`. Their models are written for any `Arith K`, so that a theorem can be about the floating-point
program (`K = Dbl`: IEEE rounding, overflow, NaN) or about the same program in exact arithmetic (`K = ℝ`), whichever the property is
about. No source in /repo.
-/

namespace Spot

/-- The operations on `double` used by the code. `lit` is a literal or an integer converted to `double`; comparisons are `Bool` valued
because with NaN they are not complementary; `trunc` is the conversion `(int)x`, `none` if the value does not fit (undefined behaviour). -/
class Arith (K : Type) extends Add K, Sub K, Mul K, Div K, Neg K where
  lit : ℚ → K
  lt : K → K → Bool
  le : K → K → Bool
  eq : K → K → Bool
  sqrt : K → K
  exp : K → K
  log : K → K
  pow : K → K → K
  ceil : K → K
  trunc : K → Option Int
  /-- spot/search_point.cpp:102-108 `rounded`. -/
  round8 : K → K

export Arith (lit)

/-- The values of `int`. -/
def fitsInt (z : Int) : Prop := -2147483648 ≤ z ∧ z ≤ 2147483647

instance (z : Int) : Decidable (fitsInt z) := inferInstanceAs (Decidable (_ ∧ _))

/-- `if` on a C++ comparison, written `c ? a : b`. -/
def sel {α : Type} (c : Bool) (a b : α) : α := if c then a else b

section
variable {K : Type} [Arith K]

/-- `std::fabs`. -/
def Arith.abs (x : K) : K := if Arith.lt x (lit 0) then -x else x
/-- `std::min( a, b )`: `b < a ? b : a`. -/
def Arith.min (a b : K) : K := if Arith.lt b a then b else a
/-- `std::max( a, b )`: `a < b ? b : a`. -/
def Arith.max (a b : K) : K := if Arith.lt a b then b else a
/-- `xo::squared` (xo, assumed). -/
def squared (x : K) : K := x * x

/-- The loop `s = 0; for ( i = 0; i < n; ++i ) s += f( i )`. -/
def sumLoop (n : Nat) (f : Nat → K) : K := (List.range n).foldl (fun s i => s + f i) (lit 0)

/-- The same over the coordinates of a vector. -/
def sumFin {n : Nat} (f : Fin n → K) : K := (List.finRange n).foldl (fun s i => s + f i) (lit 0)

end

/-- Exact arithmetic. The conversion to `int` is undefined outside its range, as in C++; points are not rounded. -/
noncomputable instance : Arith ℝ where
  lit q := (q : ℝ)
  lt a b := decide (a < b)
  le a b := decide (a ≤ b)
  eq a b := decide (a = b)
  sqrt := Real.sqrt
  exp := Real.exp
  log := Real.log
  pow a b := a ^ b
  ceil x := (⌈x⌉ : ℤ)
  trunc x :=
    let z := if 0 ≤ x then ⌊x⌋ else ⌈x⌉
    if fitsInt z then some z else none
  round8 := id

namespace Dbl

/-- IEEE division (one zero only: the sign of an infinite quotient is that of the dividend). -/
def div : Dbl → Dbl → Dbl
  | nan, _ => nan
  | _, nan => nan
  | fin a, fin b => if b = 0 then infSign a else ofQ (a / b)
  | fin _, _ => fin 0
  | pinf, fin b => if b < 0 then ninf else pinf
  | ninf, fin b => if b < 0 then pinf else ninf
  | _, _ => nan

end Dbl

/-- The functions of the C mathematical library. Nothing is assumed about them unless a theorem says so. -/
class Libm where
  sqrt : Dbl → Dbl
  exp : Dbl → Dbl
  log : Dbl → Dbl
  pow : Dbl → Dbl → Dbl

/-- Floating-point arithmetic. `round8` is spot/search_point.cpp:102-108 (the same definition as `Spot.rounded`). -/
instance [Libm] : Arith Dbl where
  add := Dbl.add
  sub := Dbl.sub
  mul := Dbl.mul
  div := Dbl.div
  neg := Dbl.neg
  lit q := Dbl.ofQ q
  lt := Dbl.lt
  le := Dbl.le
  eq := Dbl.eq
  sqrt := Libm.sqrt
  exp := Libm.exp
  log := Libm.log
  pow := Libm.pow
  ceil x := match x with
    | .fin q => .fin ⌈q⌉
    | x => x
  trunc x := match x with
    | .fin q =>
      let z := if 0 ≤ q then ⌊q⌋ else ⌈q⌉
      if fitsInt z then some z else none
    | _ => none
  round8 x := match x with
    | .fin q => .fin (bin64 (dec8 q))
    | _ => .fin 0

end Spot
