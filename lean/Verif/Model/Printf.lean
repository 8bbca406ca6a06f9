import Verif.Model.Strtod

/-!
# Printing a double with 8 significant digits (`std::setprecision( 8 )`, C library `%.8g`)

spot/search_point.cpp:105, 120 print values this way. C11 7.21.6.1: with precision 8 the value is rounded to 8 significant
digits; with decimal exponent X of the rounded value, fixed notation is used if -4 <= X < 8 and scientific notation otherwise;
trailing zeros of the fraction, and a point without fraction, are removed; an exponent has at least two digits. Negative zero is
not modelled.
-/

namespace Spot

/-- The decimal digit `d < 10`. -/
def digChar (d : ℕ) : Char := Char.ofNat (48 + d)

/-- The `k` lowest decimal digits of `n`. -/
def digitsN : ℕ → ℕ → Str
  | 0, _ => []
  | k + 1, n => digitsN k (n / 10) ++ [digChar (n % 10)]

/-- Remove trailing zeros. -/
def stripZeros (s : Str) : Str := (s.reverse.dropWhile (· = '0')).reverse

/-- A point and the fraction, or nothing if the fraction is zero. -/
def fracText (f : Str) : Str := if stripZeros f = [] then [] else '.' :: stripZeros f

/-- 8-digit mantissa and exponent of a positive number: `n * 10^(x-7)`. -/
def mantissa8 (q : ℚ) : ℕ × ℤ :=
  let e := Int.log 10 q
  let n := (rhe (q / (10 : ℚ) ^ (e - 7))).toNat
  if n = 10 ^ 8 then (10 ^ 7, e + 1) else (n, e)

/-- An exponent: sign and at least two digits. -/
def expText (x : ℤ) : Str :=
  'e' :: (if x < 0 then '-' else '+') :: digitsN (max 2 (Nat.log 10 x.natAbs + 1)) x.natAbs

/-- `%.8g` of a positive number. -/
def fmtPos (q : ℚ) : Str :=
  let (n, x) := mantissa8 q
  let ds := digitsN 8 n
  if -4 ≤ x ∧ x < 8 then
    if 0 ≤ x then ds.take (x.toNat + 1) ++ fracText (ds.drop (x.toNat + 1))
    else '0' :: fracText (List.replicate (-x - 1).toNat '0' ++ ds)
  else ds.take 1 ++ fracText (ds.drop 1) ++ expText x

/-- `%.8g`. -/
def fmt8 : Dbl → Str
  | .nan => "nan".toList
  | .pinf => "inf".toList
  | .ninf => "-inf".toList
  | .fin q => if q = 0 then "0".toList else if q < 0 then '-' :: fmtPos (-q) else fmtPos q

end Spot
