import Verif.Model.ParTools
import Verif.Num.Arith

/-!
# spot/par_tools.h:8-15, 19-75: parameters of other types than `double`

`try_get_par< T >` requests a `par_t` (`double`) and converts it: `T( ps.get( ... ) )`. `conv` is that conversion, `.ub` where C++ leaves it undefined. The macros `INIT_PAR...` (lines 8-15) call
`try_get_par` with the type of the variable and convert the result to that type again, which changes nothing.
-/

namespace Spot

variable {σ T : Type}

/-- Conversion of a `double` to `int`: discards the fraction; undefined if the result does not fit. -/
def toInt : Dbl → Res Int
  | .fin q =>
    let z := if 0 ≤ q then ⌊q⌋ else ⌈q⌉
    if fitsInt z then .ok z else .ub
  | _ => .ub

/-- Conversion of a `double` to `bool`. -/
def toBool : Dbl → Res Bool
  | .fin q => .ok (decide (q ≠ 0))
  | _ => .ok true

/-- Conversions from `int` and `bool` to `double` (spot/par_tools.h:36: `par_t( mean ), std, lower, upper`), exact. -/
def ofInt (z : Int) : Dbl := .fin z
def ofBool (b : Bool) : Dbl := if b then .fin 1 else .fin 0

/-- The conversion is applied to what the request returns. -/
def converted (conv : Dbl → Res T) (r : σ × Res Dbl) : σ × Res T := (r.1, r.2 >>= conv)

/-- spot/par_tools.h:19-27 `try_get_par( ps, name, pn, def )`. -/
def tryGetParAs (conv : Dbl → Res T) (B : Backend σ) (env : Env) (io : IOState) (s : σ) (name : Str) (child query : Option PNode) (dflt : T) : σ × Res T :=
  match child with
  | some p => converted conv (getNode B env io s name p)
  | none => match query with
    | some p => converted conv (getNode B env io s name p)
    | none => (s, .ok dflt)

/-- spot/par_tools.h:29-37 `try_get_par( ps, name, pn, mean, std, lower, upper )`; `back` is the conversion from `T` to `par_t`. -/
def tryGetParNumAs (conv : Dbl → Res T) (back : T → Dbl) (B : Backend σ) (env : Env) (io : IOState) (s : σ) (name : Str) (child query : Option PNode) (mean std lower upper : T) : σ × Res T :=
  match child with
  | some p => converted conv (getNode B env io s name p)
  | none => match query with
    | some p => converted conv (getNode B env io s name p)
    | none => converted conv (getNum B io s name (back mean) (back std) (back lower) (back upper))

/-- spot/par_tools.h:67-75 `try_get_par` for `array< T, N >`, the loop from element `i`. -/
def tryArrayAsLoop (conv : Dbl → Res T) (B : Backend σ) (env : Env) (io : IOState) (name : Str) (child query : Str → Option PNode) : Nat → List T → σ → σ × Res (List T)
  | _, [], s => (s, .ok [])
  | i, d :: ds, s => match tryGetParAs conv B env io s (elementName name i) (child (elementName name i)) (query (elementName name i)) d with
    | (s, .ok v) => match tryArrayAsLoop conv B env io name child query (i + 1) ds s with
      | (s, .ok vs) => (s, .ok (v :: vs))
      | (s, .err) => (s, .err)
      | (s, .ub) => (s, .ub)
    | (s, .err) => (s, .err)
    | (s, .ub) => (s, .ub)

end Spot
