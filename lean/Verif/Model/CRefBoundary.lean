import Verif.Model.Boundary
import Verif.Model.CmaEigen

/-!
# spot_test/c-cmaes/boundary_transformation.c: the reference implementation of the boundary transformation

The C program that `cmaes_boundary_transformer` is derived from, loop by loop, with the C arrays as functions of the index. `exit(1)` is `err`; the conversion to `int` and the addition
of 1 are undefined (`ub`) if the result does not fit (`onePlusInt`). `fmin` and the conversion are the functions of the C library and of the language, as in Model/Boundary.lean.
-/

namespace Spot.Ref

variable {K : Type} [Arith K]

/-- `for ( i = 0; i < n; ++i )` with a body that can end the program. -/
def forRes {S : Type} (f : Nat → S → Res S) : Nat → S → Res S
  | 0, s => .ok s
  | n + 1, s => forRes f n s >>= fun s => f n s

/-- spot_test/c-cmaes/boundary_transformation.h:26-32 `cmaes_boundary_transformation_t`. -/
structure BTrans (K : Type) where
  lower : Nat → K
  upper : Nat → K
  len : Nat
  al : Nat → K
  au : Nat → K

/-- boundary_transformation.c:19-20: the bounds by default, `DBL_MAX / -1e2` and `DBL_MAX / 1e2`. -/
def defaultLower (K : Type) [Arith K] : Nat → K := fun _ => lit (-(Dbl.maxQ / 100))
def defaultUpper (K : Type) [Arith K] : Nat → K := fun _ => lit (Dbl.maxQ / 100)

/-- boundary_transformation.c:45-52: the loop of `init`. -/
def BTrans.initLoop (t : BTrans K) : Res (BTrans K) :=
  forRes (fun i t =>
    if Arith.eq (t.lower i) (t.upper i) then .err
    else
      let t := { t with al := set1 t.al i (fmin ((t.upper i - t.lower i) / lit 2) ((lit 1 + Arith.abs (t.lower i)) / lit 20)) }
      .ok { t with au := set1 t.au i (fmin ((t.upper i - t.lower i) / lit 2) ((lit 1 + Arith.abs (t.upper i)) / lit 20)) }) t.len t

/-- boundary_transformation.c:14-53 `cmaes_boundary_transformation_init`; `none` is NULL. The memory of `calloc` is 0. -/
def BTrans.init (lower upper : Option (Nat → K)) (len : Nat) : Res (BTrans K) :=
  let lo := if len = 0 then some (defaultLower K) else if lower.isNone && decide (len ≤ 1) then some (defaultLower K) else lower
  let up := if len = 0 then some (defaultUpper K) else if upper.isNone && decide (len ≤ 1) then some (defaultUpper K) else upper
  match lo, up with
  | some lo, some up => BTrans.initLoop { lower := lo, upper := up, len := if len = 0 then 1 else len, al := fun _ => lit 0, au := fun _ => lit 0 }
  | _, _ => .err

/-- boundary_transformation.c:156-159 `_index`: the last bound is used for the remaining variables. -/
def BTrans.index (t : BTrans K) (i : Nat) : Nat := if i < t.len then i else t.len - 1

/-- boundary_transformation.c:80-116 `cmaes_boundary_transformation_shift_into_feasible_preimage`: what `y` contains afterwards. -/
def BTrans.shift (t : BTrans K) (x : Nat → K) (len : Nat) (y : Nat → K) : Res (Nat → K) :=
  forRes (fun i y =>
    let lb := t.lower (t.index i)
    let ub := t.upper (t.index i)
    let al := t.al (t.index i)
    let au := t.au (t.index i)
    let xlow := lb - lit 2 * al - (ub - lb) / lit 2
    let xup := ub + lit 2 * au + (ub - lb) / lit 2
    let r := lit 2 * (ub - lb + al + au)
    let y := set1 y i (x i)
    (if Arith.lt (y i) xlow then onePlusInt ((xlow - y i) / r) >>= fun k => .ok (set1 y i (y i + r * lit (k : ℚ))) else .ok y) >>= fun y =>
    (if Arith.lt xup (y i) then onePlusInt ((y i - xup) / r) >>= fun k => .ok (set1 y i (y i - r * lit (k : ℚ))) else .ok y) >>= fun y =>
    let y := if Arith.lt (y i) (lb - al) then set1 y i (y i + lit 2 * (lb - al - y i)) else y
    let y := if Arith.lt (ub + au) (y i) then set1 y i (y i - lit 2 * (y i - ub - au)) else y
    if Arith.lt (y i) (lb - al - lit (1 / 10 ^ 15)) || Arith.lt (ub + au + lit (1 / 10 ^ 15)) (y i) then .err else .ok y) len y

/-- boundary_transformation.c:68-77: the loop of `cmaes_boundary_transformation`. -/
def BTrans.quadratic (t : BTrans K) (len : Nat) (y : Nat → K) : Nat → K :=
  forUp 0 len (fun i y =>
    let lb := t.lower (t.index i)
    let ub := t.upper (t.index i)
    let al := t.al (t.index i)
    let au := t.au (t.index i)
    if Arith.lt (y i) (lb + al) then set1 y i (lb + (y i - (lb - al)) * (y i - (lb - al)) / lit 4 / al)
    else if Arith.lt (ub - au) (y i) then set1 y i (ub - (y i - (ub + au)) * (y i - (ub + au)) / lit 4 / au)
    else y) y

/-- boundary_transformation.c:61-78 `cmaes_boundary_transformation`: what `y` contains afterwards. -/
def BTrans.apply (t : BTrans K) (x : Nat → K) (len : Nat) (y : Nat → K) : Res (Nat → K) :=
  t.shift x len y >>= fun y => .ok (t.quadratic len y)

/-- boundary_transformation.c:117-143 `cmaes_boundary_transformation_inverse`, with the check at its end (`do_assertions` is 1), whose result is only printed, but which can end
the program. -/
def BTrans.inverse (t : BTrans K) (x : Nat → K) (len : Nat) (y : Nat → K) : Res (Nat → K) :=
  let y := forUp 0 len (fun i y =>
    let lb := t.lower (t.index i)
    let ub := t.upper (t.index i)
    let al := t.al (t.index i)
    let au := t.au (t.index i)
    let y := set1 y i (x i)
    if Arith.lt (y i) (lb + al) then set1 y i ((lb - al) + lit 2 * Arith.sqrt (al * (y i - lb)))
    else if Arith.lt (ub - au) (y i) then set1 y i ((ub + au) - lit 2 * Arith.sqrt (au * (ub - y i)))
    else y) y
  let z := y
  t.apply z len y >>= fun y => .ok (forUp 0 len (fun i y => set1 y i (z i)) y)

end Spot.Ref
