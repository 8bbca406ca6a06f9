import Verif.Model.Evolution

/-!
# spot/boundary_transformer.cpp and the same transformation in spot/cma_optimizer.cpp:1051-1149

Written for any arithmetic `K`. The conversion to `int` and the addition of 1 are undefined if the result does not fit. `par_vec` is a list.
-/

namespace Spot

section
variable {K : Type} [Arith K]

/-- C `fmin`: a NaN argument is ignored. -/
def fmin (a b : K) : K := if !Arith.eq a a then b else if !Arith.eq b b then a else if Arith.lt b a then b else a

/-- What a `cmaes_boundary_transformer` knows about one parameter, spot/boundary_transformer.h:41-44. -/
structure BtPar (K : Type) where
  lb : K
  ub : K
  al : K
  au : K

/-- spot/boundary_transformer.cpp:43-53: one parameter. -/
def BtPar.make (lb ub : K) : Res (BtPar K) :=
  if Arith.eq lb ub || Arith.lt ub lb then .err
  else .ok { lb := lb, ub := ub, al := fmin ((ub - lb) / lit 2) ((lit 1 + Arith.abs lb) / lit 20)
             au := fmin ((ub - lb) / lit 2) ((lit 1 + Arith.abs ub) / lit 20) }

/-- spot/boundary_transformer.cpp:34-55: the constructor; the bounds of the parameters in order. -/
def btMake : List (K × K) → Res (List (BtPar K))
  | [] => .ok []
  | q :: qs => BtPar.make q.1 q.2 >>= fun p => btMake qs >>= fun ps => .ok (p :: ps)

/-- `1 + (int)v` (spot/boundary_transformer.cpp:75, 78). -/
def onePlusInt (v : K) : Res Int :=
  match Arith.trunc v with
  | some z => if fitsInt (1 + z) then .ok (1 + z) else .ub
  | none => .ub

/-- spot/boundary_transformer.cpp:74-76: shift up. -/
def BtPar.up (xlow r y : K) : Res K :=
  if Arith.lt y xlow then onePlusInt ((xlow - y) / r) >>= fun k => .ok (y + r * lit (k : ℚ)) else .ok y

/-- spot/boundary_transformer.cpp:77-80: shift down. -/
def BtPar.down (xup r y : K) : Res K :=
  if Arith.lt xup y then onePlusInt ((y - xup) / r) >>= fun k => .ok (y - r * lit (k : ℚ)) else .ok y

/-- spot/boundary_transformer.cpp:81-84: the mirrors. -/
def BtPar.mirror (p : BtPar K) (y : K) : K :=
  let y := if Arith.lt y (p.lb - p.al) then y + lit 2 * (p.lb - p.al - y) else y
  if Arith.lt (p.ub + p.au) y then y - lit 2 * (y - p.ub - p.au) else y

/-- spot/boundary_transformer.cpp:68-70. -/
def BtPar.xlow (p : BtPar K) : K := p.lb - lit 2 * p.al - (p.ub - p.lb) / lit 2
def BtPar.xup (p : BtPar K) : K := p.ub + lit 2 * p.au + (p.ub - p.lb) / lit 2
def BtPar.period (p : BtPar K) : K := lit 2 * (p.ub - p.lb + p.al + p.au)

/-- spot/boundary_transformer.cpp:63-84: the shifted and mirrored value of `y`. -/
def BtPar.shift (p : BtPar K) (x : K) : Res K :=
  BtPar.up p.xlow p.period x >>= fun y => BtPar.down p.xup p.period y >>= fun y => .ok (p.mirror y)

/-- spot/boundary_transformer.cpp:86: the value is reported as a bug. -/
def BtPar.bug (p : BtPar K) (y : K) : Bool :=
  Arith.lt y (p.lb - p.al - lit (1 / 10 ^ 15)) || Arith.lt (p.ub + p.au + lit (1 / 10 ^ 15)) y

/-- spot/boundary_transformer.cpp:63-90: the new value of `x[i]`, and whether a message was logged. -/
def BtPar.preimage (p : BtPar K) (x : K) : Res (K × Bool) :=
  p.shift x >>= fun y => .ok (if p.bug y then (x, true) else (y, false))

/-- spot/boundary_transformer.cpp:92-104. -/
def BtPar.squash (p : BtPar K) (y : K) : K :=
  if Arith.lt y (p.lb + p.al) then p.lb + (y - (p.lb - p.al)) * (y - (p.lb - p.al)) / lit 4 / p.al
  else if Arith.lt (p.ub - p.au) y then p.ub - (y - (p.ub + p.au)) * (y - (p.ub + p.au)) / lit 4 / p.au
  else y

/-- The first loop of `apply`, spot/boundary_transformer.cpp:62-90, with the number of messages. There is no check of the size of `x`:
too few elements are read out of bounds, more are left alone. -/
def btPreimages : List (BtPar K) → List K → Res (List K × Nat)
  | [], xs => .ok (xs, 0)
  | _ :: _, [] => .ub
  | p :: ps, x :: xs => p.preimage x >>= fun y => btPreimages ps xs >>= fun ys => .ok (y.1 :: ys.1, (if y.2 then 1 else 0) + ys.2)

/-- The second loop, spot/boundary_transformer.cpp:92-104. -/
def btSquash : List (BtPar K) → List K → Res (List K)
  | [], xs => .ok xs
  | _ :: _, [] => .ub
  | p :: ps, x :: xs => btSquash ps xs >>= fun ys => .ok (p.squash x :: ys)

/-- spot/boundary_transformer.cpp:57-105 `cmaes_boundary_transformer::apply`: the new value of `x`, and the number of messages. -/
def btApply (ps : List (BtPar K)) (xs : List K) : Res (List K × Nat) :=
  btPreimages ps xs >>= fun y => btSquash ps y.1 >>= fun z => .ok (z, y.2)

/-- spot/cma_optimizer.cpp:1115-1130 `cmaes_boundary_trans` for one parameter: the same, except that it throws instead of logging
(line 1110). -/
def BtPar.trans (p : BtPar K) (x : K) : Res K :=
  p.shift x >>= fun y => if p.bug y then .err else .ok (p.squash y)

/-- spot/cma_optimizer.cpp:1132-1149 `cmaes_boundary_trans_inverse` for one parameter. -/
def BtPar.inverse (p : BtPar K) (x : K) : K :=
  if Arith.lt x (p.lb + p.al) then p.lb - p.al + lit 2 * Arith.sqrt (p.al * (x - p.lb))
  else if Arith.lt (p.ub - p.au) x then p.ub + p.au - lit 2 * Arith.sqrt (p.au * (p.ub - x))
  else x

/-- spot/boundary_transformer.cpp:24-32 `reflective_boundary_transformer::apply`; `wave` is `xo::triangle_wave`. The size is asserted. -/
def reflectApply (wave : K → K → K → K) : List (K × K) → List K → Res (List K)
  | [], [] => .ok []
  | [], _ :: _ => .ub
  | _ :: _, [] => .ub
  | q :: qs, x :: xs => reflectApply wave qs xs >>= fun ys =>
      .ok ((if Arith.lt x q.1 || Arith.lt q.2 x then wave x q.1 q.2 else x) :: ys)

/-- spot/boundary_transformer.cpp:17-22 `soft_limit_boundary_transformer::apply`; `soft` is what `xo::soft_clamp` makes of its first argument.
The size is asserted. -/
def softApply (soft : K → K → K → K → K) (threshold : K) : List (K × K) → List K → Res (List K)
  | [], [] => .ok []
  | [], _ :: _ => .ub
  | _ :: _, [] => .ub
  | q :: qs, x :: xs => softApply soft threshold qs xs >>= fun ys => .ok (soft x q.1 q.2 threshold :: ys)

end

end Spot
