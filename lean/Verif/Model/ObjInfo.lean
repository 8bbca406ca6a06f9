import Verif.Model.ParInfo

/-!
# spot/objective_info.h, spot/objective_info.cpp

Mutating member functions return the new state together with their outcome, so that what is left behind by a call that throws is
visible.
-/

namespace Spot

/-- `xo::flat_map::operator[] = v`: insert, or overwrite the value of an existing key. The order of a `flat_map` is not
observable here, new keys go to the end. -/
def mapSet {β : Type} (m : List (Str × β)) (k : Str) (v : β) : List (Str × β) :=
  match m with
  | [] => [(k, v)]
  | (k', v') :: t => if k = k' then (k', v) :: t else (k', v') :: mapSet t k v

/-- spot/objective_info.h:68-72: data members. -/
structure ObjInfo where
  pars : List ParInfo := []
  locked : List (Str × Dbl) := []
  minimize : Bool := true
  target : Dbl := .fin 0
  name : Str := []
deriving DecidableEq

namespace ObjInfo

/-- spot/objective_info.h:22 `dim`, :53 `size`. -/
def dim (i : ObjInfo) : Nat := i.pars.length

/-- spot/objective_info.cpp:173-181 `find` (iterator to the first parameter of that name; `none` = `end()`). -/
def find (i : ObjInfo) (n : Str) : Option ParInfo := i.pars.find? (fun p => p.name = n)

/-- spot/objective_info.cpp:54-58 `find_index` (`none` = `no_index`). -/
def findIndex (i : ObjInfo) (n : Str) : Option Nat := i.pars.findIdx? (fun p => p.name = n)

/-- spot/objective_info.cpp:22-28 `try_get_locked`. -/
def tryGetLocked (i : ObjInfo) (n : Str) : Option Dbl := i.locked.lookup n

/-- spot/objective_info.cpp:14-20 `try_get`. -/
def tryGet (i : ObjInfo) (n : Str) : Option Dbl :=
  match i.find n with
  | some p => some p.mean
  | none => i.tryGetLocked n

/-- `xo::str_contains_any_of( name, " \t\"" )` (spot/objective_info.cpp:41). -/
def badName (n : Str) : Bool := n.any fun c => c = ' ' || c = '\t' || c = '"'

/-- spot/objective_info.cpp:37-52 `add`. -/
def add (i : ObjInfo) (p : ParInfo) : ObjInfo × Res Dbl :=
  if (i.find p.name).isSome then (i, .err)
  else if (i.tryGetLocked p.name).isSome then (i, .err)
  else if badName p.name then (i, .err)
  else if p.isConstant then ({ i with locked := mapSet i.locked p.name p.mean }, .ok p.mean)
  else ({ i with pars := i.pars ++ [p] }, .ok p.mean)

/-- spot/objective_info.cpp:195-216 `lock_parameter`. -/
def lock (i : ObjInfo) (n : Str) (v : Dbl) : ObjInfo × Bool :=
  match i.find n with
  | some p => ({ i with locked := mapSet i.locked p.name v, pars := i.pars.eraseP (fun p => p.name = n) }, true)
  | none =>
    if (i.tryGetLocked n).isSome then ({ i with locked := mapSet i.locked n v }, true)
    else (i, false)

/-- spot/objective_info.cpp:135-139 `set_std_minimum`. -/
def setStdMinimum (i : ObjInfo) (value factor : Dbl) : ObjInfo :=
  { i with pars := i.pars.map fun p =>
      { p with std := Dbl.max p.std (Dbl.add (Dbl.mul factor p.mean.abs) value) } }

/-- Replace means and stds position by position. -/
def zipMeanStd : List ParInfo → List Dbl → List Dbl → List ParInfo
  | p :: ps, m :: ms, s :: ss => { p with mean := m, std := s } :: zipMeanStd ps ms ss
  | ps, _, _ => ps

/-- spot/objective_info.cpp:141-149 `set_mean_std`; the assertion on the sizes fails with undefined behaviour. -/
def setMeanStd (i : ObjInfo) (mean std : List Dbl) : ObjInfo × Res Unit :=
  if mean.length = i.dim ∧ std.length = i.dim then ({ i with pars := zipMeanStd i.pars mean std }, .ok ())
  else (i, .ub)

/-- spot/objective_info.cpp:151-157 `is_feasible`; a vector that is too short is read out of bounds. -/
def feasibleLoop : List ParInfo → List Dbl → Res Bool
  | [], _ => .ok true
  | _ :: _, [] => .ub
  | p :: ps, v :: vs => if Dbl.lt p.max v || Dbl.lt v p.min then .ok false else feasibleLoop ps vs

def isFeasible (i : ObjInfo) (vec : List Dbl) : Res Bool := feasibleLoop i.pars vec

/-- `xo::is_between( v, lo, hi )` and `xo::clamp( v, lo, hi )` (xo, assumed: `v >= lo && v <= hi`, and
`v < lo ? lo : v > hi ? hi : v`), as used in spot/objective_info.cpp:159-171. -/
def clamp1 (p : ParInfo) (v : Dbl) : Dbl :=
  if Dbl.le p.min v && Dbl.le v p.max then v
  else if Dbl.lt v p.min then p.min else if Dbl.lt p.max v then p.max else v

/-- spot/objective_info.cpp:159-171 `clamp`. -/
def clampLoop : List ParInfo → List Dbl → Res (List Dbl)
  | [], vs => .ok vs
  | _ :: _, [] => .ub
  | p :: ps, v :: vs => do
    let t ← clampLoop ps vs
    .ok (clamp1 p v :: t)

def clamp (i : ObjInfo) (vec : List Dbl) : Res (List Dbl) := clampLoop i.pars vec

/-- spot/objective_info.h:34 `is_better`. -/
def isBetter (i : ObjInfo) (a b : Dbl) : Bool := if i.minimize then Dbl.lt a b else Dbl.lt b a

/-- spot/objective_info.h:36,38 `worst_fitness`. -/
def worstFitness (i : ObjInfo) : Dbl := if i.minimize then .fin Dbl.maxQ else .fin (-Dbl.maxQ)

/-- spot/objective_info.h:37,39 `best_fitness`. -/
def bestFitness (i : ObjInfo) : Dbl := if i.minimize then .fin (-Dbl.maxQ) else .fin Dbl.maxQ

/-- `std::min_element( b, e, cmp ) - b`: index of the current candidate is replaced when a later element is smaller. -/
def minElemLoop (cmp : Dbl → Dbl → Bool) : List Dbl → Nat → Nat → Dbl → Nat
  | [], _, bi, _ => bi
  | x :: xs, k, bi, b => if cmp x b then minElemLoop cmp xs (k + 1) k x else minElemLoop cmp xs (k + 1) bi b

/-- `std::min_element` / `std::max_element` (first minimum / maximum); on an empty range the result is `end`, index 0. -/
def minElem (cmp : Dbl → Dbl → Bool) : List Dbl → Nat
  | [] => 0
  | x :: xs => minElemLoop cmp xs 1 0 x

/-- spot/objective_info.cpp:30-35 `find_best_fitness`. `max_element` replaces its candidate `b` by `x` when `b < x`. -/
def findBestFitness (i : ObjInfo) (f : List Dbl) : Nat :=
  if i.minimize then minElem (fun x b => Dbl.lt x b) f else minElem (fun x b => Dbl.lt b x) f

end ObjInfo

/-- spot/objective_info.cpp:218-225 and 227-236 `make_objective_info`: names are the decimal index. The vector overload asserts
equal sizes, the other one repeats the same numbers. -/
def makeLoop : Nat → List Dbl → List Dbl → List Dbl → List Dbl → Res (List ParInfo)
  | _, [], _, _, _ => .ok []
  | k, m :: ms, s :: ss, l :: ls, u :: us => do
    let p ← ParInfo.make (toString k).toList m s l u
    let t ← makeLoop (k + 1) ms ss ls us
    .ok (p :: t)
  | _, _ :: _, _, _, _ => .ub

/-- spot/objective_info.cpp:227-236 `make_objective_info( mean, stdev, lower, upper )`. -/
def makeObjectiveInfoVec (mean std lower upper : List Dbl) : Res ObjInfo :=
  if std.length = mean.length ∧ lower.length = mean.length ∧ upper.length = mean.length then do
    let ps ← makeLoop 0 mean std lower upper
    .ok { pars := ps }
  else .ub

/-- spot/objective_info.cpp:218-225 `make_objective_info( d, mean, stdev, lower, upper )`. -/
def makeObjectiveInfo (d : Nat) (mean std lower upper : Dbl) : Res ObjInfo := do
  let ps ← makeLoop 0 (List.replicate d mean) (List.replicate d std) (List.replicate d lower) (List.replicate d upper)
  .ok { pars := ps }

end Spot
