import Verif.Model.ParIO

/-!
# spot/par_tools.h: the overloads of `try_get_par`

The element type `T` is `double` (for another one the returned numbers are converted, which affects nothing else). What the property node
contains is an argument: the child found under the name (spot/par_tools.h:22, 32, 56 `try_get_child`) or query (24, 34 `try_get_query`).
-/

namespace Spot

variable {σ : Type}

/-- Several calls of `par_io::get( name, pn )`, one after the other; the values come with the names. -/
def getSeq (B : Backend σ) (env : Env) (io : IOState) : List (Str × PNode) → σ → σ × Res (List (Str × Dbl))
  | [], s => (s, .ok [])
  | q :: qs, s => match getNode B env io s q.1 q.2 with
    | (s, .ok v) => match getSeq B env io qs s with
      | (s, .ok vs) => (s, .ok ((q.1, v) :: vs))
      | (s, .err) => (s, .err)
      | (s, .ub) => (s, .ub)
    | (s, .err) => (s, .err)
    | (s, .ub) => (s, .ub)

/-- spot/par_tools.h:20-27 `try_get_par( ps, name, pn, def )`: a child, else a query, else the default. -/
def tryGetPar (B : Backend σ) (env : Env) (io : IOState) (s : σ) (name : Str) (child query : Option PNode) (dflt : Dbl) : σ × Res Dbl :=
  match child with
  | some p => getNode B env io s name p
  | none => match query with
    | some p => getNode B env io s name p
    | none => (s, .ok dflt)

/-- spot/par_tools.h:29-37 `try_get_par( ps, name, pn, mean, std, lower, upper )`. -/
def tryGetParNum (B : Backend σ) (env : Env) (io : IOState) (s : σ) (name : Str) (child query : Option PNode) (mean std lower upper : Dbl) : σ × Res Dbl :=
  match child with
  | some p => getNode B env io s name p
  | none => match query with
    | some p => getNode B env io s name p
    | none => getNum B io s name mean std lower upper

/-- The three requests of spot/par_tools.h:46-48. -/
def vec3Requests (name : Str) (x y z : PNode) : List (Str × PNode) :=
  [(name ++ ".x".toList, x), (name ++ ".y".toList, y), (name ++ ".z".toList, z)]

/-- The value returned for a name. -/
def valueOf (vs : List (Str × Dbl)) (n : Str) : Dbl := (vs.lookup n).getD .nan

/-- spot/par_tools.h:39-51 `try_get_par` for `vec3`. The requests are arguments of a constructor called with parentheses, so C++ leaves open in which
order they are made: `order` is any permutation of them. `child` is the result of `try_get< vec3_< prop_node > >`. -/
inductive TryVec3 (B : Backend σ) (env : Env) (io : IOState) (name : Str) (s : σ) : Option (PNode × PNode × PNode) → Dbl × Dbl × Dbl → σ → Res (Dbl × Dbl × Dbl) → Prop
  | absent (d) : TryVec3 B env io name s none d s (.ok d)
  | ok {x y z d order s' vs} (hp : order.Perm (vec3Requests name x y z)) (hr : getSeq B env io order s = (s', .ok vs)) :
      TryVec3 B env io name s (some (x, y, z)) d s' (.ok (valueOf vs (name ++ ".x".toList), valueOf vs (name ++ ".y".toList), valueOf vs (name ++ ".z".toList)))
  | err {x y z d order s'} (hp : order.Perm (vec3Requests name x y z)) (hr : getSeq B env io order s = (s', .err)) :
      TryVec3 B env io name s (some (x, y, z)) d s' .err
  | ub {x y z d order s'} (hp : order.Perm (vec3Requests name x y z)) (hr : getSeq B env io order s = (s', .ub)) :
      TryVec3 B env io name s (some (x, y, z)) d s' .ub

/-- spot/par_tools.h:53-65 `try_get_par` for `pair`: `child` has the list of its children. The elements of a braced list are evaluated from left to right. -/
def tryPair (B : Backend σ) (env : Env) (io : IOState) (s : σ) (name : Str) (child : Option (List PNode)) (dflt : Dbl × Dbl) : σ × Res (Dbl × Dbl) :=
  match child with
  | none => (s, .ok dflt)
  | some (a :: b :: _) => match getNode B env io s (name ++ ".0".toList) a with
    | (s, .ok v) => match getNode B env io s (name ++ ".1".toList) b with
      | (s, .ok w) => (s, .ok (v, w))
      | (s, .err) => (s, .err)
      | (s, .ub) => (s, .ub)
    | (s, .err) => (s, .err)
    | (s, .ub) => (s, .ub)
  | some _ => (s, .err)

/-- spot/par_tools.h:72: name of element `i`, `name + stringf( ".%d", i )`. -/
def elementName (name : Str) (i : Nat) : Str := name ++ ('.' :: (toString i).toList)

/-- spot/par_tools.h:67-75 `try_get_par` for `array`: the loop from element `i`; `child` and `query` look up an element by its name in the node. -/
def tryArrayLoop (B : Backend σ) (env : Env) (io : IOState) (name : Str) (child query : Str → Option PNode) : Nat → List Dbl → σ → σ × Res (List Dbl)
  | _, [], s => (s, .ok [])
  | i, d :: ds, s => match tryGetPar B env io s (elementName name i) (child (elementName name i)) (query (elementName name i)) d with
    | (s, .ok v) => match tryArrayLoop B env io name child query (i + 1) ds s with
      | (s, .ok vs) => (s, .ok (v :: vs))
      | (s, .err) => (s, .err)
      | (s, .ub) => (s, .ub)
    | (s, .err) => (s, .err)
    | (s, .ub) => (s, .ub)

def tryArray (B : Backend σ) (env : Env) (io : IOState) (s : σ) (name : Str) (child query : Str → Option PNode) (dflt : List Dbl) : σ × Res (List Dbl) :=
  tryArrayLoop B env io name child query 0 dflt s

end Spot
