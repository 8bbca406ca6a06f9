import Verif.Model.SharedPool
import Verif.Model.Session

/-!
# `optimizer::run` as a thread that uses an evaluator

spot_test/evaluator_test.cpp:36: `std::async( std::launch::async, [&]( cma_optimizer& o ) { return o.run(); }, std::ref( *opt ) )`.
-/

namespace Spot.Evaluators

/-- Where `run` is (spot/optimizer.cpp:67-80): the optimizer, how many more steps it may make, and what it has returned, if it has returned because of a stop condition (line 77). -/
structure Running (S : Type) where
  opt : S
  left : Nat
  ret : Option (Res (Option Nat)) := none

/-- spot/optimizer.cpp:67-73: `run( n )` begins. -/
def Running.start {S : Type} (n : Nat) (s : S) : Running S := { opt := s, left := if n = 0 then 2 ^ 64 - 1 else n }

/-- spot/optimizer.cpp:76-79: what `run` returns. -/
def Running.returned {S : Type} (x : Running S) : Res (Option Nat) := x.ret.getD (.ok none)

/-- What `optimizer` makes of a result: its value, if it has one (spot/optimizer.cpp:177, 206). -/
def valueOf : Result Dbl → Option Dbl
  | .ok v => some v
  | .error _ => none

/-- spot/optimizer.cpp:75-77: each step calls `evaluate` once (spot/optimizer.cpp:157-161, 169), with the population that `internal_step` has sampled. The optimizer does not know the objective: `F` is
only used for the population. Other threads may call `interrupt` (spot/optimizer.h:75) at any time, unless `quiet`: it is visible when the step tests the stop conditions. -/
def runClient {S : Type} (M : Machine S) (E : OptEnv) (quiet : Prop) : Client (Running S) Pt Dbl where
  ask x ps := x.ret = none ∧ 0 < x.left ∧ ∃ F t r, M.Step E F x.opt { pop := ps, res := ps.map F } t r
  tell x ps rs y := ∃ F t r intr, rs.map valueOf = ps.map F ∧ (quiet → intr = false) ∧ M.Step E F x.opt { pop := ps, res := ps.map F, interrupt := intr } t r ∧
    y = { opt := t, left := x.left - 1, ret := match r with | .ok none => none | _ => some r }

end Spot.Evaluators
