import Verif.Model.PooledEvaluator

/-!
# Several optimizers that share one evaluator

Each optimizer runs in a thread of its own and all of them were constructed with the same evaluator (spot/optimizer.h:28, `evaluator_` of spot/optimizer.h:89; this is how
spot_test/evaluator_test.cpp:22-54 uses them). What an optimizer asks to be evaluated next depends on the results it got before; between two calls of `evaluate` it touches nothing that other threads can
see, so what it does from the return of a call up to the next call is one transition here, together with the return.
-/

namespace Spot.Evaluators

/-- A thread that uses an evaluator: `ask s ps`: in state `s` it can call `evaluate` with the points `ps`; `tell s ps rs t`: having got `rs` it can go on to `t`. A thread is finished in a state in
which it asks for nothing. -/
structure Client (S α F : Type) where
  ask : S → List α → Prop
  tell : S → List α → List (Result F) → S → Prop

/-- All threads: the states of the clients, the call of `evaluate` each of them is in, the points of all calls that have been made, and the state of the evaluator (`pool.clients` are the calls). -/
structure Sh (S α F : Type) where
  states : List S
  inside : List (Option Nat)
  calls : List (List α)
  pool : PSt F

/-- A new `pooled_evaluator` with `n` threads (spot/pooled_evaluator.cpp:8-13) and clients that have not used it. -/
def Sh.init {S : Type} (α F : Type) (n : Nat) (starts : List S) : Sh S α F :=
  { states := starts, inside := starts.map fun _ => none, calls := [], pool := PSt.init F n 0 }

/-- Kinds of transitions. -/
inductive ShKind
  | enter
  | leave
  | pool (k : PKind)
deriving DecidableEq

/-- The transitions. Client threads can be different, client `j` is `C j`. -/
inductive ShStep {S α F : Type} (o : Objective α F) (C : Nat → Client S α F) : ShKind → Sh S α F → Sh S α F → Prop
  /-- client `j` calls `evaluate` (spot/optimizer.cpp:160); spot/pooled_evaluator.cpp:26-34 -/
  | enter {x : Sh S α F} {j : Nat} {s : S} {ps : List α} (hj : x.states[j]? = some s) (hi : x.inside[j]? = some none) (ha : (C j).ask s ps) :
      ShStep o C .enter x { x with
        inside := x.inside.set j (some x.calls.length), calls := x.calls ++ [ps], pool := { x.pool with clients := x.pool.clients ++ [.lock] } }
  /-- client `j` goes on with what `evaluate` returned (spot/pooled_evaluator.cpp:50) -/
  | leave {x : Sh S α F} {j c : Nat} {s t : S} {ps : List α} {rs : List (Result F)} (hj : x.states[j]? = some s) (hi : x.inside[j]? = some (some c))
      (hp : x.calls[c]? = some ps) (hr : x.pool.clients[c]? = some (.returned rs)) (ht : (C j).tell s ps rs t) :
      ShStep o C .leave x { x with states := x.states.set j t, inside := x.inside.set j none }
  /-- anything inside the evaluator (Model/PooledEvaluator) -/
  | pool {x : Sh S α F} {k : PKind} {p : PSt F} (hk : k ≠ .call) (h : PStep o x.calls k x.pool p) : ShStep o C (.pool k) x { x with pool := p }

/-! ## Evaluators whose calls share nothing

`evaluate` of `sequential_evaluator`, `batch_evaluator` and `async_evaluator` only uses local variables, and `max_threads_` which it does not change (spot/evaluator.cpp:17-26,
spot/batch_evaluator.cpp:12-33, spot/async_evaluator.cpp:29-63): calls from different threads are independent. -/

/-- An evaluator each call of which has its own state: a call begins, goes on, has returned results. -/
structure LocalEval (α F : Type) where
  St : Type
  init : List α → St
  step : List α → St → St → Prop
  result : St → List (Result F) → Prop

/-- spot/evaluator.cpp:17-26 -/
def sequentialEval {α F : Type} (o : Objective α F) : LocalEval α F where
  St := List α × List (Result F)
  init ps := (ps, [])
  step _ s t := ∃ p out, o p out ∧ s.1 = p :: t.1 ∧ t.2 = s.2 ++ [evaluateNoexcept out]
  result s rs := s = ([], rs)

/-- spot/batch_evaluator.cpp:12-33 -/
def batchEval {α F : Type} (o : Objective α F) : LocalEval α F where
  St := BSt F
  init _ := {}
  step ps s t := BStep o ps s t
  result s rs := s.pc = .returned ∧ s.results = rs

/-- spot/async_evaluator.cpp:29-63, with `tc` threads -/
def asyncEval {α F : Type} (o : Objective α F) (tc : Nat) : LocalEval α F where
  St := ASt F
  init ps := ASt.init F ps.length
  step ps s t := ∃ k, AStep o ps tc k s t
  result s rs := s.pc = .returned ∧ s.results = rs.map some

/-- All threads: the states of the clients and of the calls they are in. -/
structure LSh (S : Type) {α F : Type} (V : LocalEval α F) where
  states : List S
  inside : List (Option (List α × V.St))

/-- Clients that have not used the evaluator. -/
def LSh.init {S α F : Type} (V : LocalEval α F) (starts : List S) : LSh S V := { states := starts, inside := starts.map fun _ => none }

/-- The transitions. -/
inductive LStep {S α F : Type} {V : LocalEval α F} (C : Nat → Client S α F) : LSh S V → LSh S V → Prop
  /-- client `j` calls `evaluate` -/
  | enter {x : LSh S V} {j : Nat} {s : S} {ps : List α} (hj : x.states[j]? = some s) (hi : x.inside[j]? = some none) (ha : (C j).ask s ps) :
      LStep C x { x with inside := x.inside.set j (some (ps, V.init ps)) }
  /-- the thread of client `j`, or a thread started by it, goes on -/
  | work {x : LSh S V} {j : Nat} {ps : List α} {l m : V.St} (hi : x.inside[j]? = some (some (ps, l))) (h : V.step ps l m) :
      LStep C x { x with inside := x.inside.set j (some (ps, m)) }
  /-- client `j` goes on with what `evaluate` returned -/
  | leave {x : LSh S V} {j : Nat} {s t : S} {ps : List α} {l : V.St} {rs : List (Result F)} (hj : x.states[j]? = some s) (hi : x.inside[j]? = some (some (ps, l)))
      (hr : V.result l rs) (ht : (C j).tell s ps rs t) : LStep C x { x with states := x.states.set j t, inside := x.inside.set j none }

end Spot.Evaluators
