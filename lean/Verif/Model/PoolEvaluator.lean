import Verif.Model.SharedRun
import Verif.Model.PoolSession
import Verif.Spec.Evaluators

/-!
# The threads of a pool and the threads of the evaluator they share

spot/optimizer_pool.cpp:110-113 starts a thread for every member that is stepped, and the members call `evaluate` of the evaluator they were constructed with (spot/optimizer.cpp:157-161, 169). In
`Verif.Model.Pool` the step of a member is one transition; here the call of `evaluate`, everything that happens in a `pooled_evaluator` (Model/PooledEvaluator) and the return of the call are transitions
of their own, and other threads use the same evaluator: other pools, optimizers of their own, anything that calls `evaluate`.
-/

namespace Spot.Evaluators

/-- A thread that calls `evaluate` at any times with any points. -/
def anyClient : Client Unit Pt Dbl := ⟨fun _ _ => True, fun _ _ _ _ => True⟩

/-- An evaluator and the threads that use it. -/
abbrev Users := Sh Unit Pt Dbl

/-- A new `pooled_evaluator` with `threads` threads of its own, that `N` threads will use. -/
def Users.init (threads N : Nat) : Users := Sh.init Pt Dbl threads (List.replicate N ())

/-- Thread `j` calls `evaluate` (spot/optimizer.cpp:160); spot/pooled_evaluator.cpp:26-34. -/
def Users.call (x : Users) (j : Nat) (ps : List Pt) : Users :=
  { x with inside := x.inside.set j (some x.calls.length), calls := x.calls ++ [ps], pool := { x.pool with clients := x.pool.clients ++ [.lock] } }

/-- Thread `j` goes on after the return of the call (spot/pooled_evaluator.cpp:50). -/
def Users.back (x : Users) (j : Nat) : Users := { x with inside := x.inside.set j none }

end Spot.Evaluators

namespace Spot

open Spot.Evaluators

/-- Kinds of transitions: the thread of a member calls `evaluate`; the call returns and the thread ends; it ends without a call; something happens inside the evaluator; the thread that steps the pool
does something; the pool is interrupted; a thread that does not belong to the pool calls `evaluate`, or the call returns. -/
inductive PevKind
  | call
  | back
  | early
  | work (k : PKind)
  | main
  | interrupt
  | other (k : ShKind)
deriving DecidableEq

/-- What the evaluator and the threads that use it notice of a transition. -/
def PevKind.sh : PevKind → List ShKind
  | .call => [.enter]
  | .back => [.leave]
  | .work k => [.pool k]
  | .other k => [k]
  | .early | .main | .interrupt => []

/-- The transitions during a step of a pool; of the threads that use the evaluator those with numbers less than `M` are the threads of the members (member `j` has number `j`). `ins j` is what member
`j` asks to be evaluated and whether it is interrupted; the results are those the evaluator returns. -/
inductive PevStep [Libm] (E : OptEnv) (f : Pt → Outcome Dbl) (M : Nat) (ins : Nat → In) : PevKind → RunSt × Users → RunSt × Users → Prop
  /-- member `j` has sampled its population and calls `evaluate` (spot/optimizer.cpp:157-161, 169) -/
  | call {r : RunSt} {x : Users} {j : Nat} {m : Opt} (hj : j ∈ r.running) (hM : j < M) (hm : r.pool.members[j]? = some m) (hd : m.vis.info.dim ≠ 0) (hi : x.inside[j]? = some none) :
      PevStep E f M ins .call (r, x) (r, x.call j (ins j).pop)
  /-- spot/optimizer.cpp:47: the step of a member without parameters throws before anything is evaluated -/
  | early {r : RunSt} {x : Users} {j : Nat} {m : Opt} (hj : j ∈ r.running) (hm : r.pool.members[j]? = some m) (hd : m.vis.info.dim = 0) (hi : x.inside[j]? = some none) :
      PevStep E f M ins .early (r, x) ({ r with running := r.running.erase j, failed := j :: r.failed }, x)
  /-- the call of `evaluate` of member `j` has returned `rs`, and its step ends -/
  | finish {r : RunSt} {x : Users} {j c : Nat} {m m' : Opt} {ps : List Pt} {rs : List (Result Dbl)} {y : Option Nat} (hj : j ∈ r.running) (hm : r.pool.members[j]? = some m)
      (hi : x.inside[j]? = some (some c)) (hp : x.calls[c]? = some ps) (hr : x.pool.clients[c]? = some (.returned rs))
      (hs : m.step E (Opt.internal E { ins j with pop := ps, res := rs.map valueOf }) = (m', .ok y)) :
      PevStep E f M ins .back (r, x) ({ r with pool := { r.pool with members := r.pool.members.set j m' }, running := r.running.erase j }, x.back j)
  /-- the same, when the step ends with an exception -/
  | fail {r : RunSt} {x : Users} {j c : Nat} {m m' : Opt} {ps : List Pt} {rs : List (Result Dbl)} (hj : j ∈ r.running) (hm : r.pool.members[j]? = some m)
      (hi : x.inside[j]? = some (some c)) (hp : x.calls[c]? = some ps) (hr : x.pool.clients[c]? = some (.returned rs))
      (hs : m.step E (Opt.internal E { ins j with pop := ps, res := rs.map valueOf }) = (m', .err)) :
      PevStep E f M ins .back (r, x)
        ({ r with pool := { r.pool with members := r.pool.members.set j m' }, running := r.running.erase j, failed := j :: r.failed }, x.back j)
  /-- anything inside the evaluator (Model/PooledEvaluator); `f` is the objective -/
  | work {r : RunSt} {x y : Users} {k : PKind} (h : ShStep (deterministic f) (fun _ => anyClient) (.pool k) x y) : PevStep E f M ins (.work k) (r, x) (r, y)
  /-- a call of a thread that does not belong to the pool begins or returns -/
  | other {r : RunSt} {x y : Users} {k : ShKind} (h : ShStep (deterministic f) (fun _ => anyClient) k x y) (hk : k = .enter ∨ k = .leave) (ho : ∀ j < M, y.inside[j]? = x.inside[j]?) :
      PevStep E f M ins (.other k) (r, x) (r, y)
  /-- spot/optimizer_pool.cpp:117-134: a future is looked at -/
  | main {r t : RunSt} {x : Users} (h : RunStep E ins r t) (hf : t.futs ≠ r.futs) : PevStep E f M ins .main (r, x) (t, x)
  /-- another thread interrupts the pool -/
  | interrupt {r : RunSt} {x : Users} : PevStep E f M ins .interrupt (r, x) ({ r with pool := r.pool.interrupt }, x)

/-- spot/optimizer.cpp:44-65 `step` of a pool, when nothing throws: as `Pool.Step`, with the threads of the evaluator; `x` and `y` are the states of the evaluator before and after. -/
inductive Pool.StepWith [Libm] (E : OptEnv) (f : Pt → Outcome Dbl) (M : Nat) (ins : Nat → In) : List PevKind → Pool × Users → (sel run : List Nat) → Pool × Users → Option Nat → Prop
  | mk {ks : List PevKind} {p p₁ p₂ p₃ : Pool} {x y : Users} {t : RunSt} {sel : List Nat} {r : Option Nat} (hd : p.own.info.dim ≠ 0) (hne : p.members ≠ [])
      (h1 : p₁ = (if p.own.stepCount = 0 then p.signal .start else p).signal .preStep) (h2 : Refill E p₁ sel p₂)
      (h3 : Exec (PevStep E f M ins) ks (p₂.launch, x) (t, y)) (hend : t.running = [] ∧ t.futs = [] ∧ t.threw = false)
      (h4 : Pool.testStop E { t.pool.signal .postStep with own := { t.pool.own with stepCount := t.pool.own.stepCount + 1 } } = (p₃, .ok r)) :
      Pool.StepWith E f M ins ks (p, x) sel p₂.launch.futs (p₃, y) r

/-- The calls of a pool whose members (at most `M`; they satisfy `P`) share an evaluator with other threads, from the construction of both; `l` are the populations the members asked to be evaluated in
steps that have ended (they satisfy `Q`), `ks` what happened in the evaluator. -/
inductive Pool.PlayedWith [Libm] (E : OptEnv) (f : Pt → Outcome Dbl) (M : Nat) (P : Opt → Prop) (Q : List Pt → Prop) (z₀ : Pool × Users) : List PevKind → List (List Pt) → Pool × Users → Prop
  | nil : Pool.PlayedWith E f M P Q z₀ [] [] z₀
  | step {p p' : Pool} {x y : Users} {ks ks' l sel run ins r} (h : Pool.PlayedWith E f M P Q z₀ ks l (p, x)) (st : Pool.StepWith E f M ins ks' (p, x) sel run (p', y) r)
      (hq : ∀ i ∈ run, Q (ins i).pop) : Pool.PlayedWith E f M P Q z₀ (ks ++ ks') (l ++ run.map fun i => (ins i).pop) (p', y)
  | push {p : Pool} {x : Users} {ks l m} (h : Pool.PlayedWith E f M P Q z₀ ks l (p, x)) (hm : P m) (hM : p.members.length < M) : Pool.PlayedWith E f M P Q z₀ ks l (p.push m, x)
  | addCond {p : Pool} {x : Users} {ks l c} (h : Pool.PlayedWith E f M P Q z₀ ks l (p, x)) : Pool.PlayedWith E f M P Q z₀ ks l (p.addCond c, x)
  | interrupt {p : Pool} {x : Users} {ks l} (h : Pool.PlayedWith E f M P Q z₀ ks l (p, x)) : Pool.PlayedWith E f M P Q z₀ ks l (p.interrupt, x)
  | test {p : Pool} {x : Users} {ks l} (h : Pool.PlayedWith E f M P Q z₀ ks l (p, x)) : Pool.PlayedWith E f M P Q z₀ ks l ((p.testStop E).1, x)
  /-- something happens in the evaluator between the calls of the pool -/
  | work {p : Pool} {x y : Users} {ks l k} (h : Pool.PlayedWith E f M P Q z₀ ks l (p, x)) (st : ShStep (deterministic f) (fun _ => anyClient) (.pool k) x y) :
      Pool.PlayedWith E f M P Q z₀ (ks ++ [.work k]) l (p, y)
  /-- a thread that does not belong to the pool uses the evaluator between the calls of the pool -/
  | other {p : Pool} {x y : Users} {ks l k} (h : Pool.PlayedWith E f M P Q z₀ ks l (p, x)) (st : ShStep (deterministic f) (fun _ => anyClient) k x y) (hk : k = .enter ∨ k = .leave)
      (ho : ∀ j < M, y.inside[j]? = x.inside[j]?) : Pool.PlayedWith E f M P Q z₀ (ks ++ [.other k]) l (p, y)

end Spot
