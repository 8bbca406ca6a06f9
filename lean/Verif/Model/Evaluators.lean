import Mathlib.Data.List.Basic

/-!
# spot/objective.cpp, spot/evaluator.cpp, spot/batch_evaluator.cpp, spot/async_evaluator.cpp, spot/pooled_evaluator.cpp

The evaluators are labelled transition systems: one transition is one action of one thread that other threads can observe. All
interleavings are allowed. `α` is the type of search points, `F` of fitnesses. Memory is sequentially consistent
(`stop_signal_` is a `std::atomic_bool` with default ordering, everything else is protected by the mutex or by futures). Thread
creation does not fail, thread priorities have no effect.
-/

namespace Spot.Evaluators

/-- `xo::result< fitness_t >`: a value or an error message. -/
abbrev Result (F : Type) := Except String F

/-- How a call of the virtual `objective::evaluate( point, stop_token )` of spot/objective.h:29 can end: it returns a result, it
throws a `std::exception` with a message, or it throws something else. -/
inductive Outcome (F : Type)
  | returns (r : Result F)
  | throwsStd (what : String)
  | throwsOther

/-- spot/objective.cpp:10-24 `evaluate_noexcept`. -/
def evaluateNoexcept {F : Type} : Outcome F → Result F
  | .returns r => r
  | .throwsStd what => .error what
  | .throwsOther => .error "Unknown exception while evaluating objective"

/-- An objective: the outcomes that are possible for a point. (A deterministic objective has exactly one.) -/
abbrev Objective (α F : Type) := α → Outcome F → Prop

/-- spot/evaluator.cpp:17-26 `sequential_evaluator::evaluate`: the loop over the remaining points; `results` are those pushed so
far and the second component lists the evaluations made (point, outcome), in order. -/
inductive Sequential {α F : Type} (o : Objective α F) : List α → List (Result F) → List (α × Outcome F) → Prop
  | nil : Sequential o [] [] []
  | cons {p ps out rs evs} (h : o p out) (t : Sequential o ps rs evs) :
      Sequential o (p :: ps) (evaluateNoexcept out :: rs) ((p, out) :: evs)

/-- Shared state of a `std::future` and the task that fulfils it: not yet created; created but the evaluation has not begun; the
evaluation is running; the result is available; the result has been taken by `get`. -/
inductive Fut (F : Type)
  | absent
  | spawned
  | running
  | ready (r : Result F)
  | taken
deriving DecidableEq

/-- What an outside observer sees of evaluations: task `t` begins, task `t` ends with an outcome. -/
inductive Ev (T F : Type)
  | start (t : T)
  | finish (t : T) (out : Outcome F)

/-- `max_threads_ > 0 ? max_threads_ : std::thread::hardware_concurrency() + max_threads_` (spot/async_evaluator.cpp:34,
spot/pooled_evaluator.cpp:69). The second operand is `unsigned` (32 bit), so the sum wraps around. -/
def threadCount (maxThreads : Int) (hardware : Nat) : Nat :=
  if maxThreads > 0 then maxThreads.toNat else ((hardware + maxThreads) % 2 ^ 32).toNat

/-! ## batch_evaluator, async_evaluator -/

/-- Where the calling thread is in `batch_evaluator::evaluate` (spot/batch_evaluator.cpp:12-33): in the first loop with `i` futures
created, in the second loop with `k` results fetched, or returned. -/
inductive BPc
  | launch (i : Nat)
  | get (k : Nat)
  | returned

/-- State of a call of `batch_evaluator::evaluate`. -/
structure BSt (F : Type) where
  pc : BPc := .launch 0
  fut : Nat → Fut F := fun _ => .absent
  results : List (Result F) := []
  log : List (Ev Nat F) := []

/-- The transitions of spot/batch_evaluator.cpp:12-33 for the points `pts`. -/
inductive BStep {α F : Type} (o : Objective α F) (pts : List α) : BSt F → BSt F → Prop
  /-- lines 16-24: `std::async` for the next point -/
  | launch {s : BSt F} {i} (h : s.pc = .launch i) (hi : i < pts.length) :
      BStep o pts s { s with pc := .launch (i + 1), fut := Function.update s.fut i .spawned }
  /-- end of the first loop -/
  | launched {s : BSt F} {i} (h : s.pc = .launch i) (hi : i = pts.length) : BStep o pts s { s with pc := .get 0 }
  /-- line 30: `f.get()` returns once the result is available -/
  | get {s : BSt F} {k r} (h : s.pc = .get k) (hr : s.fut k = .ready r) (hk : k < pts.length) :
      BStep o pts s { s with pc := .get (k + 1), fut := Function.update s.fut k .taken, results := s.results ++ [r] }
  /-- line 32 -/
  | done {s : BSt F} {k} (h : s.pc = .get k) (hk : k = pts.length) : BStep o pts s { s with pc := .returned }
  /-- the thread of task `i` starts the evaluation -/
  | start {s : BSt F} {i} (h : s.fut i = .spawned) :
      BStep o pts s { s with fut := Function.update s.fut i .running, log := s.log ++ [.start i] }
  /-- the thread of task `i` finishes the evaluation -/
  | finish {s : BSt F} {i p out} (h : s.fut i = .running) (hp : pts[i]? = some p) (ho : o p out) :
      BStep o pts s { s with fut := Function.update s.fut i (.ready (evaluateNoexcept out)), log := s.log ++ [.finish i out] }

/-- Where the calling thread is in `async_evaluator::evaluate` (spot/async_evaluator.cpp:29-63): at the test of the `while` loop for
point `i`; in the inner `for` loop, looking at element `k` of `threads`; in the last loop with `k` results fetched; returned. -/
inductive APc
  | top (i : Nat)
  | poll (i k : Nat)
  | drain (k : Nat)
  | returned

/-- State of a call of `async_evaluator::evaluate`. `threads` contains the second components of the pairs, the futures are in `fut`.
`none` is a default-constructed result. -/
structure ASt (F : Type) where
  pc : APc := .top 0
  threads : List Nat := []
  fut : Nat → Fut F := fun _ => .absent
  results : List (Option (Result F))
  log : List (Ev Nat F) := []

def ASt.init (F : Type) (n : Nat) : ASt F := { results := List.replicate n none }

/-- Kinds of transitions: `busy` is a `wait_for` that timed out, `again` a jump inside the waiting loop, `work` all others. -/
inductive AKind
  | busy
  | again
  | work
deriving DecidableEq

/-- The transitions of spot/async_evaluator.cpp:29-63 for the points `pts` and the computed `thread_count` `tc`. -/
inductive AStep {α F : Type} (o : Objective α F) (pts : List α) (tc : Nat) : AKind → ASt F → ASt F → Prop
  /-- line 38, condition true -/
  | enter {s : ASt F} {i} (h : s.pc = .top i) (hi : i < pts.length) (hc : s.threads.length ≥ tc) :
      AStep o pts tc .again s { s with pc := .poll i 0 }
  /-- lines 42-48, the future is ready: store the result, erase the element -/
  | collect {s : ASt F} {i k idx r} (h : s.pc = .poll i k) (hk : s.threads[k]? = some idx) (hr : s.fut idx = .ready r) :
      AStep o pts tc .work s { s with
        fut := Function.update s.fut idx .taken, threads := s.threads.eraseIdx k, results := s.results.set idx (some r) }
  /-- line 50, not ready within a millisecond -/
  | skip {s : ASt F} {i k idx} (h : s.pc = .poll i k) (hk : s.threads[k]? = some idx) (hr : ∀ r, s.fut idx ≠ .ready r) :
      AStep o pts tc .busy s { s with pc := .poll i (k + 1) }
  /-- end of the inner loop -/
  | again {s : ASt F} {i k} (h : s.pc = .poll i k) (hk : k = s.threads.length) :
      AStep o pts tc .again s { s with pc := .top i }
  /-- line 55: `std::async` for the next point -/
  | launch {s : ASt F} {i} (h : s.pc = .top i) (hi : i < pts.length) (hc : s.threads.length < tc) :
      AStep o pts tc .work s { s with
        pc := .top (i + 1), threads := s.threads ++ [i], fut := Function.update s.fut i .spawned }
  /-- end of the outer loop -/
  | launched {s : ASt F} {i} (h : s.pc = .top i) (hi : i = pts.length) : AStep o pts tc .work s { s with pc := .drain 0 }
  /-- lines 59-60 -/
  | get {s : ASt F} {k idx r} (h : s.pc = .drain k) (hk : s.threads[k]? = some idx) (hr : s.fut idx = .ready r) :
      AStep o pts tc .work s { s with
        pc := .drain (k + 1), fut := Function.update s.fut idx .taken, results := s.results.set idx (some r) }
  /-- line 62 -/
  | done {s : ASt F} {k} (h : s.pc = .drain k) (hk : k = s.threads.length) : AStep o pts tc .work s { s with pc := .returned }
  /-- the thread of task `i` starts the evaluation -/
  | start {s : ASt F} {i} (h : s.fut i = .spawned) :
      AStep o pts tc .work s { s with fut := Function.update s.fut i .running, log := s.log ++ [.start i] }
  /-- the thread of task `i` finishes the evaluation -/
  | finish {s : ASt F} {i p out} (h : s.fut i = .running) (hp : pts[i]? = some p) (ho : o p out) :
      AStep o pts tc .work s { s with
        fut := Function.update s.fut i (.ready (evaluateNoexcept out)), log := s.log ++ [.finish i out] }

end Spot.Evaluators
