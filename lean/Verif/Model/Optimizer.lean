import Verif.Model.SearchPoint

/-!
# spot/optimizer.h, spot/optimizer.cpp, spot/stop_condition.h, spot/stop_condition.cpp, spot/reporter.h

The state machine shared by all optimizers. What the optimizer calls but does not control is a parameter: the population that the
algorithm samples, the results that the evaluator returns, the reporters, other threads calling `interrupt`, and the numerical
pieces of xo collected in `OptEnv`. Counters (`size_t`) are unbounded. Reporters may throw `std::exception`s only (anything else
leaves `step` and is not modelled), and cannot change the optimizer, which they receive as `const`.
-/

namespace Spot

/-- Values of a search point. -/
abbrev Pt := List Dbl

/-- `xo::linear_function< float >`. -/
structure Lin where
  slope : Dbl
  intercept : Dbl
deriving DecidableEq

/-- Numerical functions of xo / the FPU that are not in the repo. -/
structure OptEnv where
  /-- `static_cast<float>( double )`. -/
  toFloat : Dbl → Dbl
  /-- `xo::repeated_median_regression` of the samples at `start, start + 1, ...`. -/
  regress : Int → List Dbl → Lin
  /-- `f( x )` of a linear function at an integer, in float arithmetic. -/
  evalLin : Lin → Nat → Dbl
  /-- `slope / |f( samples - 0.5 * size )|` in float arithmetic (spot/optimizer.cpp:135). -/
  relSlope : Lin → Nat → Nat → Dbl

/-- The data members of `optimizer` a stop condition or reporter can see (spot/optimizer.h:91-112). `fitness_history_` is a bounded
deque: content and capacity. -/
structure Vis where
  info : ObjInfo
  stepCount : Nat := 0
  bestFitness : Dbl
  bestPoint : Pt
  curFitness : Dbl
  curFitnesses : List Dbl := []
  curPoint : Pt
  samples : Nat := 0
  history : List Dbl := []
  capacity : Nat := 0
  trend : Lin := ⟨.fin 0, .fin 0⟩
  trendStep : Option Nat := none
  stopRequested : Bool := false
  maxErrors : Int := 0

/-- The visible state without the cache of `fitness_trend` (`mutable` members, spot/optimizer.h:102-103). -/
def Vis.core (v : Vis) : Vis := { v with trend := ⟨.fin 0, .fin 0⟩, trendStep := none }

/-- spot/stop_condition.h:9-90. `custom` stands for user defined conditions (and `similarity_condition`, see
Model/Similarity): a minimum window, whether it asks for the fitness trend, and a predicate on what the optimizer shows. The state of `error_condition` is whether its message is set; the
`prediction_` of `predicted_fitness_condition` is only used for its message and left out. -/
inductive Cond
  | abort
  | error (set : Bool)
  | flat (epsilon : Dbl)
  | target (t : Dbl)
  | maxSteps (n : Nat)
  | minProgress (p : Dbl) (minSamples : Nat)
  | predicted (fitness : Dbl) (lookAhead minSamples : Nat)
  | custom (window : Nat) (asks : Bool) (test : Vis → Bool)

/-- `minimum_fitness_tracking_window_size` (spot/stop_condition.h:16, 63, 74). -/
def Cond.minWindow : Cond → Nat
  | .minProgress _ m => m
  | .predicted _ _ m => m
  | .custom w _ _ => w
  | _ => 0

/-- The callbacks of spot/reporter.h:13-20 with their arguments (the optimizer itself is passed along as `Vis`). -/
inductive Event
  | start
  | preStep
  | preEvaluate (pop : List Pt)
  | newBest (p : Pt) (f : Dbl)
  | postEvaluate (pop : List Pt) (fs : List Dbl) (newBest : Bool)
  | postStep
  | stop (k : Nat)
deriving DecidableEq

/-- A reporter: whether it throws on the last of the callbacks it received, and the callbacks it received so far. -/
structure Rep where
  throws : List (Event × Vis) → Bool
  got : List (Event × Vis) := []

/-- An optimizer: visible state, stop conditions, the stop condition that fired, reporters; and, for stating properties, the
sequence of all `signal_reporters` calls. -/
structure Opt where
  vis : Vis
  conds : List Cond
  stopped : Option Nat := none
  reps : List Rep := []
  log : List (Event × Vis) := []

/-- spot/optimizer.h:123-133 `signal_reporters`: the loop is left when a reporter throws. -/
def signalLoop (e : Event × Vis) : List Rep → List Rep
  | [] => []
  | r :: rs =>
    let r' := { r with got := r.got ++ [e] }
    if r'.throws r'.got then r' :: rs else r' :: signalLoop e rs

/-- spot/optimizer.h:123-133. -/
def Opt.signal (s : Opt) (e : Event) : Opt :=
  { s with reps := signalLoop (e, s.vis) s.reps, log := s.log ++ [(e, s.vis)] }

/-- `fitness_history_.reserve( n )` (spot/optimizer.h:60; xo::circular_deque, assumed to keep the most recent elements). -/
def Vis.setWindow (v : Vis) (n : Nat) : Vis :=
  { v with capacity := n, history := v.history.drop (v.history.length - n) }

/-- spot/optimizer.cpp:99-104 `add_stop_condition`. -/
def Opt.addCond (s : Opt) (c : Cond) : Opt :=
  { s with
    vis := if c.minWindow > s.vis.capacity then s.vis.setWindow c.minWindow else s.vis
    conds := s.conds ++ [c] }

/-- spot/optimizer.cpp:20-39, the constructor. -/
def Opt.init (info : ObjInfo) : Opt :=
  (({ vis := { info := info, bestFitness := info.worstFitness, bestPoint := (SearchPoint.ofInfo info).values,
               curFitness := info.worstFitness, curPoint := (SearchPoint.ofInfo info).values }, conds := [] } : Opt).addCond
    .abort).addCond (.error false)

/-- spot/optimizer.cpp:111-127 `fitness_trend`. -/
def Vis.fitnessTrend (E : OptEnv) (v : Vis) : Vis × Lin :=
  if v.trendStep ≠ some v.samples then
    let t := if v.history.length ≥ 2 then E.regress ((v.samples : Int) - v.history.length) v.history else ⟨.fin 0, .fin 0⟩
    ({ v with trend := t, trendStep := some v.samples }, t)
  else (v, v.trend)

/-- spot/optimizer.cpp:129-139 `progress`. -/
def Vis.progress (E : OptEnv) (v : Vis) : Vis × Res Dbl :=
  if v.capacity = 0 then (v, .err)
  else if v.history.length ≥ 2 then
    let (v', t) := v.fitnessTrend E
    let imp := E.relSlope t v.samples v.history.length
    (v', .ok (if v.info.minimize then imp.neg else imp))
  else (v, .ok (.fin 0))

/-- spot/optimizer.cpp:141-148 `predicted_fitness`. -/
def Vis.predictedFitness (E : OptEnv) (v : Vis) (ahead : Nat) : Vis × Res Dbl :=
  if v.capacity = 0 then (v, .err)
  else if v.history.length ≥ 2 then
    let (v', t) := v.fitnessTrend E
    (v', .ok (E.evalLin t (v.stepCount + ahead)))
  else (v, .ok (.fin 0))

/-- Largest and smallest element as found by `std::max_element` / `std::min_element`. -/
def maxOf (f : List Dbl) : Option Dbl := f[ObjInfo.minElem (fun x b => Dbl.lt b x) f]?
def minOf (f : List Dbl) : Option Dbl := f[ObjInfo.minElem (fun x b => Dbl.lt x b) f]?

/-- The `test` functions of spot/stop_condition.cpp:9-55 and spot/stop_condition.h:28. -/
def Cond.test (E : OptEnv) (c : Cond) (v : Vis) : Vis × Res Bool :=
  match c with
  | .abort => (v, .ok v.stopRequested)
  | .error set => (v, .ok set)
  | .flat eps =>
    if v.stepCount > 0 then
      match maxOf v.curFitnesses, minOf v.curFitnesses with
      | some h, some l => (v, .ok (Dbl.lt (Dbl.sub h l) eps))
      | _, _ => (v, .ub)
    else (v, .ok false)
  | .target t => (v, .ok (v.info.isBetter v.bestFitness t))
  | .maxSteps n => (v, .ok (decide (v.stepCount ≥ n)))
  | .minProgress p m =>
    if v.stepCount ≥ m then
      match v.progress E with
      | (v', .ok x) => (v', .ok (Dbl.lt x p))
      | (v', .err) => (v', .err)
      | (v', .ub) => (v', .ub)
    else (v, .ok false)
  | .predicted f ahead m =>
    if v.stepCount ≥ m then
      match v.predictedFitness E ahead with
      | (v', .ok x) => (v', .ok (!v.info.isBetter x f))
      | (v', .err) => (v', .err)
      | (v', .ub) => (v', .ub)
    else (v, .ok false)
  | .custom _ true t => ((v.fitnessTrend E).1, .ok (t (v.fitnessTrend E).1))
  | .custom _ false t => (v, .ok (t v.core))

/-- The loop of spot/optimizer.cpp:87-95; `k` is the index of the first condition of the list. -/
def testLoop (E : OptEnv) : Nat → List Cond → Vis → Vis × Res (Option Nat)
  | _, [], v => (v, .ok none)
  | k, c :: cs, v =>
    match c.test E v with
    | (v', .ok true) => (v', .ok (some k))
    | (v', .ok false) => testLoop E (k + 1) cs v'
    | (v', .err) => (v', .err)
    | (v', .ub) => (v', .ub)

/-- spot/optimizer.cpp:82-97 `test_stop_conditions`. -/
def Opt.testStop (E : OptEnv) (s : Opt) : Opt × Res (Option Nat) :=
  match s.stopped with
  | some k => (s, .ok (some k))
  | none =>
    match testLoop E 0 s.conds s.vis with
    | (v, .ok (some k)) => (({ s with vis := v, stopped := some k } : Opt).signal (.stop k), .ok (some k))
    | (v, r) => ({ s with vis := v }, r)

/-- Set the first `error_condition` (`find_stop_condition<error_condition>().set`, spot/optimizer.cpp:218). -/
def setError : List Cond → List Cond
  | [] => []
  | .error _ :: cs => .error true :: cs
  | c :: cs => c :: setError cs

/-- Number of failed results. -/
def errorCount (res : List (Option Dbl)) : Nat := (res.filter Option.isNone).length

/-- spot/optimizer.cpp:207-208: how many errors are allowed (compared as integers). -/
def allowedErrors (maxErrors : Int) (n : Nat) : Int := if maxErrors ≥ 0 then maxErrors else (n : Int) + maxErrors

/-- spot/optimizer.cpp:224-233 `update_fitness_tracking` (non-virtual `current_step_best_fitness`). -/
def Vis.track (E : OptEnv) (v : Vis) : Vis :=
  if v.capacity > 0 then
    let h := if v.history.length = v.capacity then v.history.drop 1 else v.history
    { v with history := h ++ [E.toFloat v.curFitness], samples := v.samples + 1 }
  else v

/-- spot/optimizer.cpp:163-202 `evaluate_step`, with the population and the results the evaluator returned for it. -/
def Opt.evaluateStep (E : OptEnv) (s : Opt) (pop : List Pt) (res : List (Option Dbl)) : Opt × Res Bool :=
  let s := s.signal (.preEvaluate pop)
  if (errorCount res : Int) > allowedErrors s.vis.maxErrors res.length then
    ({ s with conds := setError s.conds }, .ok false)
  else
    let fs := res.map (fun r => r.getD s.vis.info.worstFitness)
    let b := s.vis.info.findBestFitness fs
    match fs[b]?, pop[b]? with
    | some f, some p =>
      let s := { s with vis := { s.vis with curFitnesses := fs, curFitness := f, curPoint := p } }
      let nb := s.vis.info.isBetter f s.vis.bestFitness
      match (if nb then
          (if s.vis.bestPoint.length = p.length then
            Res.ok (({ s with vis := { s.vis with bestFitness := f, bestPoint := p.map rounded } } : Opt).signal (.newBest (p.map rounded) f))
           else Res.ub)
        else Res.ok s) with
      | .ok s =>
        let s := { s with vis := s.vis.track E }
        (s.signal (.postEvaluate pop fs nb), .ok true)
      | _ => (s, .ub)
    | _, _ => (s, .ub)

/-- spot/optimizer.cpp:44-65 `step`, for any `internal_step`. -/
def Opt.step (E : OptEnv) (internal : Opt → Opt × Res Bool) (s : Opt) : Opt × Res (Option Nat) :=
  if s.vis.info.dim = 0 then (s, .err)
  else
    let s := if s.vis.stepCount = 0 then s.signal .start else s
    let s := s.signal .preStep
    match internal s with
    | (s, .ok true) =>
      let s := s.signal .postStep
      ({ s with vis := { s.vis with stepCount := s.vis.stepCount + 1 } } : Opt).testStop E
    | (s, .ok false) => s.testStop E
    | (s, .err) => (s, .err)
    | (s, .ub) => (s, .ub)

/-- What happens outside the optimizer during one step: the population the algorithm asks to evaluate, the results returned for
it, and whether another thread interrupts the optimizer before the stop conditions are tested. -/
structure In where
  pop : List Pt
  res : List (Option Dbl)
  interrupt : Bool := false

/-- spot/optimizer.h:75 `interrupt`. -/
def Opt.interrupt (s : Opt) : Opt := { s with vis := { s.vis with stopRequested := true } }

/-- `internal_step` of the evolutionary optimizers as far as the base class sees it: one `evaluate_step`. -/
def Opt.internal (E : OptEnv) (i : In) (s : Opt) : Opt × Res Bool :=
  let (s, r) := s.evaluateStep E i.pop i.res
  (if i.interrupt then s.interrupt else s, r)

/-- The loop of spot/optimizer.cpp:75-77. The environment may depend on everything that happened before. -/
def Opt.runLoop (E : OptEnv) (env : Opt → In) : Nat → Opt → Opt × Res (Option Nat)
  | 0, s => (s, .ok none)
  | n + 1, s =>
    match s.step E (Opt.internal E (env s)) with
    | (s, .ok none) => Opt.runLoop E env n s
    | (s, r) => (s, r)

/-- spot/optimizer.cpp:67-80 `run`. -/
def Opt.run (E : OptEnv) (env : Opt → In) (n : Nat) (s : Opt) : Opt × Res (Option Nat) :=
  if s.vis.info.dim = 0 then (s, .err)
  else Opt.runLoop E env (if n = 0 then 2 ^ 64 - 1 else n) s

end Spot
