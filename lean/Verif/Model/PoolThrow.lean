import Verif.Model.Nested

/-!
# spot/optimizer_pool.cpp: steps of a pool that end with an exception

Model/Pool and Model/Nested follow a pool until a step ends with an exception. Here it is used further. An exception can come from a member whose step throws, where it is stored in the future and thrown
again by `get` (line 117), or from a stop condition; those of reporters are caught (spot/optimizer.h:130). The futures are then destroyed, which waits for the threads: the members that were stepped have made
their steps, but those after the one that threw are not looked at.
-/

namespace Spot

/-- The states of an optimizer in which an exception can leave `step` before its population has been evaluated (spot/optimizer.cpp:44-57, 163-168): no free parameters; the algorithm fails to make the
population; the evaluator throws. -/
def Opt.stages (i : In) (m : Opt) : List Opt :=
  if m.vis.info.dim = 0 then [m]
  else
    let b := (if m.vis.stepCount = 0 then m.signal .start else m).signal .preStep
    [b, b.signal (.preEvaluate i.pop)]

/-- The step of an optimizer ends with an exception, in one of these states or in a stop condition (spot/optimizer.cpp:64); another thread may have interrupted it. -/
def Opt.Throws (E : OptEnv) (m m' : Opt) : Prop := ∃ i x, (x ∈ m.stages i ∨ m.step E (Opt.internal E i) = (x, .err)) ∧ (m' = x ∨ m' = x.interrupt)

/-- The state while members are being stepped (spot/optimizer_pool.cpp:108-135): `RunStG` with the members whose step has ended with an exception, and whether an exception is leaving the function; `futs` are
then the futures that are destroyed. `stale` is not in the code: the members that may have been stepped since they were looked at for the last time, other than those of `futs`. -/
structure RunStX (M : Type) where
  pool : PoolG M
  running : List Nat
  futs : List Nat
  failed : List Nat := []
  threw : Bool := false
  stale : List Nat := []

/-- spot/optimizer_pool.cpp:108-113. -/
def PoolG.launchX {M : Type} (p : PoolG M) (stale : List Nat) : RunStX M :=
  { pool := { p with queue := p.queue.drop p.cfg.concurrent }
    running := p.queue.take p.cfg.concurrent, futs := p.queue.take p.cfg.concurrent, stale := stale }

section
variable {M : Type} (I : Iface M) (T : M → M → Prop)

/-- Transitions while members are being stepped; `T m m'`: the step of member `m` can end with an exception and leave it as `m'`. -/
inductive RunStepX : RunStX M → RunStX M → Prop
  /-- the step of member `i` ends -/
  | finish {r : RunStX M} {i m m'} (h : i ∈ r.running) (hm : r.pool.members[i]? = some m) (hs : I.Step m m') :
      RunStepX r { r with pool := { r.pool with members := r.pool.members.set i m' }, running := r.running.erase i }
  /-- the step of member `i` ends with an exception, which is stored in the future -/
  | fail {r : RunStX M} {i m m'} (h : i ∈ r.running) (hm : r.pool.members[i]? = some m) (hs : T m m') :
      RunStepX r { r with pool := { r.pool with members := r.pool.members.set i m' }, running := r.running.erase i, failed := i :: r.failed }
  /-- lines 117-134 -/
  | collect {r : RunStX M} {i is p} (ht : r.threw = false) (h : r.futs = i :: is) (hr : i ∉ r.running) (hf : i ∉ r.failed) (hc : r.pool.collect I i = (p, .ok ())) :
      RunStepX r { r with pool := p, futs := is, stale := r.stale.filter (fun j => decide (j ≠ i)) }
  /-- lines 117-128, a condition is not found -/
  | throws {r : RunStX M} {i is p} (ht : r.threw = false) (h : r.futs = i :: is) (hr : i ∉ r.running) (hf : i ∉ r.failed) (hc : r.pool.collect I i = (p, .err)) :
      RunStepX r { r with pool := p, futs := is, stale := r.stale.filter (fun j => decide (j ≠ i)), threw := true }
  /-- line 117, `get` throws the stored exception -/
  | rethrow {r : RunStX M} {i is} (ht : r.threw = false) (h : r.futs = i :: is) (hr : i ∉ r.running) (hf : i ∈ r.failed) : RunStepX r { r with threw := true }
  /-- line 112, a future whose step `std::async` has deferred is destroyed: the step is not made -/
  | drop {r : RunStX M} {i} (ht : r.threw = true) (h : i ∈ r.running) : RunStepX r { r with running := r.running.erase i }
  /-- another thread interrupts the pool -/
  | interrupt {r : RunStX M} : RunStepX r { r with pool := r.pool.interrupt I }

/-- Any number of transitions. -/
inductive RunExecX : RunStX M → RunStX M → Prop
  | nil {r} : RunExecX r r
  | snoc {r s t} (h : RunExecX r s) (st : RunStepX I T s t) : RunExecX r t

variable (E : OptEnv)

/-- The first callbacks of a step, spot/optimizer.cpp:50-54. -/
def PoolG.begin (p : PoolG M) : PoolG M := (if p.own.stepCount = 0 then p.signal .start else p).signal .preStep

/-- spot/optimizer.cpp:57-61: a step has been made. -/
def PoolG.made (p : PoolG M) : PoolG M := { p.signal .postStep with own := { p.own with stepCount := p.own.stepCount + 1 } }

/-- spot/optimizer.cpp:44-65 `step` of a pool: the pool and the members that may have been stepped since they were looked at, before and afterwards; `true` if it ends with an exception. -/
inductive PoolG.StepX : PoolG M → List Nat → PoolG M → List Nat → Bool → Prop
  | ends {p p₂ p₃ : PoolG M} {t : RunStX M} {sel S : List Nat} {r : Option Nat} (hd : p.own.info.dim ≠ 0) (hne : p.members ≠ []) (h2 : RefillG I p.begin sel p₂)
      (h3 : RunExecX I T (p₂.launchX S) t) (hend : t.running = [] ∧ t.futs = [] ∧ t.threw = false) (h4 : PoolG.testStop I E t.pool.made = (p₃, .ok r)) :
      PoolG.StepX p S p₃ t.stale false
  /-- no free parameters (line 47) -/
  | dim {p : PoolG M} {S : List Nat} (hd : p.own.info.dim = 0) : PoolG.StepX p S p S true
  /-- a stop condition or a prediction of a member, spot/optimizer_pool.cpp:66-69 -/
  | predicting {p : PoolG M} {S : List Nat} {ms : List M} (hd : p.own.info.dim ≠ 0) (hne : p.members ≠ []) (hq : p.queue = [])
      (hp : predictLoopG I p.cfg p.own.info 0 p.members = (ms, .err)) : PoolG.StepX p S { p.begin with members := ms } S true
  /-- a stop condition of a member, spot/optimizer_pool.cpp:89; some members may have been queued already (more often than in the code, any number of them) -/
  | filling {p : PoolG M} {S : List Nat} {ms ms' : List M} {preds : List Dbl} {ord q : List Nat} (hd : p.own.info.dim ≠ 0) (hne : p.members ≠ []) (hq : p.queue = [])
      (hp : predictLoopG I p.cfg p.own.info 0 p.members = (ms, .ok preds)) (ho : SortedOrder p.own.info preds ord) (hf : fillLoopG I p.cfg.concurrent preds ord [] ms = (ms', .err)) (hpre : q <+: ord) :
      PoolG.StepX p S { p.begin with members := ms', queue := q } S true
  /-- an exception leaves `internal_step`, after all threads have ended -/
  | running {p p₂ : PoolG M} {t : RunStX M} {sel S : List Nat} (hd : p.own.info.dim ≠ 0) (hne : p.members ≠ []) (h2 : RefillG I p.begin sel p₂)
      (h3 : RunExecX I T (p₂.launchX S) t) (hend : t.running = [] ∧ t.threw = true) : PoolG.StepX p S t.pool (t.futs ++ t.stale) true
  /-- a stop condition of the pool -/
  | testing {p p₂ p₃ : PoolG M} {t : RunStX M} {sel S : List Nat} (hd : p.own.info.dim ≠ 0) (hne : p.members ≠ []) (h2 : RefillG I p.begin sel p₂)
      (h3 : RunExecX I T (p₂.launchX S) t) (hend : t.running = [] ∧ t.futs = [] ∧ t.threw = false) (h4 : PoolG.testStop I E t.pool.made = (p₃, .err)) :
      PoolG.StepX p S p₃ t.stale true

/-- The calls of the interface of a pool, whose steps may end with exceptions; `PoolG.HistX P p q S`: `S` are the members that may have been stepped since they were looked at for the last time. -/
inductive PoolG.HistX (P : M → Prop) : PoolG M → PoolG M → List Nat → Prop
  | nil {p} : PoolG.HistX P p p []
  | step {p q q' : PoolG M} {S S' x} (h : PoolG.HistX P p q S) (st : PoolG.StepX I T E q S q' S' x) : PoolG.HistX P p q' S'
  | push {p q : PoolG M} {S m} (h : PoolG.HistX P p q S) (hm : P m) : PoolG.HistX P p (q.push I m) S
  | addCond {p q : PoolG M} {S c} (h : PoolG.HistX P p q S) : PoolG.HistX P p (q.addCond c) S
  | setWindow {p q : PoolG M} {S n} (h : PoolG.HistX P p q S) : PoolG.HistX P p { q with own := q.own.setWindow n } S
  | predicted {p q : PoolG M} {S n} (h : PoolG.HistX P p q S) : PoolG.HistX P p { q with own := (q.own.predictedFitness E n).1 } S
  | setTarget {p q : PoolG M} {S f cs} (h : PoolG.HistX P p q S) (hc : setTargetP f q.conds = some cs) : PoolG.HistX P p { q with conds := cs } S
  | interrupt {p q : PoolG M} {S} (h : PoolG.HistX P p q S) : PoolG.HistX P p (q.interrupt I) S
  | test {p q : PoolG M} {S} (h : PoolG.HistX P p q S) : PoolG.HistX P p (q.testStop I E).1 S

end

end Spot
