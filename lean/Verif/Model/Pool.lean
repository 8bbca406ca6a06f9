import Verif.Model.Optimizer

/-!
# spot/optimizer_pool.h, spot/optimizer_pool.cpp

A pool of optimizers. The members are optimizers in the sense of `Verif.Model.Optimizer` (pools inside pools: `Verif.Model.Nested`). The
members that are stepped in one step of the pool run in threads of their own; every interleaving of their ends with the actions of
the pool is allowed. A step of a member is one transition, at the moment it ends; `RunSt.Race` describes the accesses of the pool to
a member whose step has not ended. Reporters of the pool are represented by the sequence of signals only (`Verif.Model.Optimizer`
models what reporters do).
-/

namespace Spot

/-- spot/optimizer_pool.h:31-47; the defaults are those of spot/optimizer_pool.cpp:24-29. -/
structure PoolCfg where
  window : Nat := 100
  start : Nat := window
  lookAhead : Nat := window
  usePredicted : Bool := false
  active : Nat := 6
  concurrent : Nat := 3

/-- A stop condition of the pool: one of those any optimizer can have, or spot/optimizer_pool.cpp:10-20 `pool_stop_condition`. -/
inductive PCond
  | own (c : Cond)
  | allStopped

/-- Data members of `optimizer_pool` (spot/optimizer_pool.h:50-58) and of its base class: `own` (what concerns best and current fitness
in there is not used, the getters are overridden), stop conditions, the one that fired, and the sequence of `signal_reporters` calls. -/
structure Pool where
  cfg : PoolCfg
  own : Vis
  conds : List PCond
  stopped : Option Nat := none
  best : Dbl
  bestIdx : Option Nat := none
  members : List Opt := []
  queue : List Nat := []
  log : List Event := []

/-- spot/optimizer_pool.cpp:22-34, the constructor. -/
def Pool.init (cfg : PoolCfg) (info : ObjInfo) : Pool :=
  { cfg := cfg, own := (Opt.init info).vis, conds := (Opt.init info).conds.map .own ++ [.allStopped], best := info.worstFitness }

/-- spot/optimizer_pool.cpp:36-44 `push_back`. -/
def Pool.push (p : Pool) (m : Opt) : Pool :=
  let m := { m with vis := m.vis.setWindow p.cfg.window }
  { p with members := p.members ++
      [if p.cfg.usePredicted then m.addCond (.predicted p.own.info.worstFitness p.cfg.lookAhead p.cfg.start) else m] }

/-- spot/optimizer.cpp:99-104 `add_stop_condition` of the pool. -/
def Pool.addCond (p : Pool) (c : Cond) : Pool :=
  { p with own := if c.minWindow > p.own.capacity then p.own.setWindow c.minWindow else p.own, conds := p.conds ++ [.own c] }

/-- spot/optimizer_pool.cpp:46-51 `interrupt`. -/
def Pool.interrupt (p : Pool) : Pool :=
  { p with members := p.members.map Opt.interrupt, own := { p.own with stopRequested := true } }

/-- spot/optimizer_pool.h:58 `best_optimizer`, with its assertion. -/
def Pool.bestMember (p : Pool) : Res Opt :=
  match p.bestIdx with
  | none => .ub
  | some k => match p.members[k]? with
    | some m => .ok m
    | none => .ub

/-- spot/optimizer_pool.h:18-22: the getters. -/
def Pool.bestFitness (p : Pool) : Res Dbl := p.bestMember >>= fun m => .ok m.vis.bestFitness
def Pool.bestPoint (p : Pool) : Res Pt := p.bestMember >>= fun m => .ok m.vis.bestPoint

/-- What a stop condition sees of the pool, through the overridden getters. -/
def Pool.view (p : Pool) : Res Vis := p.bestMember >>= fun m => .ok { p.own with
  bestFitness := m.vis.bestFitness, bestPoint := m.vis.bestPoint, curFitness := m.vis.curFitness
  curFitnesses := m.vis.curFitnesses, curPoint := m.vis.curPoint }

/-- Whether the test of a condition uses the overridden getters. -/
def Cond.usesBest (c : Cond) (v : Vis) : Bool :=
  match c with
  | .flat _ => v.stepCount > 0
  | .target _ => true
  | .custom _ _ _ => true
  | _ => false

/-- spot/optimizer_pool.cpp:15-18: the loop over all members; the result of every test is wanted, so all members are tested. -/
def testAll (E : OptEnv) : List Opt → List Opt × Res Bool
  | [] => ([], .ok true)
  | m :: ms =>
    match m.testStop E with
    | (m', .ok r) =>
      match testAll E ms with
      | (ms', .ok b) => (m' :: ms', .ok (r.isSome && b))
      | (ms', r') => (m' :: ms', r')
    | (m', .err) => (m' :: ms, .err)
    | (m', .ub) => (m' :: ms, .ub)

/-- The test of one stop condition of the pool. -/
def Pool.testCond (E : OptEnv) (p : Pool) : PCond → Pool × Res Bool
  | .allStopped => ({ p with members := (testAll E p.members).1 }, (testAll E p.members).2)
  | .own c =>
    match p.view, c.usesBest p.own with
    | .ok v, _ => ({ p with own := { p.own with trend := (c.test E v).1.trend, trendStep := (c.test E v).1.trendStep } }, (c.test E v).2)
    | _, true => (p, .ub)
    | _, false => ({ p with own := (c.test E p.own).1 }, (c.test E p.own).2)

/-- The loop of spot/optimizer.cpp:87-95. -/
def Pool.testLoop (E : OptEnv) : Nat → List PCond → Pool → Pool × Res (Option Nat)
  | _, [], p => (p, .ok none)
  | k, c :: cs, p =>
    match p.testCond E c with
    | (p', .ok true) => (p', .ok (some k))
    | (p', .ok false) => Pool.testLoop E (k + 1) cs p'
    | (p', .err) => (p', .err)
    | (p', .ub) => (p', .ub)

/-- spot/optimizer.h:123-133. -/
def Pool.signal (p : Pool) (e : Event) : Pool := { p with log := p.log ++ [e] }

/-- spot/optimizer.cpp:82-97 `test_stop_conditions` of the pool. -/
def Pool.testStop (E : OptEnv) (p : Pool) : Pool × Res (Option Nat) :=
  match p.stopped with
  | some k => (p, .ok (some k))
  | none =>
    match Pool.testLoop E 0 p.conds p with
    | (p', .ok (some k)) => (({ p' with stopped := some k } : Pool).signal (.stop k), .ok (some k))
    | (p', r) => (p', r)

/-- spot/optimizer_pool.cpp:59-77 `compute_predicted_fitnesses`; `n` members have been counted as active. -/
def predictLoop (E : OptEnv) (cfg : PoolCfg) (info : ObjInfo) : Nat → List Opt → List Opt × Res (List Dbl)
  | _, [] => ([], .ok [])
  | n, m :: ms =>
    if n < cfg.active then
      match m.testStop E with
      | (m', .ok none) =>
        let (m', x) := if m'.vis.stepCount ≥ cfg.start then
            ({ m' with vis := (m'.vis.predictedFitness E cfg.lookAhead).1 }, (m'.vis.predictedFitness E cfg.lookAhead).2)
          else (m', .ok info.bestFitness)
        match x with
        | .ok x =>
          let (ms', r) := predictLoop E cfg info (n + 1) ms
          (m' :: ms', r >>= fun xs => .ok (x :: xs))
        | .err => (m' :: ms, .err)
        | .ub => (m' :: ms, .ub)
      | (m', .ok (some _)) =>
        let (ms', r) := predictLoop E cfg info n ms
        (m' :: ms', r >>= fun xs => .ok (info.worstFitness :: xs))
      | (m', .err) => (m' :: ms, .err)
      | (m', .ub) => (m' :: ms, .ub)
    else
      let (ms', r) := predictLoop E cfg info n ms
      (m :: ms', r >>= fun xs => .ok (info.worstFitness :: xs))

/-- spot/optimizer_pool.cpp:92-93: there is a next index and its prediction is different. -/
def nextDiffers (preds : List Dbl) (i : Nat) : List Nat → Bool
  | [] => false
  | j :: _ => match preds[i]?, preds[j]? with
    | some x, some y => !Dbl.eq x y
    | _, _ => false

/-- The loop of spot/optimizer_pool.cpp:89-97 over the sorted indices; `q` have been queued. -/
def fillLoop (E : OptEnv) (conc : Nat) (preds : List Dbl) : List Nat → List Nat → List Opt → List Opt × Res (List Nat)
  | [], q, ms => (ms, .ok q)
  | i :: is, q, ms =>
    match ms[i]? with
    | none => (ms, .ub)
    | some m =>
      match m.testStop E with
      | (m', .ok (some _)) => (ms.set i m', .ok q)
      | (m', .ok none) =>
        let q := q ++ [i]
        if nextDiffers preds i is && decide (q.length ≥ conc) then (ms.set i m', .ok q) else fillLoop E conc preds is q (ms.set i m')
      | (m', .err) => (ms.set i m', .err)
      | (m', .ub) => (ms.set i m', .ub)

/-- `xo::sorted_indices` (xo, not in the repo): any permutation of the indices in which no later prediction is better than an earlier
one. If there is a NaN among the predictions, `is_better` is not a strict weak order and any permutation can result. -/
def SortedOrder (info : ObjInfo) (preds : List Dbl) (ord : List Nat) : Prop :=
  ord.Perm (List.range preds.length) ∧
  (Dbl.nan ∉ preds → ord.Pairwise (fun i j => ∀ x y, preds[i]? = some x → preds[j]? = some y → info.isBetter y x = false))

/-- spot/optimizer_pool.cpp:83-106: fill the queue if it is empty. -/
inductive Refill (E : OptEnv) : Pool → List Nat → Pool → Prop
  | keep {p : Pool} (h : p.queue ≠ []) : Refill E p [] p
  | fill {p : Pool} {ms ms' : List Opt} {preds : List Dbl} {ord q : List Nat} (h : p.queue = [])
      (hp : predictLoop E p.cfg p.own.info 0 p.members = (ms, .ok preds)) (ho : SortedOrder p.own.info preds ord)
      (hf : fillLoop E p.cfg.concurrent preds ord [] ms = (ms', .ok q))
      /- line 99: the text that is composed asks for `best_fitness()` unless this is the first step -/
      (hb : p.own.stepCount > 0 → p.bestMember ≠ .ub) :
      Refill E p q { p with members := ms', queue := q }

/-- `o->find_stop_condition<predicted_fitness_condition>().fitness_ = f`, `none` if there is no such condition (an exception). -/
def setTarget (f : Dbl) : List Cond → Option (List Cond)
  | [] => none
  | .predicted _ a m :: cs => some (.predicted f a m :: cs)
  | c :: cs => (setTarget f cs).map (c :: ·)

/-- spot/optimizer_pool.cpp:127-128. -/
def setTargets (f : Dbl) : List Opt → List Opt × Bool
  | [] => ([], true)
  | m :: ms =>
    match setTarget f m.conds with
    | some cs => ({ m with conds := cs } :: (setTargets f ms).1, (setTargets f ms).2)
    | none => (m :: ms, false)

/-- spot/optimizer_pool.cpp:117-134: what is done when the step of member `i` has ended; `.err` if an exception is thrown. -/
def Pool.collect (p : Pool) (i : Nat) : Pool × Res Unit :=
  match p.members[i]? with
  | none => (p, .ub)
  | some m =>
    let nb := p.bestIdx.isNone || p.own.info.isBetter m.vis.bestFitness p.best
    let p' := if nb then { p with bestIdx := some i, best := m.vis.bestFitness } else p
    let (ms, ok) := if nb && p.cfg.usePredicted then setTargets m.vis.bestFitness p'.members else (p'.members, true)
    let p' := { p' with members := ms }
    if ok then
      let p' := if nb then p'.signal (.newBest m.vis.bestPoint m.vis.bestFitness) else p'
      match p'.bestMember with
      | .ok b => (p'.signal (.postEvaluate [] b.vis.curFitnesses nb), .ok ())
      | _ => (p', .ub)
    else (p', .err)

/-- The state while members are being stepped (spot/optimizer_pool.cpp:108-135): the pool, the members whose step has not ended, the
members whose step ended with an exception, the futures that have not been looked at, and whether an exception is leaving the
function. -/
structure RunSt where
  pool : Pool
  running : List Nat
  failed : List Nat := []
  futs : List Nat
  threw : Bool := false

/-- `ins i` is what happens outside the optimizer during the step of member `i`. -/
inductive RunStep (E : OptEnv) (ins : Nat → In) : RunSt → RunSt → Prop
  /-- the step of member `i` ends -/
  | finish {r : RunSt} {i m m' x} (h : i ∈ r.running) (hm : r.pool.members[i]? = some m)
      (hs : m.step E (Opt.internal E (ins i)) = (m', .ok x)) :
      RunStep E ins r { r with pool := { r.pool with members := r.pool.members.set i m' }, running := r.running.erase i }
  /-- the step of member `i` ends with an exception, which is stored in the future -/
  | fail {r : RunSt} {i m m'} (h : i ∈ r.running) (hm : r.pool.members[i]? = some m)
      (hs : m.step E (Opt.internal E (ins i)) = (m', .err)) :
      RunStep E ins r { r with
        pool := { r.pool with members := r.pool.members.set i m' }, running := r.running.erase i, failed := i :: r.failed }
  /-- lines 117-134 -/
  | collect {r : RunSt} {i is p} (h : r.futs = i :: is) (hr : i ∉ r.running) (hf : i ∉ r.failed) (hc : r.pool.collect i = (p, .ok ())) :
      RunStep E ins r { r with pool := p, futs := is }
  /-- lines 117-134, an exception is thrown -/
  | throws {r : RunSt} {i is p} (h : r.futs = i :: is) (hr : i ∉ r.running) (hf : i ∉ r.failed) (hc : r.pool.collect i = (p, .err)) :
      RunStep E ins r { r with pool := p, futs := [], threw := true }
  /-- line 117, `get` throws the stored exception -/
  | rethrow {r : RunSt} {i is} (h : r.futs = i :: is) (hr : i ∉ r.running) (hf : i ∈ r.failed) :
      RunStep E ins r { r with futs := [], threw := true }
  /-- another thread interrupts the pool -/
  | interrupt {r : RunSt} : RunStep E ins r { r with pool := r.pool.interrupt }

/-- Any number of transitions. -/
inductive RunExec (E : OptEnv) (ins : Nat → In) : RunSt → RunSt → Prop
  | nil {r} : RunExec E ins r r
  | snoc {r s t} (h : RunExec E ins r s) (st : RunStep E ins s t) : RunExec E ins r t

/-- spot/optimizer_pool.cpp:108-113: start the members at the front of the queue. -/
def Pool.launch (p : Pool) : RunSt :=
  { pool := { p with queue := p.queue.drop p.cfg.concurrent }
    running := p.queue.take p.cfg.concurrent, futs := p.queue.take p.cfg.concurrent }

/-- spot/optimizer.cpp:44-65 `step` of a pool, when nothing throws: `sel` are the members put into the queue, `run` the members that
are stepped, `r` the stop condition returned. (An exception leaves the function after all threads have ended.) -/
inductive Pool.Step (E : OptEnv) (ins : Nat → In) : Pool → (sel run : List Nat) → Pool → Option Nat → Prop
  | mk {p p₁ p₂ p₃ : Pool} {t : RunSt} {sel : List Nat} {r : Option Nat} (hd : p.own.info.dim ≠ 0) (hne : p.members ≠ [])
      (h1 : p₁ = (if p.own.stepCount = 0 then p.signal .start else p).signal .preStep) (h2 : Refill E p₁ sel p₂)
      (h3 : RunExec E ins p₂.launch t) (hend : t.running = [] ∧ t.futs = [] ∧ t.threw = false)
      (h4 : Pool.testStop E { t.pool.signal .postStep with own := { t.pool.own with stepCount := t.pool.own.stepCount + 1 } } = (p₃, .ok r)) :
      Pool.Step E ins p sel p₂.launch.futs p₃ r

/-- The calls of the interface of a pool, with the members that were selected and stepped. -/
inductive Pool.Hist (E : OptEnv) (P : Opt → Prop) : Pool → List (List Nat × List Nat) → Pool → Prop
  | nil {p} : Pool.Hist E P p [] p
  | step {p q q' : Pool} {ls sel run ins r} (h : Pool.Hist E P p ls q) (st : Pool.Step E ins q sel run q' r) :
      Pool.Hist E P p (ls ++ [(sel, run)]) q'
  | push {p q : Pool} {ls m} (h : Pool.Hist E P p ls q) (hm : P m) : Pool.Hist E P p ls (q.push m)
  | addCond {p q : Pool} {ls c} (h : Pool.Hist E P p ls q) : Pool.Hist E P p ls (q.addCond c)
  | interrupt {p q : Pool} {ls} (h : Pool.Hist E P p ls q) : Pool.Hist E P p ls q.interrupt
  | test {p q : Pool} {ls} (h : Pool.Hist E P p ls q) : Pool.Hist E P p ls (q.testStop E).1

/-- The pool reads or writes a member whose step has not ended: when the first future is looked at, `current_step_fitnesses()` of the
best member is read (line 134) although that member is still running, or the prediction targets of all members are written
(line 128) although some are still running. -/
def RunSt.Race (r : RunSt) : Prop :=
  ∃ i is m, r.futs = i :: is ∧ i ∉ r.running ∧ i ∉ r.failed ∧ r.pool.members[i]? = some m ∧
    (if r.pool.bestIdx.isNone || r.pool.own.info.isBetter m.vis.bestFitness r.pool.best then
      r.pool.cfg.usePredicted = true ∧ r.running ≠ []
    else ∃ k, r.pool.bestIdx = some k ∧ k ∈ r.running)

end Spot
