import Verif.Model.Pool

/-!
# spot/optimizer_pool.h, spot/optimizer_pool.cpp: pools of pools

An `optimizer_pool` is an `optimizer`, so that a pool can have pools as members. Model/Pool has optimizers as members; here the members are anything with the virtual functions of
`optimizer` that the pool calls (`Iface`), so that a pool with such members has them again (`PoolG.iface`). Definitions are those of Model/Pool with these calls in place of the
functions of `Opt`; `C117_flat` relates the two. Steps in which an exception is thrown are left out.
-/

namespace Spot

/-- What spot/optimizer_pool.cpp calls of a member (spot/optimizer.h:27-76). -/
structure Iface (M : Type) where
  /-- what the getters return (spot/optimizer.h:45-49, 52): the five virtual ones fail together -/
  view : M → Res Vis
  /-- `current_step`, not virtual -/
  steps : M → Nat
  testStop : M → M × Res (Option Nat)
  predicted : Nat → M → M × Res Dbl
  setWindow : Nat → M → M
  addCond : Cond → M → M
  /-- `find_stop_condition<predicted_fitness_condition>().fitness_ = f`, `none` if there is no such condition -/
  setTarget : Dbl → M → Option M
  interrupt : M → M
  /-- `step`, ending without an exception -/
  Step : M → M → Prop

/-- A single optimizer as a member, spot/optimizer.h and spot/optimizer.cpp. -/
def Opt.iface (E : OptEnv) : Iface Opt where
  view m := .ok m.vis
  steps m := m.vis.stepCount
  testStop m := m.testStop E
  predicted n m := ({ m with vis := (m.vis.predictedFitness E n).1 }, (m.vis.predictedFitness E n).2)
  setWindow n m := { m with vis := m.vis.setWindow n }
  addCond c m := m.addCond c
  setTarget f m := (setTarget f m.conds).map fun cs => { m with conds := cs }
  interrupt m := m.interrupt
  Step m m' := ∃ i x, m.step E (Opt.internal E i) = (m', .ok x)

/-- `Pool` (spot/optimizer_pool.h:50-58) with members of any kind. `done` is not in the code: the members whose step has ended and has been looked at. -/
structure PoolG (M : Type) where
  cfg : PoolCfg
  own : Vis
  conds : List PCond
  stopped : Option Nat := none
  best : Dbl
  bestIdx : Option Nat := none
  members : List M := []
  queue : List Nat := []
  log : List Event := []
  done : List Nat := []

/-- spot/optimizer_pool.cpp:22-34, the constructor. -/
def PoolG.init {M : Type} (cfg : PoolCfg) (info : ObjInfo) : PoolG M :=
  { cfg := cfg, own := (Opt.init info).vis, conds := (Opt.init info).conds.map .own ++ [.allStopped], best := info.worstFitness }

/-- spot/optimizer.cpp:99-104 `add_stop_condition` of the pool. -/
def PoolG.addCond {M : Type} (p : PoolG M) (c : Cond) : PoolG M :=
  { p with own := if c.minWindow > p.own.capacity then p.own.setWindow c.minWindow else p.own, conds := p.conds ++ [.own c] }

/-- spot/optimizer.h:123-133. -/
def PoolG.signal {M : Type} (p : PoolG M) (e : Event) : PoolG M := { p with log := p.log ++ [e] }

/-- spot/optimizer_pool.h:58 `best_optimizer`, with its assertion. -/
def PoolG.bestMember {M : Type} (p : PoolG M) : Res M :=
  match p.bestIdx with
  | none => .ub
  | some k => match p.members[k]? with
    | some m => .ok m
    | none => .ub

/-- `find_stop_condition<predicted_fitness_condition>().fitness_ = f` for the conditions of a pool. -/
def setTargetP (f : Dbl) : List PCond → Option (List PCond)
  | [] => none
  | .own (.predicted _ a m) :: cs => some (.own (.predicted f a m) :: cs)
  | c :: cs => (setTargetP f cs).map (c :: ·)

section
variable {M : Type} (I : Iface M) (E : OptEnv)

/-- spot/optimizer_pool.cpp:36-44 `push_back`. -/
def PoolG.push (p : PoolG M) (m : M) : PoolG M :=
  let m := I.setWindow p.cfg.window m
  { p with members := p.members ++ [if p.cfg.usePredicted then I.addCond (.predicted p.own.info.worstFitness p.cfg.lookAhead p.cfg.start) m else m] }

/-- spot/optimizer_pool.cpp:46-51 `interrupt`. -/
def PoolG.interrupt (p : PoolG M) : PoolG M :=
  { p with members := p.members.map I.interrupt, own := { p.own with stopRequested := true } }

/-- spot/optimizer_pool.h:18-22: what the getters of a pool return. -/
def PoolG.view (p : PoolG M) : Res Vis := p.bestMember >>= fun m => I.view m >>= fun v => .ok { p.own with
  bestFitness := v.bestFitness, bestPoint := v.bestPoint, curFitness := v.curFitness, curFitnesses := v.curFitnesses, curPoint := v.curPoint }

/-- spot/optimizer_pool.cpp:15-18. -/
def testAllG : List M → List M × Res Bool
  | [] => ([], .ok true)
  | m :: ms =>
    match I.testStop m with
    | (m', .ok r) =>
      match testAllG ms with
      | (ms', .ok b) => (m' :: ms', .ok (r.isSome && b))
      | (ms', r') => (m' :: ms', r')
    | (m', .err) => (m' :: ms, .err)
    | (m', .ub) => (m' :: ms, .ub)

/-- The test of one stop condition of the pool. -/
def PoolG.testCond (p : PoolG M) : PCond → PoolG M × Res Bool
  | .allStopped => ({ p with members := (testAllG I p.members).1 }, (testAllG I p.members).2)
  | .own c =>
    match p.view I, c.usesBest p.own with
    | .ok v, _ => ({ p with own := { p.own with trend := (c.test E v).1.trend, trendStep := (c.test E v).1.trendStep } }, (c.test E v).2)
    | _, true => (p, .ub)
    | _, false => ({ p with own := (c.test E p.own).1 }, (c.test E p.own).2)

/-- The loop of spot/optimizer.cpp:87-95. -/
def PoolG.testLoop : Nat → List PCond → PoolG M → PoolG M × Res (Option Nat)
  | _, [], p => (p, .ok none)
  | k, c :: cs, p =>
    match p.testCond I E c with
    | (p', .ok true) => (p', .ok (some k))
    | (p', .ok false) => PoolG.testLoop (k + 1) cs p'
    | (p', .err) => (p', .err)
    | (p', .ub) => (p', .ub)

/-- spot/optimizer.cpp:82-97 `test_stop_conditions` of the pool. -/
def PoolG.testStop (p : PoolG M) : PoolG M × Res (Option Nat) :=
  match p.stopped with
  | some k => (p, .ok (some k))
  | none =>
    match PoolG.testLoop I E 0 p.conds p with
    | (p', .ok (some k)) => (({ p' with stopped := some k } : PoolG M).signal (.stop k), .ok (some k))
    | (p', r) => (p', r)

/-- spot/optimizer_pool.cpp:59-77 `compute_predicted_fitnesses`; `n` members have been counted as active. -/
def predictLoopG (cfg : PoolCfg) (info : ObjInfo) : Nat → List M → List M × Res (List Dbl)
  | _, [] => ([], .ok [])
  | n, m :: ms =>
    if n < cfg.active then
      match I.testStop m with
      | (m', .ok none) =>
        let (m', x) := if I.steps m' ≥ cfg.start then I.predicted cfg.lookAhead m' else (m', .ok info.bestFitness)
        match x with
        | .ok x =>
          let (ms', r) := predictLoopG cfg info (n + 1) ms
          (m' :: ms', r >>= fun xs => .ok (x :: xs))
        | .err => (m' :: ms, .err)
        | .ub => (m' :: ms, .ub)
      | (m', .ok (some _)) =>
        let (ms', r) := predictLoopG cfg info n ms
        (m' :: ms', r >>= fun xs => .ok (info.worstFitness :: xs))
      | (m', .err) => (m' :: ms, .err)
      | (m', .ub) => (m' :: ms, .ub)
    else
      let (ms', r) := predictLoopG cfg info n ms
      (m :: ms', r >>= fun xs => .ok (info.worstFitness :: xs))

/-- The loop of spot/optimizer_pool.cpp:89-97 over the sorted indices; `q` have been queued. -/
def fillLoopG (conc : Nat) (preds : List Dbl) : List Nat → List Nat → List M → List M × Res (List Nat)
  | [], q, ms => (ms, .ok q)
  | i :: is, q, ms =>
    match ms[i]? with
    | none => (ms, .ub)
    | some m =>
      match I.testStop m with
      | (m', .ok (some _)) => (ms.set i m', .ok q)
      | (m', .ok none) =>
        let q := q ++ [i]
        if nextDiffers preds i is && decide (q.length ≥ conc) then (ms.set i m', .ok q) else fillLoopG conc preds is q (ms.set i m')
      | (m', .err) => (ms.set i m', .err)
      | (m', .ub) => (ms.set i m', .ub)

/-- spot/optimizer_pool.cpp:83-106: fill the queue if it is empty. The text composed in lines 98-105 asks the pool for its best fitness unless this is the first step, and every
member for its best fitness. -/
inductive RefillG : PoolG M → List Nat → PoolG M → Prop
  | keep {p : PoolG M} (h : p.queue ≠ []) : RefillG p [] p
  | fill {p : PoolG M} {ms ms' : List M} {preds : List Dbl} {ord q : List Nat} (h : p.queue = [])
      (hp : predictLoopG I p.cfg p.own.info 0 p.members = (ms, .ok preds)) (ho : SortedOrder p.own.info preds ord)
      (hf : fillLoopG I p.cfg.concurrent preds ord [] ms = (ms', .ok q))
      (hb : p.own.stepCount > 0 → ({ p with members := ms' } : PoolG M).view I ≠ .ub) (ht : ∀ m ∈ ms', I.view m ≠ .ub) :
      RefillG p q { p with members := ms', queue := q }

/-- spot/optimizer_pool.cpp:127-128. -/
def setTargetsG (f : Dbl) : List M → List M × Bool
  | [] => ([], true)
  | m :: ms =>
    match I.setTarget f m with
    | some m' => (m' :: (setTargetsG f ms).1, (setTargetsG f ms).2)
    | none => (m :: ms, false)

/-- spot/optimizer_pool.cpp:117-134: what is done when the step of member `i` has ended; `.err` if an exception is thrown. -/
def PoolG.collect (p : PoolG M) (i : Nat) : PoolG M × Res Unit :=
  match p.members[i]? with
  | none => (p, .ub)
  | some m =>
    match I.view m with
    | .ok v =>
      let nb := p.bestIdx.isNone || p.own.info.isBetter v.bestFitness p.best
      let p' := if nb then { p with bestIdx := some i, best := v.bestFitness } else p
      let (ms, ok) := if nb && p.cfg.usePredicted then setTargetsG I v.bestFitness p'.members else (p'.members, true)
      let p' := { p' with members := ms, done := p.done ++ [i] }
      if ok then
        let p' := if nb then p'.signal (.newBest v.bestPoint v.bestFitness) else p'
        match p'.view I with
        | .ok b => (p'.signal (.postEvaluate [] b.curFitnesses nb), .ok ())
        | _ => (p', .ub)
      else (p', .err)
    | _ => (p, .ub)

/-- The state while members are being stepped (spot/optimizer_pool.cpp:108-135): the pool, the members whose step has not ended, the futures that have not been looked at. -/
structure RunStG (M : Type) where
  pool : PoolG M
  running : List Nat
  futs : List Nat

/-- Transitions while members are being stepped. -/
inductive RunStepG : RunStG M → RunStG M → Prop
  /-- the step of member `i` ends -/
  | finish {r : RunStG M} {i m m'} (h : i ∈ r.running) (hm : r.pool.members[i]? = some m) (hs : I.Step m m') :
      RunStepG r { r with pool := { r.pool with members := r.pool.members.set i m' }, running := r.running.erase i }
  /-- lines 117-134 -/
  | collect {r : RunStG M} {i is p} (h : r.futs = i :: is) (hr : i ∉ r.running) (hc : r.pool.collect I i = (p, .ok ())) :
      RunStepG r { r with pool := p, futs := is }
  /-- another thread interrupts the pool -/
  | interrupt {r : RunStG M} : RunStepG r { r with pool := r.pool.interrupt I }

/-- Any number of transitions. -/
inductive RunExecG : RunStG M → RunStG M → Prop
  | nil {r} : RunExecG r r
  | snoc {r s t} (h : RunExecG r s) (st : RunStepG I s t) : RunExecG r t

/-- spot/optimizer_pool.cpp:108-113: start the members at the front of the queue. -/
def PoolG.launch (p : PoolG M) : RunStG M :=
  { pool := { p with queue := p.queue.drop p.cfg.concurrent }
    running := p.queue.take p.cfg.concurrent, futs := p.queue.take p.cfg.concurrent }

/-- spot/optimizer.cpp:44-65 `step` of a pool, when nothing throws. -/
inductive PoolG.Step : PoolG M → PoolG M → Option Nat → Prop
  | mk {p p₁ p₂ p₃ : PoolG M} {t : RunStG M} {sel : List Nat} {r : Option Nat} (hd : p.own.info.dim ≠ 0) (hne : p.members ≠ [])
      (h1 : p₁ = (if p.own.stepCount = 0 then p.signal .start else p).signal .preStep) (h2 : RefillG I p₁ sel p₂)
      (h3 : RunExecG I p₂.launch t) (hend : t.running = [] ∧ t.futs = [])
      (h4 : PoolG.testStop I E { t.pool.signal .postStep with own := { t.pool.own with stepCount := t.pool.own.stepCount + 1 } } = (p₃, .ok r)) :
      PoolG.Step p p₃ r

/-- A pool as a member: it overrides the getters and `interrupt` (spot/optimizer_pool.h:18-22, 28), has the pool's `internal_step`, and the rest of the base class. -/
def PoolG.iface : Iface (PoolG M) where
  view p := p.view I
  steps p := p.own.stepCount
  testStop p := p.testStop I E
  predicted n p := ({ p with own := (p.own.predictedFitness E n).1 }, (p.own.predictedFitness E n).2)
  setWindow n p := { p with own := p.own.setWindow n }
  addCond c p := p.addCond c
  setTarget f p := (setTargetP f p.conds).map fun cs => { p with conds := cs }
  interrupt p := p.interrupt I
  Step p p' := ∃ r, PoolG.Step I E p p' r

/-- The calls of the interface of a pool; members satisfying `P` may be added. -/
inductive PoolG.Hist (P : M → Prop) : PoolG M → PoolG M → Prop
  | nil {p} : PoolG.Hist P p p
  | step {p q q' : PoolG M} {r} (h : PoolG.Hist P p q) (st : PoolG.Step I E q q' r) : PoolG.Hist P p q'
  | push {p q : PoolG M} {m} (h : PoolG.Hist P p q) (hm : P m) : PoolG.Hist P p (q.push I m)
  | addCond {p q : PoolG M} {c} (h : PoolG.Hist P p q) : PoolG.Hist P p (q.addCond c)
  | setWindow {p q : PoolG M} {n} (h : PoolG.Hist P p q) : PoolG.Hist P p { q with own := q.own.setWindow n }
  | predicted {p q : PoolG M} {n} (h : PoolG.Hist P p q) : PoolG.Hist P p { q with own := (q.own.predictedFitness E n).1 }
  | setTarget {p q : PoolG M} {f cs} (h : PoolG.Hist P p q) (hc : setTargetP f q.conds = some cs) : PoolG.Hist P p { q with conds := cs }
  | interrupt {p q : PoolG M} (h : PoolG.Hist P p q) : PoolG.Hist P p (q.interrupt I)
  | test {p q : PoolG M} (h : PoolG.Hist P p q) : PoolG.Hist P p (q.testStop I E).1

end

/-- Either of two kinds of members. -/
def Iface.sum {A B : Type} (I : Iface A) (J : Iface B) : Iface (A ⊕ B) where
  view := Sum.elim I.view J.view
  steps := Sum.elim I.steps J.steps
  testStop := Sum.elim (fun a => (.inl (I.testStop a).1, (I.testStop a).2)) fun b => (.inr (J.testStop b).1, (J.testStop b).2)
  predicted n := Sum.elim (fun a => (.inl (I.predicted n a).1, (I.predicted n a).2)) fun b => (.inr (J.predicted n b).1, (J.predicted n b).2)
  setWindow n := Sum.map (I.setWindow n) (J.setWindow n)
  addCond c := Sum.map (I.addCond c) (J.addCond c)
  setTarget f := Sum.elim (fun a => (I.setTarget f a).map .inl) fun b => (J.setTarget f b).map .inr
  interrupt := Sum.map I.interrupt J.interrupt
  Step x y := Sum.LiftRel I.Step J.Step x y

/-- Optimizers, and pools nested at most `n` deep. -/
def Nest : Nat → Type
  | 0 => Opt
  | n + 1 => Opt ⊕ PoolG (Nest n)

/-- Their virtual functions. -/
def Nest.iface (E : OptEnv) : (n : Nat) → Iface (Nest n)
  | 0 => Opt.iface E
  | n + 1 => (Opt.iface E).sum (PoolG.iface (Nest.iface E n) E)

end Spot
