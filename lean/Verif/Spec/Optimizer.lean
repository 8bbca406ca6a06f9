import Verif.Model.Optimizer

/-!
# Vocabulary for properties of optimizers

A *history* is any sequence of calls of the public interface of an optimizer, with any population, results and interrupts during
the steps.
-/

namespace Spot

/-- A call of the interface (spot/optimizer.h:33-76). -/
inductive Op
  | step (i : In)
  | interrupt
  | addCond (c : Cond)
  | addRep (throws : List (Event × Vis) → Bool)
  | window (n : Nat)
  | trend
  | progress
  | predicted (ahead : Nat)
  | test

/-- State after a call. -/
def Op.apply (E : OptEnv) (s : Opt) : Op → Opt
  | .step i => (s.step E (Opt.internal E i)).1
  | .interrupt => s.interrupt
  | .addCond c => s.addCond c
  | .addRep t => { s with reps := s.reps ++ [{ throws := t }] }
  | .window n => { s with vis := s.vis.setWindow n }
  | .trend => { s with vis := (s.vis.fitnessTrend E).1 }
  | .progress => { s with vis := (s.vis.progress E).1 }
  | .predicted k => { s with vis := (s.vis.predictedFitness E k).1 }
  | .test => (s.testStop E).1

/-- State after a history. -/
def Opt.after (E : OptEnv) (s : Opt) (h : List Op) : Opt := h.foldl (Op.apply E) s

/-- A new optimizer that tolerates `m` errors. -/
def Opt.new (info : ObjInfo) (m : Int) : Opt :=
  { Opt.init info with vis := { (Opt.init info).vis with maxErrors := m } }

/-- The algorithm evaluates at least one point, all points have one value per parameter, the evaluator returns one result each. -/
structure In.Valid (info : ObjInfo) (i : In) : Prop where
  nonempty : i.pop ≠ []
  results : i.res.length = i.pop.length
  sized : ∀ p ∈ i.pop, p.length = info.dim

def Op.Valid (info : ObjInfo) : Op → Prop
  | .step i => i.Valid info
  | _ => True

/-- Number of evaluations that failed. -/
def failures (res : List (Option Dbl)) : Nat := res.countP (· = none)

/-- More evaluations failed than allowed; a negative limit `-k` demands at least `k` successes. -/
def In.Failed (m : Int) (i : In) : Prop :=
  if 0 ≤ m then m < failures i.res else (i.res.length : Int) + m < failures i.res

instance (m : Int) (i : In) : Decidable (i.Failed m) := 
  inferInstanceAs (Decidable (if 0 ≤ m then m < failures i.res else (i.res.length : Int) + m < failures i.res))

/-- The fitness counted for a result. -/
def fitOf (info : ObjInfo) : Option Dbl → Dbl
  | some f => f
  | none => info.worstFitness

/-- Points and fitnesses of a completed step. -/
def In.evals (info : ObjInfo) (m : Int) (i : In) : List (Pt × Dbl) :=
  if i.Failed m then [] else i.pop.zip (i.res.map (fitOf info))

def Op.evals (info : ObjInfo) (m : Int) : Op → List (Pt × Dbl)
  | .step i => i.evals info m
  | _ => []

/-- All points and fitnesses of completed steps of a history, in order. -/
def evalsOf (info : ObjInfo) (m : Int) (h : List Op) : List (Pt × Dbl) := h.flatMap (Op.evals info m)

/-- The completed steps of a history. -/
def completed (m : Int) (h : List Op) : List In :=
  h.filterMap fun o => match o with
    | .step i => if i.Failed m then none else some i
    | _ => none

/-- Best of a non-empty list of fitnesses, the first one in case of a tie. -/
def bestOf (info : ObjInfo) : List Dbl → Dbl
  | [] => info.worstFitness
  | x :: xs => xs.foldl (fun b y => if info.isBetter y b then y else b) x

/-- Best fitness of a completed step. -/
def In.best (info : ObjInfo) (i : In) : Dbl := bestOf info (i.res.map (fitOf info))

end Spot
