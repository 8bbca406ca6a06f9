import Verif.Model.PooledEvaluator
import Mathlib.Logic.Relation

/-!
# Vocabulary for properties of evaluators
-/

namespace Spot.Evaluators

variable {α F T : Type}

/-- The task an event belongs to. -/
def Ev.task : Ev T F → T
  | .start t => t
  | .finish t _ => t

/-- What happened to a task, in order. -/
def eventsOf [DecidableEq T] (t : T) (log : List (Ev T F)) : List (Ev T F) := log.filter (fun e => e.task = t)

/-- Task `t` was evaluated exactly once, with a possible outcome for the point `p`, and `r` is the result of that evaluation. -/
def Evaluated [DecidableEq T] (o : Objective α F) (log : List (Ev T F)) (t : T) (p : α) (r : Result F) : Prop :=
  ∃ out, o p out ∧ eventsOf t log = [.start t, .finish t out] ∧ r = evaluateNoexcept out

/-- The results belong to the points, in order, and every point was evaluated exactly once; task `i` is the evaluation of point `i`. -/
structure Correct (o : Objective α F) (pts : List α) (log : List (Ev Nat F)) (results : List (Result F)) : Prop where
  length : results.length = pts.length
  each : ∀ (i : Nat) (p : α), pts[i]? = some p → ∃ r, results[i]? = some r ∧ Evaluated o log i p r
  only : ∀ e ∈ log, e.task < pts.length

/-- An objective that always does the same for the same point. -/
def deterministic (f : α → Outcome F) : Objective α F := fun p out => out = f p

/-- Evaluations that have been handed to a thread and have not finished. -/
def Fut.Unfinished : Fut F → Prop
  | .spawned => True
  | .running => True
  | _ => False

instance (f : Fut F) : Decidable f.Unfinished :=
  match f with
  | .absent => .isFalse id
  | .spawned => .isTrue trivial
  | .running => .isTrue trivial
  | .ready _ => .isFalse id
  | .taken => .isFalse id

/-- Executions of a labelled transition system, with the labels in order. -/
inductive Exec {L S : Type} (R : L → S → S → Prop) : List L → S → S → Prop
  | nil {s} : Exec R [] s s
  | snoc {ls s t u l} (h : Exec R ls s t) (r : R l t u) : Exec R (ls ++ [l]) s u

/-- `results` is what some evaluator can return for the points `pts`: the sequential, the batch, the async one with any thread count,
or the pooled one with any number of threads, any other calls and any requests of the controlling thread; with any schedule. -/
inductive ReturnedBy (o : Objective α F) (pts : List α) (results : List (Result F)) : Prop
  | sequential (evs) (h : Sequential o pts results evs)
  | batch (s : BSt F) (h : Relation.ReflTransGen (BStep o pts) {} s) (hp : s.pc = .returned) (hr : s.results = results)
  | async (tc : Nat) (ks) (s : ASt F) (h : Exec (AStep o pts tc) ks (ASt.init F pts.length) s) (hp : s.pc = .returned)
      (hr : s.results = results.map some)
  | pooled (n : Nat) (calls : List (List α)) (c : Nat) (ks) (s : PSt F) (h : Exec (PStep o calls) ks (PSt.init F n calls.length) s)
      (hc : calls[c]? = some pts) (hr : s.clients[c]? = some (.returned results))

/-- `k` rounds of asking for points, having them evaluated by some evaluator, and telling the results. -/
inductive Rounds {S : Type} (o : Objective α F) (ask : S → List α) (tell : S → List (Result F) → S) : Nat → S → S → Prop
  | zero {s} : Rounds o ask tell 0 s s
  | succ {k s t rs} (h : Rounds o ask tell k s t) (r : ReturnedBy o (ask t) rs) : Rounds o ask tell (k + 1) s (tell t rs)

end Spot.Evaluators
