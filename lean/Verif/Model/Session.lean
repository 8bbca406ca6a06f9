import Verif.Model.Cma
import Verif.Model.Evolution
import Verif.Spec.Optimizer

/-!
# Complete optimizers

`optimizer::step` and `optimizer::run` (spot/optimizer.cpp:44-80) with the `internal_step` of the class derived from it: MES, EVA or CMA, for a given objective.
-/

namespace Spot

/-- A class derived from `optimizer`: its state `S` contains what it inherits. `internal` relates the state before and after `internal_step` and the population that was evaluated. -/
structure Machine (S : Type) where
  opt : S → Opt
  put : S → Opt → S
  internal : (Pt → Option Dbl) → S → List Pt → S → Prop

variable {S : Type}

/-- spot/optimizer.cpp:49-54: the callbacks at the beginning of a step. -/
def Opt.opening (s : Opt) : Opt := (if s.vis.stepCount = 0 then s.signal .start else s).signal .preStep

/-- spot/optimizer.cpp:57-64: what `step` does after `internal_step` has returned `ok`; `intr`: another thread calls `interrupt` before the stop conditions are tested. -/
def Opt.closing (E : OptEnv) (ok intr : Bool) (s : Opt) : Opt × Res (Option Nat) :=
  let s := if intr then s.interrupt else s
  if ok then
    let s := s.signal .postStep
    ({ s with vis := { s.vis with stepCount := s.vis.stepCount + 1 } } : Opt).testStop E
  else s.testStop E

/-- spot/optimizer.cpp:44-65 `step`, with what it returns. `internal_step` returns what `evaluate_step` returned (spot/mes_optimizer.cpp:139-151, spot/eva_optimizer.cpp:133-145,
spot/cma_optimizer.cpp:1311-1322). -/
inductive Machine.Step (M : Machine S) (E : OptEnv) (F : Pt → Option Dbl) : S → In → S → Res (Option Nat) → Prop
  | mk {s u : S} {pop : List Pt} {intr ok : Bool} {o : Opt} {r : Res (Option Nat)} (hd : (M.opt s).vis.info.dim ≠ 0)
      (hi : M.internal F (M.put s (M.opt s).opening) pop u) (he : ((M.opt s).opening.evaluateStep E pop (pop.map F)).2 = .ok ok)
      (hc : (M.opt u).closing E ok intr = (o, r)) : Machine.Step M E F s { pop := pop, res := pop.map F, interrupt := intr } (M.put u o) r

/-- Calls of the interface, in any order. The calls are listed as they are for the base class; those other than `step` are not overridden. -/
inductive Machine.Session (M : Machine S) (E : OptEnv) (F : Pt → Option Dbl) : S → List Op → S → Prop
  | nil {s} : Machine.Session M E F s [] s
  | step {s t t' : S} {l : List Op} {i : In} {r : Res (Option Nat)} (h : Machine.Session M E F s l t) (st : Machine.Step M E F t i t' r) :
      Machine.Session M E F s (l ++ [.step i]) t'
  | call {s t : S} {l : List Op} {o : Op} (h : Machine.Session M E F s l t) (ho : ∀ i, o ≠ .step i) : Machine.Session M E F s (l ++ [o]) (M.put t (o.apply E (M.opt t)))

/-- spot/optimizer.cpp:75-77: the loop of `run`, with the steps that were made and what is returned. -/
inductive Machine.Loop (M : Machine S) (E : OptEnv) (F : Pt → Option Dbl) : Nat → S → List In → S → Res (Option Nat) → Prop
  | done {s} : Machine.Loop M E F 0 s [] s (.ok none)
  | next {n : Nat} {s t u : S} {i : In} {is : List In} {r : Res (Option Nat)} (st : Machine.Step M E F s i t (.ok none)) (h : Machine.Loop M E F n t is u r) :
      Machine.Loop M E F (n + 1) s (i :: is) u r
  | stop {n : Nat} {s t : S} {i : In} {r : Res (Option Nat)} (st : Machine.Step M E F s i t r) (hr : r ≠ .ok none) : Machine.Loop M E F (n + 1) s [i] t r

/-- spot/optimizer.cpp:67-80 `run`, for an objective with parameters. -/
def Machine.Run (M : Machine S) (E : OptEnv) (F : Pt → Option Dbl) (n : Nat) (s : S) (is : List In) (t : S) (r : Res (Option Nat)) : Prop :=
  (M.opt s).vis.info.dim ≠ 0 ∧ M.Loop E F (if n = 0 then 2 ^ 64 - 1 else n) s is t r

/-- MES and EVA (Model/Evolution). -/
def esMachine [Libm] {n : Nat} {R : Rng Dbl} (E : OptEnv) (c : EsCfg R n) : Machine (EsOpt R n) :=
  { opt := EsOpt.opt, put := fun s o => { s with opt := o }, internal := fun F => EsOpt.Internal E c F }

/-- CMA (Model/Cma). -/
def cmaMachine [Libm] {n : Nat} {G : GaussSrc Dbl} (E : OptEnv) (c : CmaCfg n) : Machine (CmaOpt G n) :=
  { opt := CmaOpt.opt, put := fun s o => { s with opt := o }, internal := fun F => CmaOpt.Internal E c F }

end Spot
