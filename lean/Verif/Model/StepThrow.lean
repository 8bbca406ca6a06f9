import Verif.Model.PoolThrow
import Verif.Model.Session

/-!
# spot/optimizer.cpp: using an optimizer after steps that ended with an exception

`step` (spot/optimizer.cpp:44-65) lets exceptions of `internal_step` out: of the evaluator (line 168), or of what the algorithm does before. Exceptions of reporters are caught (spot/optimizer.h:130), those
of stop conditions are results `err` in Model/Optimizer already. What `evaluate_step` does after line 168 throws nothing (memory aside).
-/

namespace Spot

/-- Calls, of which some steps may end with an exception: before the evaluator is called (`none`), or when it has been called with a population. Another thread may interrupt the optimizer meanwhile. -/
inductive Try
  | call (o : Op)
  | fails (pop : Option (List Pt)) (interrupt : Bool)

/-- What a step does before the exception leaves it, spot/optimizer.cpp:47-57 and 163-168. -/
def Opt.opened (s : Opt) (pop : Option (List Pt)) : Opt :=
  if s.vis.info.dim = 0 then s
  else match pop with
    | none => s.opening
    | some pop => s.opening.signal (.preEvaluate pop)

/-- State after a call. -/
def Try.apply (E : OptEnv) (s : Opt) : Try → Opt
  | .call o => o.apply E s
  | .fails pop interrupt => if interrupt then (s.opened pop).interrupt else s.opened pop

/-- State after calls. -/
def Opt.tried (E : OptEnv) (s : Opt) (h : List Try) : Opt := h.foldl (Try.apply E) s

section
variable {S : Type}

/-- Calls of a class derived from `optimizer`; `samp s pop t`: `sample_population` makes the population `pop` and `t` of `s`. The evaluator throws in the steps that fail. -/
inductive Machine.SessionT (M : Machine S) (samp : S → List Pt → S → Prop) (E : OptEnv) (F : Pt → Option Dbl) : S → List Try → S → Prop
  | nil {s} : Machine.SessionT M samp E F s [] s
  | step {s t t' : S} {l : List Try} {i : In} {r : Res (Option Nat)} (h : Machine.SessionT M samp E F s l t) (st : Machine.Step M E F t i t' r) :
      Machine.SessionT M samp E F s (l ++ [.call (.step i)]) t'
  | call {s t : S} {l : List Try} {o : Op} (h : Machine.SessionT M samp E F s l t) (ho : ∀ i, o ≠ .step i) :
      Machine.SessionT M samp E F s (l ++ [.call o]) (M.put t (o.apply E (M.opt t)))
  | fails {s t u : S} {l : List Try} {pop : List Pt} {intr : Bool} (h : Machine.SessionT M samp E F s l t) (hd : (M.opt t).vis.info.dim ≠ 0)
      (hp : samp (M.put t (M.opt t).opening) pop u) :
      Machine.SessionT M samp E F s (l ++ [.fails (some pop) intr]) (M.put u (if intr then ((M.opt u).signal (.preEvaluate pop)).interrupt else (M.opt u).signal (.preEvaluate pop)))

end

/-- spot/mes_optimizer.cpp:143, spot/eva_optimizer.cpp:137. -/
def EsOpt.samples [Libm] {R : Rng Dbl} {n : Nat} (c : EsCfg R n) (s : EsOpt R n) (pop : List Pt) (t : EsOpt R n) : Prop :=
  ∃ e, samplePopulation R c.bounds c.alg.ofs.1 c.alg.ofs.2 c.lambda s.dist s.eng = (pop, e) ∧ t = { s with eng := e }

/-- spot/cma_optimizer.cpp:1315. -/
def CmaOpt.samples [Libm] {n : Nat} {G : GaussSrc Dbl} (c : CmaCfg n) (s : CmaOpt G n) (pop : List Pt) (t : CmaOpt G n) : Prop :=
  ∃ d xs, 0 < n ∧ s.cma.sample c.tr c.bounds c.eig c.par = (d, xs) ∧ pop = toPoints xs ∧ t = { s with cma := d }

end Spot
