import Verif.Num.Arith
import Verif.Model.Pool

/-!
# spot/math_tools.h, spot/mes_optimizer.h/.cpp, spot/eva_optimizer.h/.cpp

Vectors with one element per parameter are functions of the index of the parameter; the loops over parameters carry nothing from one
parameter to the next. Populations are lists. The random number generator and the normal distribution objects of the C++ library are
arbitrary (`Rng`).
-/

namespace Spot

variable {K : Type} [Arith K] {n : Nat}

/-- spot/math_tools.h:13-15 `update`. -/
def upd (v nv rate : K) : K := (lit 1 - rate) * v + rate * nv

/-- spot/math_tools.h:23-29 `dot_product`. -/
def dotProduct (a b : Fin n → K) : K := sumFin fun i => a i * b i

/-- spot/math_tools.h:16-21 `length`. -/
def vecLength (a : Fin n → K) : K := Arith.sqrt (sumFin fun i => a i * a i)

/-- spot/math_tools.h:51-59 `projected`; `eps` is `xo::num<par_t>::ample_epsilon` (xo, not in the repo). `vec_sub`, `vec_add` and
`vec_mul` (lines 31-50) are written out. -/
def projected (eps : K) (a ab p : Fin n → K) : Fin n → K :=
  if Arith.lt eps (dotProduct ab ab) then
    fun i => a i + ab i * (dotProduct (fun i => p i - a i) ab / dotProduct ab ab)
  else a

/-- A random engine and the distribution objects of the C++ library (a `std::normal_distribution` keeps state between draws). -/
structure Rng (K : Type) where
  Eng : Type
  Dist : Type
  /-- `std::normal_distribution( mean, stdev )` -/
  normal : K → K → Dist
  /-- `dist( engine )` -/
  draw : Dist → Eng → K × Dist × Eng

/-- `xo::clamped( v, lo, hi )` (xo, assumed: `v < lo ? lo : v > hi ? hi : v`). -/
def clamped (v lo hi : K) : K := if Arith.lt v lo then lo else if Arith.lt hi v then hi else v

/-- The loop of spot/mes_optimizer.cpp:69-73 (spot/eva_optimizer.cpp:69-73): at most `k` draws, then line 75. -/
def sampleLoop (R : Rng K) (lo hi : K) : Nat → R.Dist → R.Eng → K × R.Eng
  | 0, d, e => let (v, _, e) := R.draw d e; (clamped v lo hi, e)
  | k + 1, d, e =>
    let (v, d, e) := R.draw d e
    if Arith.le lo v && Arith.le v hi then (v, e) else sampleLoop R lo hi k d e

/-- spot/mes_optimizer.cpp:66-76, spot/eva_optimizer.cpp:66-76 `sample_parameter` (identical); `max_resample_count` is 100 (line 12). -/
def sampleParameter (R : Rng K) (mean stdev lo hi : K) (e : R.Eng) : K × R.Eng := sampleLoop R lo hi 100 (R.normal mean stdev) e

/-- Bounds of the parameters. -/
structure Bounds (K : Type) (n : Nat) where
  lo : Fin n → K
  hi : Fin n → K

/-- One pass through the parameters: the values drawn for the individuals' parameters `is`, in order. -/
def sampleVec (R : Rng K) (b : Bounds K n) (m s : Fin n → K) : List (Fin n) → R.Eng → List K × R.Eng
  | [], e => ([], e)
  | i :: is, e =>
    let (v, e) := sampleParameter R (m i) (s i) (b.lo i) (b.hi i) e
    let (vs, e) := sampleVec R b m s is e
    (v :: vs, e)

/-- What the two optimizers know of the distribution: mean, variance, and the momentum `mom_` (MES) or evolution path `ev_` (EVA). -/
structure Es (K : Type) (n : Nat) where
  mean : Fin n → K
  var : Fin n → K
  mom : Fin n → K

/-- spot/mes_optimizer.h:10-19. -/
structure MesOpts (K : Type) where
  lambda : Int := 0
  mu : Int := 0
  meanSigma : K
  varSigma : K
  momSigma : K
  momOffset : K
  momOffsetStd : K

/-- spot/eva_optimizer.h:10-19. -/
structure EvaOpts (K : Type) where
  lambda : Int := 0
  mu : Int := 0
  stepSize : K
  varUpdate : K
  evUpdate : K
  evOffset : K
  evStdev : K

/-- The default options, spot/mes_optimizer.h:13-18 and spot/eva_optimizer.h:13-18. -/
def MesOpts.default : MesOpts K :=
  { meanSigma := lit (1/5), varSigma := lit (1/5), momSigma := lit (1/5), momOffset := lit 1, momOffsetStd := lit 1 }
def EvaOpts.default : EvaOpts K :=
  { stepSize := lit (1/5), varUpdate := lit (1/5), evUpdate := lit (1/5), evOffset := lit 1, evStdev := lit 1 }

/-- spot/mes_optimizer.cpp:10, spot/eva_optimizer.cpp:10: `lambda_`; converting the logarithm of a zero dimension is undefined. -/
def esLambda (K : Type) [Arith K] (opt : Int) (n : Nat) : Res Int :=
  if opt > 1 then .ok opt
  else match Arith.trunc (lit 3 * Arith.log (lit (n : ℚ)) : K) with
    | some z => .ok (4 + z)
    | none => .ub

/-- spot/mes_optimizer.cpp:11, spot/eva_optimizer.cpp:11: `mu_` (integer division truncates, `lambda_` is positive). -/
def esMu (opt lambda : Int) : Int := if opt ≠ 0 then opt else lambda / 2

/-- spot/mes_optimizer.cpp:17-24, spot/eva_optimizer.cpp:17-24. -/
def Es.init (mean std : Fin n → K) : Es K n := { mean, var := fun i => squared (std i), mom := fun _ => lit 0 }

/-- spot/mes_optimizer.cpp:30-37, spot/eva_optimizer.cpp:30-37 `current_std`. -/
def Es.std (s : Es K n) : Fin n → K := fun i => Arith.sqrt (s.var i)

/-- spot/mes_optimizer.cpp:85-94, spot/eva_optimizer.cpp:85-96: the parameters of one individual, before and after `set_values` (which
rounds); `mom_ofs` / `ev_ofs` is drawn first. -/
def sampleIndividual (R : Rng K) (b : Bounds K n) (s : Es K n) (d : R.Dist) (e : R.Eng) : List K × R.Dist × R.Eng :=
  let (ofs, d, e) := R.draw d e
  let (v, e) := sampleVec R b (fun i => s.mean i + ofs * s.mom i) (fun i => Arith.sqrt (s.var i + squared (s.mom i))) (List.finRange n) e
  (v, d, e)

/-- The loop over the individuals. -/
def sampleLoopPop (R : Rng K) (b : Bounds K n) (s : Es K n) : Nat → R.Dist → R.Eng → List (List K) × R.Eng
  | 0, _, e => ([], e)
  | k + 1, d, e =>
    let (v, d, e) := sampleIndividual R b s d e
    let (vs, e) := sampleLoopPop R b s k d e
    (v.map Arith.round8 :: vs, e)

/-- spot/mes_optimizer.cpp:78-95, spot/eva_optimizer.cpp:78-97 `sample_population` (identical up to names). -/
def samplePopulation (R : Rng K) (b : Bounds K n) (ofs ofsStd : K) (lambda : Nat) (s : Es K n) (e : R.Eng) : List (List K) × R.Eng :=
  sampleLoopPop R b s lambda (R.normal ofs ofsStd) e

/-- The elements with the given indices. -/
def gather {α : Type} (pop : List α) : List Nat → Res (List α)
  | [] => .ok []
  | i :: is => match pop[i]? with
    | some x => gather pop is >>= fun xs => .ok (x :: xs)
    | none => .ub

/-- The individuals `population_[order[ui]]` for `ui < mu` (spot/mes_optimizer.cpp:112-113, spot/eva_optimizer.cpp:114-115); `index_t` is unsigned, so that a negative
`mu` is a very large bound. Reading outside of `order` or `population_` is undefined. -/
def selected {α : Type} (mu : Int) (order : List Nat) (pop : List α) : Res (List α) :=
  if mu < 0 then .ub
  else if mu.toNat ≤ order.length then gather pop (order.take mu.toNat)
  else .ub

/-- spot/mes_optimizer.cpp:111-119, spot/eva_optimizer.cpp:113-121: mean of the selected individuals in coordinate `j`. -/
def selMean (sel : List (Fin n → K)) (mu : Int) (j : Fin n) : K :=
  (sel.foldl (fun a x => a + x j) (lit 0)) / lit (mu : ℚ)

/-- spot/mes_optimizer.cpp:111-120, spot/eva_optimizer.cpp:113-122: mean squared distance of the selected individuals to their projections in coordinate `j`. -/
def selVar (eps : K) (s : Es K n) (sel : List (Fin n → K)) (mu : Int) (j : Fin n) : K :=
  (sel.foldl (fun a x => a + squared (x j - projected eps s.mean s.mom x j)) (lit 0)) / lit (mu : ℚ)

/-- spot/mes_optimizer.cpp:122-135 for all parameters; the projections are computed before anything is changed (lines 104-107). -/
def mesUpdateWith (eps : K) (o : MesOpts K) (mu : Int) (s : Es K n) (sel : List (Fin n → K)) : Es K n :=
  if Arith.lt (lit 0) o.momSigma then
    let mom := fun j => upd (s.mom j) (selMean sel mu j - s.mean j) o.momSigma
    { mean := fun j => s.mean j + o.meanSigma * mom j, var := fun j => upd (s.var j) (selVar eps s sel mu j) o.varSigma, mom := mom }
  else
    { mean := fun j => upd (s.mean j) (selMean sel mu j) o.meanSigma
      var := fun j => upd (s.var j) (selVar eps s sel mu j) o.varSigma, mom := s.mom }

/-- spot/eva_optimizer.cpp:126-129 for all parameters. -/
def evaUpdateWith (eps : K) (o : EvaOpts K) (mu : Int) (s : Es K n) (sel : List (Fin n → K)) : Es K n :=
  let delta := fun j => selMean sel mu j - s.mean j
  { mean := fun j => s.mean j + o.stepSize * delta j
    var := fun j => upd (s.var j) (selVar eps s sel mu j) o.varUpdate
    mom := fun j => upd (s.mom j) (delta j) o.evUpdate }

/-- The two algorithms. -/
inductive EsAlg (K : Type)
  | mes (o : MesOpts K)
  | eva (o : EvaOpts K)

namespace EsAlg

def lambdaOpt : EsAlg K → Int
  | mes o => o.lambda
  | eva o => o.lambda
def muOpt : EsAlg K → Int
  | mes o => o.mu
  | eva o => o.mu
/-- Mean and standard deviation of `mom_ofs` / `ev_ofs`. -/
def ofs : EsAlg K → K × K
  | mes o => (o.momOffset, o.momOffsetStd)
  | eva o => (o.evOffset, o.evStdev)
def updateWith (eps : K) (mu : Int) (s : Es K n) (sel : List (Fin n → K)) : EsAlg K → Es K n
  | mes o => mesUpdateWith eps o mu s sel
  | eva o => evaUpdateWith eps o mu s sel

end EsAlg

/-- spot/mes_optimizer.cpp:97-137, spot/eva_optimizer.cpp:99-131 `update_distribution`, for an order of the individuals by fitness
(line 102, `xo::sorted_indices`: see `SortedOrder`). -/
def updateDistribution (alg : EsAlg K) (eps : K) (mu : Int) (s : Es K n) (order : List Nat) (pop : List (Fin n → K)) : Res (Es K n) :=
  selected mu order pop >>= fun sel => .ok (alg.updateWith eps mu s sel)

/-- Parameter values as a vector. -/
def vecOf (n : Nat) (l : List K) : Fin n → K := fun i => l.getD i (lit 0)

/-- Bounds of the parameters of an objective (spot/par_info.h:22-23). -/
def Bounds.ofInfo (i : ObjInfo) : Bounds Dbl i.dim := ⟨fun k => (i.pars.get k).min, fun k => (i.pars.get k).max⟩

/-- A MES or EVA optimizer: what it inherits from `optimizer`, the distribution and the random engine. -/
structure EsOpt (R : Rng Dbl) (n : Nat) where
  opt : Opt
  dist : Es Dbl n
  eng : R.Eng

/-- Everything an optimizer is constructed with, except the objective. -/
structure EsCfg (R : Rng Dbl) (n : Nat) where
  alg : EsAlg Dbl
  /-- `ample_epsilon` -/
  eps : Dbl
  lambda : Nat
  mu : Int
  bounds : Bounds Dbl n

/-- spot/mes_optimizer.cpp:139-151, spot/eva_optimizer.cpp:133-145 `internal_step` for the objective `F` (`none`: no result), with the
population that was evaluated. If there are too many errors the distribution is not updated. -/
inductive EsOpt.Internal [Libm] (E : OptEnv) {R : Rng Dbl} (c : EsCfg R n) (F : Pt → Option Dbl) : EsOpt R n → List Pt → EsOpt R n → Prop
  | ok {s : EsOpt R n} {pop : List Pt} {e : R.Eng} {o : Opt} {order : List Nat} {d : Es Dbl n}
      (hp : samplePopulation R c.bounds c.alg.ofs.1 c.alg.ofs.2 c.lambda s.dist s.eng = (pop, e))
      (he : s.opt.evaluateStep E pop (pop.map F) = (o, .ok true)) (ho : SortedOrder o.vis.info o.vis.curFitnesses order)
      (hu : updateDistribution c.alg c.eps c.mu s.dist order (pop.map (vecOf n)) = .ok d) : EsOpt.Internal E c F s pop ⟨o, d, e⟩
  | failed {s : EsOpt R n} {pop : List Pt} {e : R.Eng} {o : Opt}
      (hp : samplePopulation R c.bounds c.alg.ofs.1 c.alg.ofs.2 c.lambda s.dist s.eng = (pop, e))
      (he : s.opt.evaluateStep E pop (pop.map F) = (o, .ok false)) : EsOpt.Internal E c F s pop ⟨o, s.dist, e⟩

/-- Any number of internal steps, with the populations evaluated. -/
inductive EsOpt.Runs [Libm] (E : OptEnv) {R : Rng Dbl} (c : EsCfg R n) (F : Pt → Option Dbl) (s : EsOpt R n) : List (List Pt) → EsOpt R n → Prop
  | nil : EsOpt.Runs E c F s [] s
  | snoc {ps pop t t'} (h : EsOpt.Runs E c F s ps t) (st : EsOpt.Internal E c F t pop t') : EsOpt.Runs E c F s (ps ++ [pop]) t'

/-- The constructors, spot/mes_optimizer.cpp:8-28 and spot/eva_optimizer.cpp:8-28: the base class, the distribution of the objective
and one more stop condition; `e` is the engine made from the seed. -/
def EsOpt.make {R : Rng Dbl} [Libm] (info : ObjInfo) (e : R.Eng) : EsOpt R info.dim :=
  { opt := (Opt.init info).addCond (.flat (lit (1 / 10 ^ 9)))
    dist := Es.init (fun k => (info.pars.get k).mean) (fun k => (info.pars.get k).std), eng := e }

end Spot
