import Verif.Model.Evolution

/-!
# spot/cma_optimizer.cpp, spot/cma_optimizer.h: CMA-ES

Written for any arithmetic `K`. Vectors with one element per parameter are functions of the index of the parameter. Left out are data
members that nothing reads (`current_best`, `arFuncValueHist`, `countevals`, `minEW`, `maxEW`, `mindiagC`, `maxdiagC`, `publicFitness`,
`rgFuncValue`, the fitness kept in element N of an individual) or that never change (`rgDiffMinChange == NULL`, `flgIniphase == 0`,
`flgCheckEigen == 0`, `updateCmode.flgalways == 0`). `rgdTmp` and `rgBDz` are scratch space. The Gaussian numbers come from an
arbitrary source (`GaussSrc`; the generator of the file is Model/CmaRandom.lean) and the eigenvalue decomposition is a parameter
(`Eig`; that of the file is Model/CmaEigen.lean), so that what is proved here holds for each of them.
-/

namespace Spot

/-- A source of Gaussian numbers: any function of its state. -/
structure GaussSrc (K : Type) where
  St : Type
  next : St → K × St

/-- The function `Eigen` (spot/cma_optimizer.cpp:705-729): eigenvalues and eigenvectors (in columns) for the lower triangle of a
symmetric matrix. -/
abbrev Eig (K : Type) (n : Nat) := (Fin n → Fin n → K) → (Fin n → K) × (Fin n → Fin n → K)

section
variable {K : Type} [Arith K] {n : Nat}

/-- spot/cma_optimizer.h:8 -/
inductive CmaWeights
  | equal | linear | log

/-- spot/cma_optimizer.cpp:153-170: the weight of the individual with rank `i`, before normalization. -/
def CmaWeights.raw (m : CmaWeights) (mu i : Nat) : K :=
  match m with
  | .linear => lit ((mu - i : Int) : ℚ)
  | .equal => lit 1
  | .log => Arith.log (lit ((mu : ℚ) + 1)) - Arith.log (lit ((i : ℚ) + 1))

/-- spot/cma_optimizer.cpp:147-184 `cmaes_readpara_SetWeights`: normalized weights and `mueff`. -/
def cmaSetWeights (m : CmaWeights) (mu lambda : Nat) : Res (List K × K) :=
  let w := (List.range mu).map (m.raw mu)
  let s1 := w.foldl (fun s x => s + x) (lit 0)
  let s2 := w.foldl (fun s x => s + x * x) (lit 0)
  let v := w.map fun x => x / s1
  if decide (mu < 1) || decide (lambda < mu) || (decide (mu = lambda) && Arith.eq (v.getD 0 (lit 0)) (v.getD (mu - 1) (lit 0))) then .err
  else .ok (v, s1 * s1 / s2)

/-- The strategy parameters, spot/cma_optimizer.cpp:32-63; `N` is the dimension `n`. -/
structure CmaPar (K : Type) where
  lambda : Nat
  mu : Nat
  weights : List K
  mueff : K
  mucov : K
  cs : K
  ccumcov : K
  ccov : K
  damps : K
  modulo : K
  chiN : K
  diagonalCov : Nat := 0

/-- spot/cma_optimizer.cpp:285-286: the number of individuals, by default 4 + 3 log N. -/
def cmaLambda (K : Type) [Arith K] (opt : Int) (n : Nat) : Res Nat :=
  if opt < 2 then
    match Arith.trunc (lit 3 * Arith.log (lit (n : ℚ)) : K) with
    | some z => .ok (4 + z).toNat
    | none => .ub
  else .ok opt.toNat

/-- spot/cma_optimizer.cpp:294-297 -/
def cmaCs (n : Nat) (mueff : K) : K := (mueff + lit 2) / (lit (n : ℚ) + mueff + lit 3)

/-- spot/cma_optimizer.cpp:299-300 -/
def cmaCcumcov (K : Type) [Arith K] (n : Nat) : K := lit 4 / lit ((n : ℚ) + 4)

/-- spot/cma_optimizer.cpp:305-312 with `mucov = mueff` (line 303). -/
def cmaCcov (n : Nat) (mueff : K) : K :=
  let t1 := lit 2 / ((lit (n : ℚ) + lit (7071 / 5000)) * (lit (n : ℚ) + lit (7071 / 5000)))
  let t2 := (lit 2 * mueff - lit 1) / ((lit (n : ℚ) + lit 2) * (lit (n : ℚ) + lit 2) + mueff)
  let t2 := if Arith.lt (lit 1) t2 then lit 1 else t2
  (lit 1 / mueff) * t1 + (lit 1 - lit 1 / mueff) * t2

/-- spot/cma_optimizer.cpp:317-318 -/
def cmaMaxFunEvals (K : Type) [Arith K] (n : Nat) : K := lit 1 * lit 900 * lit ((n : ℚ) + 3) * lit ((n : ℚ) + 3)

/-- spot/cma_optimizer.cpp:325-331 -/
def cmaDamps (n lambda : Nat) (mueff cs : K) : K :=
  lit 1 * (lit 1 + lit 2 * Arith.max (lit 0) (Arith.sqrt ((mueff - lit 1) / (lit (n : ℚ) + lit 1)) - lit 1))
    * Arith.max (lit (3 / 10)) (lit 1 - lit (n : ℚ) / (lit (1 / 10 ^ 6) +
        Arith.min (Arith.ceil (cmaMaxFunEvals K n / lit (lambda : ℚ))) (cmaMaxFunEvals K n / lit (lambda : ℚ)))) + cs

/-- spot/cma_optimizer.cpp:355 -/
def cmaChiN (K : Type) [Arith K] (n : Nat) : K :=
  Arith.sqrt (lit (n : ℚ)) * (lit 1 - lit 1 / (lit 4 * lit (n : ℚ)) + lit 1 / (lit 21 * lit (n : ℚ) * lit (n : ℚ)))

/-- spot/cma_optimizer.cpp:278-338 `cmaes_readpara_SupplementDefaults` after `cmaes_init` (lines 225-276), which sets `mu`, `mucov`, `cs`,
`ccumcov`, `damps` and `ccov` to -1, `weigh_mode` to `log` and `diagonalCov` to 0, so that each of them gets its default. `modulo` is
the option `update_eigen_modulo` (line 1183). -/
def CmaPar.make (K : Type) [Arith K] (n : Nat) (opt : Int) (modulo : K) : Res (CmaPar K) :=
  cmaLambda K opt n >>= fun lambda => cmaSetWeights .log (lambda / 2) lambda >>= fun w =>
    let ccov := cmaCcov n w.2
    .ok { lambda := lambda, mu := lambda / 2, weights := w.1, mueff := w.2, mucov := w.2, cs := cmaCs n w.2, ccumcov := cmaCcumcov K n,
          ccov := ccov, damps := cmaDamps n lambda w.2 (cmaCs n w.2)
          modulo := (if Arith.lt modulo (lit 0) then lit 1 / ccov / lit (n : ℚ) / lit 10 else modulo) * lit 1
          chiN := cmaChiN K n }

/-- spot/cma_optimizer.cpp:362-365: a loop of the constructor that looks for the number of significant digits; at most `fuel` rounds (`none`: it has not ended by then). Its
result is not used by anything. -/
def kondLoop (K : Type) [Arith K] : Nat → K → Option K
  | 0, _ => none
  | f + 1, x =>
    if !Arith.eq x (lit 0) && Arith.lt x (lit (11 / 10) * x) then
      if Arith.eq x (x + lit 1) then some x else kondLoop K f (x * lit 2)
    else some x

/-- spot/cma_optimizer.cpp:64-111 `cmaes_t`. `C` is a lower triangular matrix: only the elements `C i j` with `j ≤ i` exist. -/
structure Cma (G : GaussSrc K) (n : Nat) where
  sigma : K
  mean : Fin n → K
  xold : Fin n → K
  pop : List (Fin n → K)
  index : List Nat
  C : Fin n → Fin n → K
  B : Fin n → Fin n → K
  D : Fin n → K
  pc : Fin n → K
  ps : Fin n → K
  gen : Nat := 0
  /-- 0: new, 1: sampled, 3: updated -/
  state : Nat := 0
  eigenUptodate : Bool := true
  genOfEigen : Nat := 0
  rng : G.St

variable {G : GaussSrc K}

/-- spot/cma_optimizer.cpp:340-425 `cmaes_init_final`. -/
def Cma.init (p : CmaPar K) (xstart stds : Fin n → K) (rng : G.St) : Cma G n :=
  let trace := sumFin fun i => stds i * stds i
  let d := fun i => stds i * Arith.sqrt (lit (n : ℚ) / trace)
  { sigma := Arith.sqrt (trace / lit (n : ℚ)), mean := xstart, xold := xstart
    pop := List.replicate p.lambda fun _ => lit 0, index := List.range p.lambda
    C := fun i j => if i = j then d i * d i else lit 0, B := fun i j => if i = j then lit 1 else lit 0, D := d
    pc := fun _ => lit 0, ps := fun _ => lit 0, rng := rng }

/-- `flgdiag`, spot/cma_optimizer.cpp:815, 904, 943. -/
def Cma.flgdiag (p : CmaPar K) (s : Cma G n) : Bool := decide (p.diagonalCov = 1) || decide (s.gen ≤ p.diagonalCov)

/-- spot/cma_optimizer.cpp:767-797 `cmaes_UpdateEigensystem( t, 0 )`. -/
def Cma.updateEigen (eig : Eig K n) (p : CmaPar K) (s : Cma G n) : Cma G n :=
  if s.eigenUptodate then s
  else if Arith.lt (lit (s.gen : ℚ)) (lit (s.genOfEigen : ℚ) + p.modulo) then s
  else { s with D := fun i => Arith.sqrt ((eig s.C).1 i), B := (eig s.C).2, eigenUptodate := true, genOfEigen := s.gen }

/-- spot/cma_optimizer.cpp:821-832: the eigensystem before sampling. -/
def Cma.prepare (eig : Eig K n) (p : CmaPar K) (s : Cma G n) : Cma G n :=
  if s.eigenUptodate then s
  else if s.flgdiag p then { s with D := fun i => Arith.sqrt (s.C i i), eigenUptodate := true }
  else s.updateEigen eig p

/-- `k` Gaussian numbers, in the order drawn. -/
def drawN (G : GaussSrc K) : Nat → G.St → List K × G.St
  | 0, e => ([], e)
  | k + 1, e => ((G.next e).1 :: (drawN G k (G.next e).2).1, (drawN G k (G.next e).2).2)

/-- spot/cma_optimizer.cpp:839-850: an individual made of the Gaussian numbers `z`. -/
def Cma.individual (s : Cma G n) (diag : Bool) (z : Fin n → K) : Fin n → K :=
  if diag then fun i => s.mean i + s.sigma * s.D i * z i
  else fun i => s.mean i + s.sigma * sumFin fun j => s.B i j * (s.D j * z j)

/-- The loop over the individuals, spot/cma_optimizer.cpp:837-851. -/
def Cma.sampleLoop (s : Cma G n) (diag : Bool) : Nat → G.St → List (Fin n → K) × G.St
  | 0, e => ([], e)
  | k + 1, e =>
    (s.individual diag (vecOf n (drawN G n e).1) :: (s.sampleLoop diag k (drawN G n e).2).1, (s.sampleLoop diag k (drawN G n e).2).2)

/-- spot/cma_optimizer.cpp:812-857 `cmaes_SamplePopulation`. -/
def Cma.samplePopulation (eig : Eig K n) (p : CmaPar K) (s0 : Cma G n) : Cma G n :=
  let s := s0.prepare eig p
  { s with pop := (s.sampleLoop (s.flgdiag p) p.lambda s.rng).1, rng := (s.sampleLoop (s.flgdiag p) p.lambda s.rng).2
           gen := if s.state = 3 ∨ s.gen = 0 then s.gen + 1 else s.gen, state := 1 }

/-- spot/cma_optimizer.cpp:859-876 `cmaes_ReSampleSingle`. -/
def Cma.resampleSingle (s : Cma G n) (k : Nat) : Cma G n :=
  { s with pop := s.pop.set k (s.individual false (vecOf n (drawN G n s.rng).1)), rng := (drawN G n s.rng).2 }

/-- spot/cma_optimizer.cpp:878-886 `cmaes_OverwriteSingle`. -/
def Cma.overwriteSingle (s : Cma G n) (k : Nat) (x : Fin n → K) : Cma G n := { s with pop := s.pop.set k x }

/-- The inner loop of spot/cma_optimizer.cpp:888-899 with `j` and the insertion at the end. -/
def sortInsert (f : Nat → Dbl) (i : Nat) : Nat → List Nat → List Nat
  | 0, idx => idx.set 0 i
  | j + 1, idx =>
    if Dbl.lt (f (idx.getD j 0)) (f i) then idx.set (j + 1) i
    else sortInsert f i j (idx.set (j + 1) (idx.getD j 0))

/-- The outer loop for `i`, ..., `i + k - 1`. -/
def sortOuter (f : Nat → Dbl) : Nat → Nat → List Nat → List Nat
  | 0, _, idx => idx
  | k + 1, i, idx => sortOuter f k (i + 1) (sortInsert f i i idx)

/-- Element `i` of a vector of fitnesses. -/
def fitAt (fs : List Dbl) (i : Nat) : Dbl := fs.getD i .nan

/-- spot/cma_optimizer.cpp:888-899 `Sorted_index`. -/
def sortedIndex (fs : List Dbl) (idx : List Nat) (n : Nat) : List Nat := sortOuter (fitAt fs) (n - 1) 1 (idx.set 0 0)

/-- The individual with rank `k`. -/
def Cma.ranked (s : Cma G n) (k : Nat) : Fin n → K := s.pop.getD (s.index.getD k 0) fun _ => lit 0

/-- spot/cma_optimizer.cpp:909-910. -/
def Cma.ccov1 (p : CmaPar K) (n : Nat) (diag : Bool) : K :=
  Arith.min (p.ccov * (lit 1 / p.mucov) * (if diag then (lit (n : ℚ) + lit (3 / 2)) / lit 3 else lit 1)) (lit 1)
def Cma.ccovmu (p : CmaPar K) (n : Nat) (diag : Bool) : K :=
  Arith.min (p.ccov * (lit 1 - lit 1 / p.mucov) * (if diag then (lit (n : ℚ) + lit (3 / 2)) / lit 3 else lit 1)) (lit 1 - Cma.ccov1 p n diag)

/-- spot/cma_optimizer.cpp:918-927: the new value of element `i`, `j` of the covariance matrix. -/
def Cma.newC (p : CmaPar K) (s : Cma G n) (hsig : Bool) (i j : Fin n) : K :=
  let c1 := Cma.ccov1 p n (s.flgdiag p)
  let cmu := Cma.ccovmu p n (s.flgdiag p)
  (List.range p.mu).foldl
    (fun a k => a + cmu * p.weights.getD k (lit 0) * (s.ranked k i - s.xold i) * (s.ranked k j - s.xold j) / (s.sigma * s.sigma))
    ((lit 1 - c1 - cmu) * s.C i j + c1 * (s.pc i * s.pc j +
      (if hsig then lit 0 else lit 1) * p.ccumcov * (lit 2 - p.ccumcov) * s.C i j))

/-- spot/cma_optimizer.cpp:901-938 `Adapt_C2`. -/
def Cma.adaptC (p : CmaPar K) (s : Cma G n) (hsig : Bool) : Cma G n :=
  if Arith.eq p.ccov (lit 0) then s
  else { s with
    eigenUptodate := false
    C := fun i j => if (if s.flgdiag p then j = i else j ≤ i) then s.newC p hsig i j else s.C i j }

/-- spot/cma_optimizer.cpp:962-970: the ranking, and a larger step size if the best half of the fitnesses is equal. -/
def Cma.rank (p : CmaPar K) (s : Cma G n) (fs : List Dbl) : Cma G n :=
  let index := sortedIndex fs s.index p.lambda
  { s with index := index
           sigma := if Dbl.eq (fitAt fs (index.getD 0 0)) (fitAt fs (index.getD (p.lambda / 2) 0)) then
               s.sigma * Arith.exp (lit (1 / 5) + p.cs / p.damps) else s.sigma }

/-- spot/cma_optimizer.cpp:985-989: the new mean. -/
def Cma.newMean (p : CmaPar K) (s : Cma G n) (i : Fin n) : K := sumLoop p.mu fun k => p.weights.getD k (lit 0) * s.ranked k i

/-- spot/cma_optimizer.cpp:985-991: mean and `rgBDz`. -/
def Cma.move (p : CmaPar K) (s : Cma G n) : Cma G n := { s with xold := s.mean, mean := s.newMean p }
def Cma.bdz (p : CmaPar K) (s : Cma G n) (i : Fin n) : K := Arith.sqrt p.mueff * (s.mean i - s.xold i) / s.sigma

/-- spot/cma_optimizer.cpp:993-1001: `D^(-1) * B^(-1) * rgBDz`. -/
def Cma.whiten (p : CmaPar K) (s : Cma G n) (i : Fin n) : K :=
  (if s.flgdiag p then s.bdz p i else sumFin fun j => s.B j i * s.bdz p j) / s.D i

/-- spot/cma_optimizer.cpp:1003-1012: the evolution path of the step size. -/
def Cma.newPs (p : CmaPar K) (s : Cma G n) (i : Fin n) : K :=
  (lit 1 - p.cs) * s.ps i + Arith.sqrt (p.cs * (lit 2 - p.cs)) *
    (if s.flgdiag p then s.whiten p i else sumFin fun j => s.B i j * s.whiten p j)

/-- spot/cma_optimizer.cpp:1014-1016 -/
def Cma.psxps (s : Cma G n) : K := sumFin fun i => s.ps i * s.ps i

/-- spot/cma_optimizer.cpp:1019-1020 -/
def Cma.hsig (p : CmaPar K) (s : Cma G n) : Bool :=
  Arith.lt (Arith.sqrt s.psxps / Arith.sqrt (lit 1 - Arith.pow (lit 1 - p.cs) (lit 2 * lit (s.gen : ℚ))) / p.chiN)
    (lit (7 / 5) + lit 2 / lit ((n : ℚ) + 1))

/-- spot/cma_optimizer.cpp:1021-1024: the evolution path of the covariance matrix. -/
def Cma.newPc (p : CmaPar K) (s : Cma G n) (i : Fin n) : K :=
  (lit 1 - p.ccumcov) * s.pc i + (if s.hsig p then lit 1 else lit 0) * Arith.sqrt (p.ccumcov * (lit 2 - p.ccumcov)) * s.bdz p i

/-- spot/cma_optimizer.cpp:984-1024: the mean and the two evolution paths. -/
def Cma.paths (p : CmaPar K) (s : Cma G n) : Cma G n :=
  let s := s.move p
  let s := { s with ps := s.newPs p }
  { s with pc := s.newPc p }

/-- spot/cma_optimizer.cpp:984-1041, after the ranking (`hsig` is computed from `ps`, before `pc` changes). -/
def Cma.adapt (p : CmaPar K) (s : Cma G n) : Cma G n :=
  let s := s.paths p
  let s := s.adaptC p (s.hsig p)
  { s with sigma := s.sigma * Arith.exp ((Arith.sqrt s.psxps / p.chiN - lit 1) * p.cs / p.damps), state := 3 }

/-- spot/cma_optimizer.cpp:940-1045 `cmaes_UpdateDistribution`. The errors come before any change. -/
def Cma.updateDistribution (p : CmaPar K) (s : Cma G n) (fs : List Dbl) : Cma G n × Res Unit :=
  if s.state = 3 then (s, .err)
  else if fs.length ≠ p.lambda then (s, .err)
  else if s.state = 1 then ((s.rank p fs).adapt p, .ok ())
  else (s, .err)

/-- spot/cma_optimizer.cpp:1238-1251 `cma_optimizer::update_distribution`: CMA always minimizes. -/
def Cma.update (p : CmaPar K) (minimize : Bool) (s : Cma G n) (fs : List Dbl) : Cma G n × Res Unit :=
  s.updateDistribution p (if minimize then fs else fs.map Dbl.neg)

/-- spot/objective_info.cpp:151-157 `is_feasible` and 159-171 `clamp` for vectors; for `K = Dbl` these are `ObjInfo.isFeasible` and
`ObjInfo.clamp`. -/
def Bounds.feasible (b : Bounds K n) (v : Fin n → K) : Bool := (List.finRange n).all fun i => !(Arith.lt (v i) (b.lo i) || Arith.lt (b.hi i) (v i))
def Bounds.clamp (b : Bounds K n) (v : Fin n → K) : Fin n → K := fun i =>
  if Arith.le (b.lo i) (v i) && Arith.le (v i) (b.hi i) then v i else clamped (v i) (b.lo i) (b.hi i)

/-- The loop of spot/cma_optimizer.cpp:1213-1223 for individual `k` with `m` more attempts; `tr` is `try_apply_boundary_transform`. -/
def Cma.attempts (tr : (Fin n → K) → Fin n → K) (b : Bounds K n) (k : Nat) : Nat → Cma G n → (Fin n → K) → Cma G n × (Fin n → K) × Bool
  | 0, s, x => (s, x, false)
  | m + 1, s, x =>
    if b.feasible (tr x) then (s, tr x, true)
    else Cma.attempts tr b k m (s.resampleSingle k) ((s.resampleSingle k).pop.getD k fun _ => lit 0)

/-- spot/cma_optimizer.cpp:1210-1232: one individual; what `set_values` gets. `max_resample_count` is 100 (line 1160). -/
def Cma.bounded (tr : (Fin n → K) → Fin n → K) (b : Bounds K n) (s : Cma G n) (k : Nat) : Cma G n × (Fin n → K) :=
  match Cma.attempts tr b k 100 s (s.pop.getD k fun _ => lit 0) with
  | (s, x, true) => (s, x)
  | (s, x, false) => (s.overwriteSingle k (b.clamp x), b.clamp x)

/-- The loop of spot/cma_optimizer.cpp:1208-1233 over the individuals `ks`. -/
def Cma.boundedLoop (tr : (Fin n → K) → Fin n → K) (b : Bounds K n) : List Nat → Cma G n → Cma G n × List (Fin n → K)
  | [], s => (s, [])
  | k :: ks, s => ((Cma.boundedLoop tr b ks (s.bounded tr b k).1).1, (s.bounded tr b k).2 :: (Cma.boundedLoop tr b ks (s.bounded tr b k).1).2)

/-- spot/cma_optimizer.cpp:1202-1236 `cma_optimizer::sample_population`: the vectors given to `set_values`, which rounds them. -/
def Cma.sample (tr : (Fin n → K) → Fin n → K) (b : Bounds K n) (eig : Eig K n) (p : CmaPar K) (s : Cma G n) : Cma G n × List (Fin n → K) :=
  Cma.boundedLoop tr b (List.range p.lambda) (s.samplePopulation eig p)

/-- spot/cma_optimizer.cpp:1259-1267 `current_std`. -/
def Cma.std (s : Cma G n) (i : Fin n) : K := s.sigma * Arith.sqrt (s.C i i)

/-- spot/cma_optimizer.cpp:1269-1272 `current_covariance`: row `i` has elements 0 .. i. -/
def Cma.covRows (s : Cma G n) : List (List K) := List.ofFn fun i : Fin n => List.ofFn fun j : Fin (i + 1) => s.C i ⟨j, by omega⟩

/-- The calls of the public functions, and what they return. -/
inductive CmaCall (K : Type) (n : Nat)
  | sample (tr : (Fin n → K) → Fin n → K)
  | update (fs : List Dbl)

/-- spot/cma_optimizer.h:26-27. -/
def Cma.call (b : Bounds K n) (minimize : Bool) (eig : Eig K n) (p : CmaPar K) (s : Cma G n) : CmaCall K n → Cma G n × Res Unit
  | .sample tr => ((s.sample tr b eig p).1, .ok ())
  | .update fs => s.update p minimize fs

/-- Any sequence of calls, with the results. -/
inductive Cma.Calls (b : Bounds K n) (minimize : Bool) (eig : Eig K n) (p : CmaPar K) (s0 : Cma G n) : List (CmaCall K n × Res Unit) → Cma G n → Prop
  | nil : Cma.Calls b minimize eig p s0 [] s0
  | snoc {cs s} (h : Cma.Calls b minimize eig p s0 cs s) (c : CmaCall K n) :
      Cma.Calls b minimize eig p s0 (cs ++ [(c, (s.call b minimize eig p c).2)]) (s.call b minimize eig p c).1

end

/-- A CMA optimizer: what it inherits from `optimizer`, and the distribution. -/
structure CmaOpt (G : GaussSrc Dbl) (n : Nat) where
  opt : Opt
  cma : Cma G n

/-- What a CMA optimizer is constructed with, except the objective; the eigenvalue decomposition and the boundary transformer (the
identity if there is none). -/
structure CmaCfg (n : Nat) where
  par : CmaPar Dbl
  bounds : Bounds Dbl n
  eig : Eig Dbl n
  tr : (Fin n → Dbl) → Fin n → Dbl

/-- spot/cma_optimizer.cpp:225-276 `cmaes_init`, for an objective without parameters, which gets nothing else (line 1184): `lambda` is that of the options. The other fields
(-1 or not initialized) are not read by anything, as there are no steps (`CmaOpt.Internal`); they are 0 here. -/
def CmaPar.empty [Libm] (lambda : Nat) (modulo : Dbl) : CmaPar Dbl :=
  { lambda := lambda, mu := 0, weights := [], mueff := lit 0, mucov := lit 0, cs := lit 0, ccumcov := lit 0, ccov := lit 0, damps := lit 0, modulo := modulo, chiN := lit 0 }

/-- spot/cma_optimizer.cpp:1158-1195: the constructor. It throws if the bounds of a parameter are equal (line 1074). For an objective
without parameters nothing of the distribution is initialized (line 1184), and what `cma` is then does not matter: there are no steps (`CmaOpt.Internal`); a negative number of
individuals then makes `resize` throw (line 1189). The mean being outside of the bounds is only logged (line 1169-1170). `rng` is the random number generator initialized with the seed. -/
def CmaOpt.make {G : GaussSrc Dbl} [Libm] (info : ObjInfo) (opt : Int) (modulo : Dbl) (rng : G.St) : Res (CmaPar Dbl × CmaOpt G info.dim) :=
  (if info.dim = 0 then (if opt < 0 then .err else .ok (CmaPar.empty opt.toNat modulo)) else CmaPar.make Dbl info.dim opt modulo) >>= fun p =>
    if info.pars.any fun q => Dbl.eq q.min q.max then .err
    else .ok (p, { opt := (Opt.init info).addCond (.flat (lit (1 / 10 ^ 9)))
                   cma := Cma.init p (fun k => (info.pars.get k).mean) (fun k => (info.pars.get k).std) rng })

/-- The population as search points: `set_values` (spot/cma_optimizer.cpp:1232) rounds. -/
def toPoints [Libm] {n : Nat} (xs : List (Fin n → Dbl)) : List Pt := xs.map fun x => (List.ofFn x).map Arith.round8

/-- spot/cma_optimizer.cpp:1311-1322 `internal_step` for the objective `F` (`none`: no result), with the population that was evaluated. There is no step without
parameters: `sample_population` asserts that there are some (line 1205). -/
inductive CmaOpt.Internal [Libm] (E : OptEnv) {n : Nat} {G : GaussSrc Dbl} (c : CmaCfg n) (F : Pt → Option Dbl) : CmaOpt G n → List Pt → CmaOpt G n → Prop
  | ok {s : CmaOpt G n} {d d' : Cma G n} {xs : List (Fin n → Dbl)} {o : Opt} (hn : 0 < n) (hp : s.cma.sample c.tr c.bounds c.eig c.par = (d, xs))
      (he : s.opt.evaluateStep E (toPoints xs) ((toPoints xs).map F) = (o, .ok true))
      (hu : d.update c.par o.vis.info.minimize o.vis.curFitnesses = (d', .ok ())) : CmaOpt.Internal E c F s (toPoints xs) ⟨o, d'⟩
  | failed {s : CmaOpt G n} {d : Cma G n} {xs : List (Fin n → Dbl)} {o : Opt} (hn : 0 < n) (hp : s.cma.sample c.tr c.bounds c.eig c.par = (d, xs))
      (he : s.opt.evaluateStep E (toPoints xs) ((toPoints xs).map F) = (o, .ok false)) : CmaOpt.Internal E c F s (toPoints xs) ⟨o, d⟩

/-- Any number of internal steps, with the populations evaluated. -/
inductive CmaOpt.Runs [Libm] (E : OptEnv) {n : Nat} {G : GaussSrc Dbl} (c : CmaCfg n) (F : Pt → Option Dbl) (s : CmaOpt G n) : List (List Pt) → CmaOpt G n → Prop
  | nil : CmaOpt.Runs E c F s [] s
  | snoc {ps pop t t'} (h : CmaOpt.Runs E c F s ps t) (st : CmaOpt.Internal E c F t pop t') : CmaOpt.Runs E c F s (ps ++ [pop]) t'

end Spot
