import Verif.Model.CmaEigen

/-!
# spot_test/c-cmaes/cmaes.c: the reference implementation of CMA-ES

The C program that `cma_optimizer` is derived from is part of the repository, and spot_test/cma_optimizer_test.cpp runs the two side by side. This is a model of the functions of
the C program that such a run uses, written loop by loop and assignment by assignment, with the C arrays as functions of the index (no array is read or written outside of
its size: all indices are loop variables or the elements of `index`). It shares nothing with Model/Cma.lean but the arithmetic and the loops of Model/CmaEigen.lean.

Called with the parameter file "no" (spot_test/cma_optimizer_test.cpp:24): no parameter is read from a file, there is no file to resume from and no minimal standard deviation
(cmaes.c:2567-2583). Left out are members that only output and termination tests read (`arFuncValueHist`, `minEW`, `maxEW`, `mindiagC`, `maxdiagC`, `rgout`, the times of
output), and `flgIniphase`, `flgCheckEigen`, `flgalways`, which are 0. The values of the objective are doubles; element N of an individual (its value) is kept in a member of its own.
-/

namespace Spot.Ref

variable {K : Type} [Arith K]

/-- cmaes.c:2919-2923. -/
def douMax (i j : K) : K := if Arith.lt j i then i else j
/-- cmaes.c:2924-2928. -/
def douMin (i j : K) : K := if Arith.lt i j then i else j

/-! ## The random number generator -/

/-- spot_test/c-cmaes/cmaes.h:20-34 `cmaes_random_t` (`startseed` is never read). `long` is modelled by unbounded integers. -/
structure Rnd (K : Type) where
  aktseed : Int
  aktrand : Int
  rgrand : Nat → Int
  flgstored : Bool
  hold : K

/-- One step of the linear congruential generator, cmaes.c:2430-2433 and 2468-2472. -/
def lcg (aktseed : Int) : Int :=
  let tmp := aktseed.tdiv 127773
  let a := 16807 * (aktseed - tmp * 127773) - 2836 * tmp
  if a < 0 then a + 2147483647 else a

/-- cmaes.c:2423-2424: `while ( inseed > 2e9 ) inseed /= 2`, at most `fuel` times (64 are enough for a 64 bit number). -/
def halve : Nat → Nat → Nat
  | 0, s => s
  | f + 1, s => if 2000000000 < s then halve f (s / 2) else s

/-- cmaes.c:2416-2439 `cmaes_random_Start`: the returned seed and the generator. The memory of `rgrand` and `hold` is not initialized before; here it contains `m` and `h`. -/
def Rnd.start (inseed : Nat) (m : Nat → Int) (h : K) : Nat × Rnd K :=
  let inseed := halve 64 inseed
  let inseed := if inseed < 1 then 1 else inseed
  let x := forDown 0 40 (fun i x => let a := lcg x.1; (a, if i < 32 then set1 x.2 i a else x.2)) ((inseed : Int), m)
  (inseed, { aktseed := x.1, aktrand := x.2 0, rgrand := x.2, flgstored := false, hold := h })

/-- cmaes.c:2394-2407 `cmaes_random_init`; `clock` is the value computed from the clock. -/
def Rnd.init (inseed clock : Nat) (m : Nat → Int) (h : K) : Nat × Rnd K := Rnd.start (if inseed < 1 then clock else inseed) m h

/-- cmaes.c:2464-2477 `cmaes_random_Uniform`. -/
def Rnd.uniform (t : Rnd K) : K × Rnd K :=
  let t := { t with aktseed := lcg t.aktseed }
  let tmp := (t.aktrand.tdiv 67108865).toNat
  let t := { t with aktrand := t.rgrand tmp }
  let t := { t with rgrand := set1 t.rgrand tmp t.aktseed }
  (lit (t.aktrand : ℚ) / lit 2147483647, t)

/-- cmaes.c:2453-2455: the body of the loop: `x1`, `x2`, `rquad`. -/
def Rnd.polar (t : Rnd K) : (K × K × K) × Rnd K :=
  let u := t.uniform
  let x1 := lit 2 * u.1 - lit 1
  let v := u.2.uniform
  let x2 := lit 2 * v.1 - lit 1
  ((x1, x2, x1 * x1 + x2 * x2), v.2)

/-- cmaes.c:2456: the condition of the loop. -/
def again (rquad : K) : Bool := Arith.le (lit 1) rquad || Arith.le rquad (lit 0)

/-- The generator after `k` rounds of the loop. -/
def Rnd.rounds (t : Rnd K) : Nat → Rnd K
  | 0 => t
  | k + 1 => ((t.rounds k).polar).2

/-- cmaes.c:2442-2461 `cmaes_random_Gauss`: `v` is returned, with `t'` afterwards. The loop ends after the first round whose `rquad` is accepted. -/
def Rnd.Gauss (t : Rnd K) (v : K) (t' : Rnd K) : Prop :=
  if t.flgstored then v = t.hold ∧ t' = { t with flgstored := false }
  else ∃ k : Nat, (∀ j < k, again ((t.rounds j).polar).1.2.2 = true) ∧ again ((t.rounds k).polar).1.2.2 = false ∧
    let x := ((t.rounds k).polar).1
    let fac := Arith.sqrt (lit (-2) * Arith.log x.2.2 / x.2.2)
    v = fac * x.2.1 ∧ t' = { (t.rounds (k + 1)) with flgstored := true, hold := fac * x.1 }

/-! ## The parameters -/

/-- spot_test/c-cmaes/cmaes.h:59-110 `cmaes_readpara_t`, without what only concerns files and termination. -/
structure Para (K : Type) where
  N : Nat
  xstart : Nat → K
  rgInitialStds : Nat → K
  stopMaxFunEvals : K
  facmaxeval : K
  stopMaxIter : K
  lambda : Int
  mu : Int
  mucov : K
  mueff : K
  weights : Nat → K
  damps : K
  cs : K
  ccumcov : K
  ccov : K
  diagonalCov : K
  modulo : K
  maxtime : K
  facupdateCmode : K

/-- cmaes.c:2498-2631 `cmaes_readpara_init` for a dimension, start and standard deviations that are given. `mueff` is not initialized; `weights` is NULL. `modulo` is -1 in the
C program (line 2580); a different value is what the parameter file or the caller can set. -/
def Para.init (dim : Nat) (xstart sigma : Nat → K) (lambda : Int) (modulo mueff : K) : Para K :=
  { N := dim, xstart := xstart, rgInitialStds := sigma, stopMaxFunEvals := lit (-1), facmaxeval := lit 1, stopMaxIter := lit (-1), lambda := lambda, mu := -1, mucov := lit (-1)
    mueff := mueff, weights := fun _ => lit 0, damps := lit (-1), cs := lit (-1), ccumcov := lit (-1), ccov := lit (-1), diagonalCov := lit 0, modulo := modulo
    maxtime := lit (-1), facupdateCmode := lit 1 }

/-- cmaes.c:2863-2897 `cmaes_readpara_SetWeights` with the mode "log"; a fatal error is `err`. -/
def Para.setWeights (t : Para K) : Res (Para K) :=
  let mu := t.mu.toNat
  let w := forUp 0 mu (fun i w => set1 w i (Arith.log (lit ((mu : ℚ) + 1)) - Arith.log (lit ((i : ℚ) + 1)))) fun _ => lit 0
  let s := forUp 0 mu (fun i (s : K × K) => (s.1 + w i, s.2 + w i * w i)) (lit 0, lit 0)
  let mueff := s.1 * s.1 / s.2
  let w := forUp 0 mu (fun i w => set1 w i (w i / s.1)) w
  if decide (t.mu < 1) || decide (t.mu > t.lambda) || (decide (t.mu = t.lambda) && Arith.eq (w 0) (w (mu - 1))) then .err
  else .ok { t with mueff := mueff, weights := w }

/-- cmaes.c:2801-2804. The conversion to `int` can be undefined. -/
def Para.setLambda (t : Para K) : Res (Para K) :=
  if t.lambda < 2 then
    match Arith.trunc (lit 3 * Arith.log (lit (t.N : ℚ)) : K) with
    | some z => .ok { t with lambda := 4 + z }
    | none => .ub
  else .ok t

/-- cmaes.c:2810-2820: `cs`, `ccumcov`, `mucov`. -/
def Para.setRates (t : Para K) : Para K :=
  let N : K := lit (t.N : ℚ)
  let t := if Arith.lt (lit 0) t.cs then { t with cs := t.cs * ((t.mueff + lit 2) / (N + t.mueff + lit 3)) } else t
  let t := if Arith.le t.cs (lit 0) || Arith.le (lit 1) t.cs then { t with cs := (t.mueff + lit 2) / (N + t.mueff + lit 3) } else t
  let t := if Arith.le t.ccumcov (lit 0) || Arith.lt (lit 1) t.ccumcov then { t with ccumcov := lit 4 / lit ((t.N : ℚ) + 4) } else t
  if Arith.lt t.mucov (lit 1) then { t with mucov := t.mueff } else t

/-- cmaes.c:2821-2828: `ccov`. -/
def Para.setCcov (t : Para K) : Para K :=
  let N : K := lit (t.N : ℚ)
  let t1 := lit 2 / ((N + lit (14142 / 10000)) * (N + lit (14142 / 10000)))
  let t2 := (lit 2 * t.mueff - lit 1) / ((N + lit 2) * (N + lit 2) + t.mueff)
  let t2 := if Arith.lt (lit 1) t2 then lit 1 else t2
  let t2 := (lit 1 / t.mucov) * t1 + (lit 1 - lit 1 / t.mucov) * t2
  let t := if Arith.le (lit 0) t.ccov then { t with ccov := t.ccov * t2 } else t
  if Arith.lt t.ccov (lit 0) || Arith.lt (lit 1) t.ccov then { t with ccov := t2 } else t

/-- cmaes.c:2833-2839: the limits that `damps` depends on. -/
def Para.setLimits (t : Para K) : Para K :=
  let t := if Arith.eq t.stopMaxFunEvals (lit (-1)) then { t with stopMaxFunEvals := t.facmaxeval * lit 900 * lit ((t.N : ℚ) + 3) * lit ((t.N : ℚ) + 3) }
    else { t with stopMaxFunEvals := t.stopMaxFunEvals * t.facmaxeval }
  if Arith.eq t.stopMaxIter (lit (-1)) then { t with stopMaxIter := Arith.ceil (t.stopMaxFunEvals / lit (t.lambda : ℚ)) } else t

/-- cmaes.c:2841-2847: `damps`. -/
def Para.setDamps (t : Para K) : Para K :=
  let t := if Arith.lt t.damps (lit 0) then { t with damps := lit 1 } else t
  { t with damps := t.damps * (lit 1 + lit 2 * douMax (lit 0) (Arith.sqrt ((t.mueff - lit 1) / (lit (t.N : ℚ) + lit 1)) - lit 1))
      * douMax (lit (3 / 10)) (lit 1 - lit (t.N : ℚ) / (lit (1 / 10 ^ 6) + douMin t.stopMaxIter (t.stopMaxFunEvals / lit (t.lambda : ℚ)))) + t.cs }

/-- cmaes.c:2849-2853: when the eigensystem is computed. -/
def Para.setModulo (t : Para K) : Para K :=
  let t := if Arith.lt t.modulo (lit 0) then { t with modulo := lit 1 / t.ccov / lit (t.N : ℚ) / lit 10 } else t
  let t := { t with modulo := t.modulo * t.facupdateCmode }
  if Arith.lt t.maxtime (lit 0) then { t with maxtime := lit (1 / 5) } else t

/-- cmaes.c:2830-2831: `diagonalCov` is -1 only if a parameter file says so, and the conversion of the default is not needed then. -/
def Para.setDiagonal (t : Para K) : Para K :=
  if Arith.eq t.diagonalCov (lit (-1)) then { t with diagonalCov := lit 2 + lit 100 * lit (t.N : ℚ) / Arith.sqrt (lit (t.lambda : ℚ)) } else t

/-- cmaes.c:2778-2857 `cmaes_readpara_SupplementDefaults`, without the seed. -/
def Para.supplement (t : Para K) : Res (Para K) :=
  t.setLambda >>= fun t => (if t.mu = -1 then { t with mu := t.lambda.tdiv 2 } else t).setWeights >>= fun t =>
    .ok t.setRates.setCcov.setDiagonal.setLimits.setDamps.setModulo

/-! ## The distribution -/

/-- spot_test/c-cmaes/cmaes.h:112-173 `cmaes_t`. `gen`, `countevals`, `genOfEigensysUpdate` and `state` are doubles that hold numbers of calls (exact below 2^53). -/
structure Cmaes (H : GaussSrc K) where
  sp : Para K
  rand : H.St
  sigma : K
  rgxmean : Nat → K
  rgxbestever : Nat → K
  fbestever : Dbl
  evalsbestever : Nat
  rgrgx : Nat → Nat → K
  index : Nat → Nat
  chiN : K
  C : Nat → Nat → K
  B : Nat → Nat → K
  rgD : Nat → K
  rgpc : Nat → K
  rgps : Nat → K
  rgxold : Nat → K
  rgBDz : Nat → K
  rgdTmp : Nat → K
  rgFuncValue : Nat → Dbl
  gen : Nat
  countevals : Nat
  state : Nat
  flgEigensysIsUptodate : Bool
  genOfEigensysUpdate : Nat

variable {H : GaussSrc K}

/-- cmaes.c:274-393 `cmaes_init_final` after the parameters are supplemented, with the random number generator `rand` (line 299). `new_double` is `calloc`: the memory is 0. -/
def Cmaes.init (sp : Para K) (rand : H.St) : Cmaes H :=
  let N := sp.N
  let trace := forUp 0 N (fun i s => s + sp.rgInitialStds i * sp.rgInitialStds i) (lit 0)
  let z : Nat → K := fun _ => lit 0
  let t : Cmaes H := { sp := sp, rand := rand, sigma := Arith.sqrt (trace / lit (N : ℚ))
                       chiN := Arith.sqrt (lit (N : ℚ)) * (lit 1 - lit 1 / (lit 4 * lit (N : ℚ)) + lit 1 / (lit 21 * lit (N : ℚ) * lit (N : ℚ)))
                       flgEigensysIsUptodate := true, genOfEigensysUpdate := 0, gen := 0, countevals := 0, state := 0
                       rgpc := z, rgps := z, rgdTmp := z, rgBDz := z, rgxmean := z, rgxold := z, rgxbestever := z, fbestever := .fin 0, evalsbestever := 0, rgD := z
                       C := fun _ => z, B := fun _ => z, rgFuncValue := fun _ => .fin 0, index := fun _ => 0, rgrgx := fun _ => z }
  let t := { t with index := forUp 0 sp.lambda.toNat (fun i x => set1 x i i) t.index }
  let t := forUp 0 N (fun i t => forUp 0 i (fun j (t : Cmaes H) => { t with B := set2 (set2 t.B j i (lit 0)) i j (lit 0), C := set2 t.C i j (lit 0) }) t) t
  let t := forUp 0 N (fun i (t : Cmaes H) =>
    let t := { t with B := set2 t.B i i (lit 1) }
    let t := { t with rgD := set1 t.rgD i (sp.rgInitialStds i * Arith.sqrt (lit (N : ℚ) / trace)) }
    let t := { t with C := set2 t.C i i (t.rgD i) }
    let t := { t with C := set2 t.C i i (t.C i i * t.C i i) }
    { t with rgps := set1 t.rgps i (lit 0), rgpc := set1 t.rgpc i (lit 0) }) t
  forUp 0 N (fun i (t : Cmaes H) =>
    let t := { t with rgxold := set1 t.rgxold i (sp.xstart i) }
    { t with rgxmean := set1 t.rgxmean i (t.rgxold i) }) t

/-- cmaes.c:611, 796, 962: `flgdiag`. -/
def Cmaes.flgdiag (t : Cmaes H) : Bool := Arith.eq t.sp.diagonalCov (lit 1) || Arith.le (lit (t.gen : ℚ)) t.sp.diagonalCov

/-- cmaes.c:1966-1970: `C` is copied to `Q`. -/
def copyC (N : Nat) (C Q : Nat → Nat → K) : Nat → Nat → K := forUp 0 N (fun i Q => forUp 0 (i + 1) (fun j Q => set2 (set2 Q j i (C i j)) i j (C i j)) Q) Q

/-- cmaes.c:1946-1980 `Eigen`: eigenvalues and eigenvectors; `none`: the loop of `QLalgo2` has not ended after `fuel` rounds. `Householder2` and `QLalgo2` (cmaes.c:1984-2257)
are the same text as spot/cma_optimizer.cpp:445-703 (up to the types of the arrays and the layout), and their model is that of Model/CmaEigen.lean. All elements of `Q` are
overwritten; what a matrix of functions contains outside of its size is 0 here. -/
def Eigen (N fuel : Nat) (C : Nat → Nat → K) : Option (Res ((Nat → K) × (Nat → Nat → K))) :=
  qlAlgo2 N fuel (householder2 N { V := copyC N C fun _ _ => lit 0, d := fun _ => lit 0, e := fun _ => lit 0 })

/-- cmaes.c:1881-1942 `cmaes_UpdateEigensystem( t, 0 )`. `eig` is `Eigen` (lines 1947-1980), which is the same text as in spot/cma_optimizer.cpp:445-729 and of which only the
lower triangle of `C` is an argument; it leaves `junk` in `rgdTmp`. `slow`: the time measured for eigensystems is more than `maxtime` times the total time and more than 0.0002 s. -/
def Cmaes.updateEigensystem (eig : (Nat → Nat → K) → (Nat → K) × (Nat → Nat → K)) (slow : Bool) (junk : Nat → K) (t : Cmaes H) : Cmaes H :=
  if t.flgEigensysIsUptodate then t
  else if Arith.lt (lit (t.gen : ℚ)) (lit (t.genOfEigensysUpdate : ℚ) + t.sp.modulo) then t
  else if Arith.lt t.sp.maxtime (lit 1) && slow then t
  else
    let t := { t with rgD := (eig t.C).1, B := (eig t.C).2, rgdTmp := junk }
    let t := { t with rgD := forUp 0 t.sp.N (fun i d => set1 d i (Arith.sqrt (d i))) t.rgD }
    { t with flgEigensysIsUptodate := true, genOfEigensysUpdate := t.gen }

/-- cmaes.c:643-647, 697-701: `rgrgx[k] = xmean + sigma * B * rgdTmp`. -/
def Cmaes.mutate (k : Nat) (t : Cmaes H) : Cmaes H :=
  forUp 0 t.sp.N (fun i t =>
    let sum := forUp 0 t.sp.N (fun j sum => sum + t.B i j * t.rgdTmp j) (lit 0)
    { t with rgrgx := set2 t.rgrgx k i (t.rgxmean i + t.sigma * sum) }) t

/-- cmaes.c:608-654 `cmaes_SamplePopulation`. -/
def Cmaes.samplePopulation (eig : (Nat → Nat → K) → (Nat → K) × (Nat → Nat → K)) (slow : Bool) (junk : Nat → K) (t : Cmaes H) : Cmaes H :=
  let N := t.sp.N
  let flgdiag := t.flgdiag
  let t :=
    if !t.flgEigensysIsUptodate then
      if !flgdiag then t.updateEigensystem eig slow junk
      else
        let t := forUp 0 N (fun i (t : Cmaes H) => { t with rgD := set1 t.rgD i (Arith.sqrt (t.C i i)) }) t
        { t with flgEigensysIsUptodate := true }
    else t
  let t := forUp 0 t.sp.lambda.toNat (fun iNk t =>
    let t := forUp 0 N (fun i (t : Cmaes H) =>
      if flgdiag then { t with rgrgx := set2 t.rgrgx iNk i (t.rgxmean i + t.sigma * t.rgD i * (H.next t.rand).1), rand := (H.next t.rand).2 }
      else { t with rgdTmp := set1 t.rgdTmp i (t.rgD i * (H.next t.rand).1), rand := (H.next t.rand).2 }) t
    if !flgdiag then t.mutate iNk else t) t
  let t := if t.state = 3 ∨ t.gen = 0 then { t with gen := t.gen + 1 } else t
  { t with state := 1 }

/-- cmaes.c:681-703 `cmaes_ReSampleSingle`: a fatal error for a bad index. -/
def Cmaes.reSampleSingle (iindex : Int) (t : Cmaes H) : Res (Cmaes H) :=
  if iindex < 0 ∨ t.sp.lambda ≤ iindex then .err
  else
    let t := forUp 0 t.sp.N (fun i (t : Cmaes H) => { t with rgdTmp := set1 t.rgdTmp i (t.rgD i * (H.next t.rand).1), rand := (H.next t.rand).2 }) t
    .ok (t.mutate iindex.toNat)

/-- The inner loop of cmaes.c:2990-3001 from `j` down, and the insertion after it. -/
def insertDown (f : Nat → Dbl) (i : Nat) : Nat → (Nat → Nat) → (Nat → Nat)
  | 0, x => set1 x 0 i
  | j + 1, x => if Dbl.lt (f (x j)) (f i) then set1 x (j + 1) i else insertDown f i j (set1 x (j + 1) (x j))

/-- cmaes.c:2990-3001 `Sorted_index`. -/
def sorted (f : Nat → Dbl) (x : Nat → Nat) (n : Nat) : Nat → Nat := forUp 1 n (fun i x => insertDown f i i x) (set1 x 0 0)

/-- cmaes.c:959-996 `Adapt_C2`. -/
def Cmaes.adaptC2 (hsig : Bool) (t : Cmaes H) : Cmaes H :=
  let N := t.sp.N
  let flgdiag := t.flgdiag
  if !Arith.eq t.sp.ccov (lit 0) then
    let fac : K := if flgdiag then (lit (N : ℚ) + lit (3 / 2)) / lit 3 else lit 1
    let ccov1 := douMin (t.sp.ccov * (lit 1 / t.sp.mucov) * fac) (lit 1)
    let ccovmu := douMin (t.sp.ccov * (lit 1 - lit 1 / t.sp.mucov) * fac) (lit 1 - ccov1)
    let sigmasquare := t.sigma * t.sigma
    let t := { t with flgEigensysIsUptodate := false }
    forUp 0 N (fun i t => forUp (if flgdiag then i else 0) (i + 1) (fun j (t : Cmaes H) =>
      let t := { t with C := set2 t.C i j ((lit 1 - ccov1 - ccovmu) * t.C i j + ccov1 * (t.rgpc i * t.rgpc j +
        lit (1 - (if hsig then 1 else 0)) * t.sp.ccumcov * (lit 2 - t.sp.ccumcov) * t.C i j)) }
      forUp 0 t.sp.mu.toNat (fun k (t : Cmaes H) => { t with C := set2 t.C i j (t.C i j + ccovmu * t.sp.weights k
        * (t.rgrgx (t.index k) i - t.rgxold i) * (t.rgrgx (t.index k) j - t.rgxold j) / sigmasquare) }) t) t) t
  else t

/-- cmaes.c:813-815: the values of the objective. -/
def Cmaes.assign (rgFunVal : Nat → Dbl) (t : Cmaes H) : Cmaes H :=
  forUp 0 t.sp.lambda.toNat (fun i (t : Cmaes H) => { t with rgFuncValue := set1 t.rgFuncValue i (rgFunVal i) }) t

/-- cmaes.c:820-827: if the best half of the values is equal. -/
def Cmaes.flat (t : Cmaes H) : Cmaes H :=
  if Dbl.eq (t.rgFuncValue (t.index 0)) (t.rgFuncValue (t.index (t.sp.lambda.toNat / 2))) then
    { t with sigma := t.sigma * Arith.exp (lit (1 / 5) + t.sp.cs / t.sp.damps) } else t

/-- cmaes.c:834-839: `xbestever`. -/
def Cmaes.best (t : Cmaes H) : Cmaes H :=
  if Dbl.lt (t.rgFuncValue (t.index 0)) t.fbestever || decide (t.gen = 1) then
    { t with rgxbestever := forUp 0 t.sp.N (fun i x => set1 x i (t.rgrgx (t.index 0) i)) t.rgxbestever
             fbestever := t.rgFuncValue (t.index 0), evalsbestever := t.countevals } else t

/-- cmaes.c:841-848: `xmean` and `rgBDz`. -/
def Cmaes.recombine (t : Cmaes H) : Cmaes H :=
  forUp 0 t.sp.N (fun i (t : Cmaes H) =>
    let t := { t with rgxold := set1 t.rgxold i (t.rgxmean i) }
    let t := { t with rgxmean := set1 t.rgxmean i (lit 0) }
    let t := forUp 0 t.sp.mu.toNat (fun iNk (t : Cmaes H) =>
      { t with rgxmean := set1 t.rgxmean i (t.rgxmean i + t.sp.weights iNk * t.rgrgx (t.index iNk) i) }) t
    { t with rgBDz := set1 t.rgBDz i (Arith.sqrt t.sp.mueff * (t.rgxmean i - t.rgxold i) / t.sigma) }) t

/-- cmaes.c:850-858: `z := D^(-1) * B^(-1) * rgBDz` into `rgdTmp`. -/
def Cmaes.whiten (flgdiag : Bool) (t : Cmaes H) : Cmaes H :=
  forUp 0 t.sp.N (fun i (t : Cmaes H) =>
    let sum := if !flgdiag then forUp 0 t.sp.N (fun j sum => sum + t.B j i * t.rgBDz j) (lit 0) else t.rgBDz i
    { t with rgdTmp := set1 t.rgdTmp i (sum / t.rgD i) }) t

/-- cmaes.c:872-881: the evolution path of sigma. -/
def Cmaes.cumulateSigma (flgdiag : Bool) (t : Cmaes H) : Cmaes H :=
  forUp 0 t.sp.N (fun i (t : Cmaes H) =>
    let sum := if !flgdiag then forUp 0 t.sp.N (fun j sum => sum + t.B i j * t.rgdTmp j) (lit 0) else t.rgdTmp i
    { t with rgps := set1 t.rgps i ((lit 1 - t.sp.cs) * t.rgps i + Arith.sqrt (t.sp.cs * (lit 2 - t.sp.cs)) * sum) }) t

/-- cmaes.c:883-885. -/
def Cmaes.psxps (t : Cmaes H) : K := forUp 0 t.sp.N (fun i s => s + t.rgps i * t.rgps i) (lit 0)

/-- cmaes.c:888-889. -/
def Cmaes.hsig (psxps : K) (t : Cmaes H) : Bool :=
  Arith.lt (Arith.sqrt psxps / Arith.sqrt (lit 1 - Arith.pow (lit 1 - t.sp.cs) (lit 2 * lit (t.gen : ℚ))) / t.chiN) (lit (14 / 10) + lit 2 / lit ((t.sp.N : ℚ) + 1))

/-- cmaes.c:890-893: the evolution path of the covariance matrix. -/
def Cmaes.cumulateC (hsig : Bool) (t : Cmaes H) : Cmaes H :=
  forUp 0 t.sp.N (fun i (t : Cmaes H) => { t with rgpc := set1 t.rgpc i ((lit 1 - t.sp.ccumcov) * t.rgpc i
    + lit (if hsig then 1 else 0) * Arith.sqrt (t.sp.ccumcov * (lit 2 - t.sp.ccumcov)) * t.rgBDz i) }) t

/-- cmaes.c:807-839: the values, the ranking and the best individual so far. -/
def Cmaes.rank (rgFunVal : Nat → Dbl) (t : Cmaes H) : Cmaes H :=
  let t := if t.state = 1 then { t with countevals := t.countevals + t.sp.lambda.toNat } else t
  let t := t.assign rgFunVal
  let t := { t with index := sorted rgFunVal t.index t.sp.lambda.toNat }
  t.flat.best

/-- cmaes.c:841-951: the new distribution. -/
def Cmaes.adapt (flgdiag : Bool) (t : Cmaes H) : Cmaes H :=
  let t := ((t.recombine).whiten flgdiag).cumulateSigma flgdiag
  let psxps := t.psxps
  let hsig := t.hsig psxps
  let t := (t.cumulateC hsig).adaptC2 hsig
  let t := { t with sigma := t.sigma * Arith.exp ((Arith.sqrt psxps / t.chiN - lit 1) * t.sp.cs / t.sp.damps) }
  { t with state := 3 }

/-- cmaes.c:793-953 `cmaes_UpdateDistribution`: a fatal error if the distribution was just updated. In other states than "sampled" there is only a message. -/
def Cmaes.updateDistribution (rgFunVal : Nat → Dbl) (t : Cmaes H) : Res (Cmaes H) :=
  if t.state = 3 then .err else .ok ((t.rank rgFunVal).adapt t.flgdiag)

end Spot.Ref
