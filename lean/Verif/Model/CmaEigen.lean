import Verif.Model.Cma

/-!
# spot/cma_optimizer.cpp:429-729: the eigenvalue decomposition of CMA-ES

Written for any arithmetic `K`. Arrays are functions of the index, matrices of two indices (`V i j` is `V[i][j]`). The dimension is
`n`; `d` and the rows of `V` have `n` elements, `e` has `n + 1` (spot/cma_optimizer.cpp:372-398). All indices are loop variables that lie
within these sizes, except `m` of `QLalgo2`, which can be `n` (`Res.ub`). The `do ... while` loop may not end: the functions are given the
number of rounds they may take, and the result is `none` if that is not enough.
-/

namespace Spot

/-- The loop `for ( i = a; i < b; ++i )`. -/
def forUp {S : Type} (a b : Nat) (f : Nat → S → S) (s : S) : S := (List.range' a (b - a)).foldl (fun s i => f i s) s

/-- The loop `for ( i = b - 1; i >= a; --i )`. -/
def forDown {S : Type} (a b : Nat) (f : Nat → S → S) (s : S) : S := (List.range' a (b - a)).foldr f s

/-- `v[i] = x`. -/
def set1 {K : Type} (v : Nat → K) (i : Nat) (x : K) : Nat → K := fun j => if j = i then x else v j

/-- `V[i][j] = x`. -/
def set2 {K : Type} (V : Nat → Nat → K) (i j : Nat) (x : K) : Nat → Nat → K := fun a b => if a = i ∧ b = j then x else V a b

section
variable {K : Type} [Arith K]

/-- spot/cma_optimizer.cpp:429-442. -/
def myhypot (a b : K) : K :=
  if Arith.lt (Arith.abs b) (Arith.abs a) then Arith.abs a * Arith.sqrt (lit 1 + (b / a) * (b / a))
  else if !Arith.eq b (lit 0) then Arith.abs b * Arith.sqrt (lit 1 + (a / b) * (a / b))
  else lit 0

/-! ## Householder2 -/

/-- The arrays of `Householder2`. -/
structure HH (K : Type) where
  V : Nat → Nat → K
  d : Nat → K
  e : Nat → K

/-- spot/cma_optimizer.cpp:610-617: nothing to reduce in row `i`. -/
def HH.skip (i : Nat) (s : HH K) : HH K :=
  forUp 0 i (fun j s => { s with d := set1 s.d j (s.V (i - 1) j), V := set2 (set2 s.V i j (lit 0)) j i (lit 0) })
    { s with e := set1 s.e i (s.d (i - 1)) }

/-- spot/cma_optimizer.cpp:623-626. -/
def hhScale (i : Nat) (scale : K) (d : Nat → K) : (Nat → K) × K :=
  forUp 0 i (fun k x => (set1 x.1 k (x.1 k / scale), x.2 + (x.1 k / scale) * (x.1 k / scale))) (d, lit 0)

/-- spot/cma_optimizer.cpp:640-649: the product of the symmetric matrix with the vector `d`, added to `e`. -/
def hhProduct (i : Nat) (d : Nat → K) (V : Nat → Nat → K) (e : Nat → K) : (Nat → Nat → K) × (Nat → K) :=
  forUp 0 i (fun j x =>
    let V := set2 x.1 j i (d j)
    let y := forUp (j + 1) i (fun k y => (y.1 + V k j * d k, set1 y.2 k (y.2 k + V k j * d j))) (x.2 j + V j j * d j, x.2)
    (V, set1 y.2 j y.1)) (V, e)

/-- spot/cma_optimizer.cpp:650-654. -/
def hhDivide (i : Nat) (h : K) (d e : Nat → K) : (Nat → K) × K :=
  forUp 0 i (fun j x => (set1 x.1 j (x.1 j / h), x.2 + (x.1 j / h) * d j)) (e, lit 0)

/-- spot/cma_optimizer.cpp:656-658. -/
def hhReduce (i : Nat) (hh : K) (d e : Nat → K) : Nat → K :=
  forUp 0 i (fun j e => set1 e j (e j - hh * d j)) e

/-- spot/cma_optimizer.cpp:659-667. -/
def hhUpdate (i : Nat) (e : Nat → K) (V : Nat → Nat → K) (d : Nat → K) : (Nat → Nat → K) × (Nat → K) :=
  forUp 0 i (fun j x =>
    let f := x.2 j
    let g := e j
    let V := forUp j i (fun k V => set2 V k j (V k j - (f * e k + g * x.2 k))) x.1
    (set2 V i j (lit 0), set1 x.2 j (V (i - 1) j))) (V, d)

/-- spot/cma_optimizer.cpp:602-670: one round of the reduction. -/
def HH.step (i : Nat) (s : HH K) : HH K :=
  let scale := sumLoop i fun k => Arith.abs (s.d k)
  if Arith.eq scale (lit 0) then
    let t := s.skip i
    { t with d := set1 t.d i (lit 0) }
  else
    let x := hhScale i scale s.d
    let f := x.1 (i - 1)
    let g := if Arith.lt (lit 0) f then -Arith.sqrt x.2 else Arith.sqrt x.2
    let e := set1 s.e i (scale * g)
    let h := x.2 - f * g
    let d := set1 x.1 (i - 1) (f - g)
    let e := forUp 0 i (fun j e => set1 e j (lit 0)) e
    let y := hhProduct i d s.V e
    let z := hhDivide i h d y.2
    let e := hhReduce i (z.2 / (h + h)) d z.1
    let u := hhUpdate i e y.1 d
    { V := u.1, d := set1 u.2 i h, e := e }

/-- spot/cma_optimizer.cpp:673-695: one round of the accumulation. -/
def HH.accum (n i : Nat) (s : HH K) : HH K :=
  let V := set2 (set2 s.V (n - 1) i (s.V i i)) i i (lit 1)
  let h := s.d (i + 1)
  let x : (Nat → Nat → K) × (Nat → K) :=
    if !Arith.eq h (lit 0) then
      let d := forUp 0 (i + 1) (fun k d => set1 d k (V k (i + 1) / h)) s.d
      (forUp 0 (i + 1) (fun j V =>
        let g := sumLoop (i + 1) fun k => V k (i + 1) * V k j
        forUp 0 (i + 1) (fun k V => set2 V k j (V k j - g * d k)) V) V, d)
    else (V, s.d)
  { s with V := forUp 0 (i + 1) (fun k V => set2 V k (i + 1) (lit 0)) x.1, d := x.2 }

/-- spot/cma_optimizer.cpp:580-703 `Householder2`. -/
def householder2 (n : Nat) (s : HH K) : HH K :=
  let s := { s with d := forUp 0 n (fun j d => set1 d j (s.V (n - 1) j)) s.d }
  let s := forDown 1 n HH.step s
  let s := forUp 0 (n - 1) (HH.accum n) s
  let s := forUp 0 n (fun j s => { s with d := set1 s.d j (s.V (n - 1) j), V := set2 s.V (n - 1) j (lit 0) }) s
  { s with V := set2 s.V (n - 1) (n - 1) (lit 1), e := set1 s.e 0 (lit 0) }

/-! ## QLalgo2 -/

/-- The arrays and variables of `QLalgo2`. -/
structure QL (K : Type) where
  d : Nat → K
  e : Nat → K
  V : Nat → Nat → K
  f : K
  tst1 : K

/-- The variables of the inner loop. -/
structure Sweep (K : Type) where
  d : Nat → K
  e : Nat → K
  V : Nat → Nat → K
  p : K
  c : K
  c2 : K
  c3 : K
  s : K
  s2 : K

/-- spot/cma_optimizer.cpp:532-537. -/
def rotate (n i : Nat) (c s : K) (V : Nat → Nat → K) : Nat → Nat → K :=
  forUp 0 n (fun k V =>
    let h := V k (i + 1)
    let V := set2 V k (i + 1) (s * V k i + c * h)
    set2 V k i (c * V k i - s * h)) V

/-- spot/cma_optimizer.cpp:519-538: one round of the inner loop. -/
def Sweep.step (n i : Nat) (w : Sweep K) : Sweep K :=
  let g := w.c * w.e i
  let h := w.c * w.p
  let r := myhypot w.p (w.e i)
  let s := w.e i / r
  let c := w.p / r
  { e := set1 w.e (i + 1) (w.s * r), s := s, c := c, p := c * w.d i - s * g
    d := set1 w.d (i + 1) (h + s * (c * g + s * w.d i)), V := rotate n i c s w.V, c3 := w.c2, c2 := w.c, s2 := w.s }

/-- spot/cma_optimizer.cpp:489-542: one round of the `do ... while` loop. -/
def QL.iter (n l m : Nat) (q : QL K) : QL K :=
  let g := q.d l
  let p := (q.d (l + 1) - g) / (lit 2 * q.e l)
  let r := if Arith.lt p (lit 0) then -myhypot p (lit 1) else myhypot p (lit 1)
  let d := set1 (set1 q.d l (q.e l / (p + r))) (l + 1) (q.e l * (p + r))
  let dl1 := d (l + 1)
  let h := g - d l
  let d := forUp (l + 2) n (fun i d => set1 d i (d i - h)) d
  let el1 := q.e (l + 1)
  let w := forDown l m (Sweep.step n) { d := d, e := q.e, V := q.V, p := d m, c := lit 1, c2 := lit 1, c3 := lit 1, s := lit 0, s2 := lit 0 }
  let p := -w.s * w.s2 * w.c3 * el1 * w.e l / dl1
  { d := set1 w.d l (w.c * p), e := set1 w.e l (w.s * p), V := w.V, f := q.f + h, tst1 := q.tst1 }

/-- spot/cma_optimizer.cpp:464. -/
def qlEps : K := lit (222 / 10 ^ 18)

/-- spot/cma_optimizer.cpp:489-545: the `do ... while` loop, if it takes at most `fuel` rounds. -/
def QL.loop (n l m : Nat) : Nat → QL K → Option (QL K)
  | 0, _ => none
  | fuel + 1, q =>
    let t := q.iter n l m
    if Arith.lt (qlEps * t.tst1) (Arith.abs (t.e l)) then QL.loop n l m fuel t else some t

/-- spot/cma_optimizer.cpp:477-483. -/
def QL.small (n l : Nat) (q : QL K) : Nat :=
  ((List.range' l (n - l)).find? fun m => Arith.le (Arith.abs (q.e m)) (qlEps * q.tst1)).getD n

/-- spot/cma_optimizer.cpp:472-549: one round of the loop over `l`. -/
def QL.column (n fuel l : Nat) (q : QL K) : Option (Res (QL K)) :=
  let t := Arith.abs (q.d l) + Arith.abs (q.e l)
  let q := { q with tst1 := if Arith.lt q.tst1 t then t else q.tst1 }
  let m := q.small n l
  let finish := fun q : QL K => { q with d := set1 q.d l (q.d l + q.f), e := set1 q.e l (lit 0) }
  if l < m then
    if m = n then some .ub
    else (QL.loop n l m fuel q).map fun q => .ok (finish q)
  else some (.ok (finish q))

/-- The rounds `l`, `l + 1`, ... (`k` of them). -/
def QL.columns (n fuel : Nat) : Nat → Nat → QL K → Option (Res (QL K))
  | 0, _, q => some (.ok q)
  | k + 1, l, q =>
    match q.column n fuel l with
    | some (.ok q) => QL.columns n fuel k (l + 1) q
    | r => r

/-- spot/cma_optimizer.cpp:558-565: index and value of the first minimum of `d[i]`, ..., `d[n - 1]`. -/
def qlMin (n i : Nat) (d : Nat → K) : Nat × K :=
  forUp (i + 1) n (fun j x => if Arith.lt (d j) x.2 then (j, d j) else x) (i, d i)

/-- spot/cma_optimizer.cpp:557-575: one round of the selection sort. -/
def qlSortStep (n i : Nat) (x : (Nat → K) × (Nat → Nat → K)) : (Nat → K) × (Nat → Nat → K) :=
  let k := (qlMin n i x.1).1
  if k = i then x
  else (set1 (set1 x.1 k (x.1 i)) i (qlMin n i x.1).2,
        forUp 0 n (fun j V => let p := V j i; set2 (set2 V j i (V j k)) j k p) x.2)

/-- spot/cma_optimizer.cpp:445-578 `QLalgo2`. -/
def qlAlgo2 (n fuel : Nat) (s : HH K) : Option (Res ((Nat → K) × (Nat → Nat → K))) :=
  let e := set1 (forUp 1 n (fun i e => set1 e (i - 1) (e i)) s.e) (n - 1) (lit 0)
  match QL.columns n fuel n 0 { d := s.d, e := e, V := s.V, f := lit 0, tst1 := lit 0 } with
  | some (.ok q) => some (.ok (forUp 0 (n - 1) (qlSortStep n) (q.d, q.V)))
  | some .err => some .err
  | some .ub => some .ub
  | none => none

/-- spot/cma_optimizer.cpp:705-729 `Eigen`: eigenvalues and eigenvectors (columns). The lower triangle of `C` is copied to `V`, unless
`C == Q`, which as the rows of `C` have different sizes is only possible for `n = 1`, and then makes no difference. The contents of the
other arrays before the call do not matter; they are 0 here. -/
def eigen (n fuel : Nat) (C : Nat → Nat → K) : Option (Res ((Nat → K) × (Nat → Nat → K))) :=
  qlAlgo2 n fuel (householder2 n { V := fun i j => if j ≤ i then C i j else C j i, d := fun _ => lit 0, e := fun _ => lit 0 })

/-- The covariance matrix as an array of rows: only the elements `C[i][j]` with `j <= i` exist (spot/cma_optimizer.cpp:388-391), and only
these are read by `Eigen`. -/
def asRows {n : Nat} (C : Fin n → Fin n → K) (i j : Nat) : K := if h : i < n ∧ j < n then C ⟨i, h.1⟩ ⟨j, h.2⟩ else lit 0

/-- spot/cma_optimizer.cpp:782, the call of `Eigen` in `cmaes_UpdateEigensystem`. -/
def eigenFin (n fuel : Nat) (C : Fin n → Fin n → K) : Option (Res ((Fin n → K) × (Fin n → Fin n → K))) :=
  match eigen n fuel (asRows C) with
  | some (.ok r) => some (.ok (fun i => r.1 i, fun i j => r.2 i j))
  | some .err => some .err
  | some .ub => some .ub
  | none => none

/-- spot/cma_optimizer.cpp:771-780 and 822-824: whether `Eigen` is called before sampling. -/
def Cma.callsEigen {n : Nat} {G : GaussSrc K} (p : CmaPar K) (s : Cma G n) : Bool :=
  !s.eigenUptodate && !s.flgdiag p && !Arith.lt (lit (s.gen : ℚ)) (lit (s.genOfEigen : ℚ) + p.modulo)

/-- spot/cma_optimizer.cpp:1202-1236 `cma_optimizer::sample_population` with the `Eigen` of the program, given the number of rounds that each
`do ... while` loop may take. -/
def Cma.sampleRun {n : Nat} {G : GaussSrc K} (fuel : Nat) (tr : (Fin n → K) → Fin n → K) (b : Bounds K n) (p : CmaPar K) (s : Cma G n) :
    Option (Res (Cma G n × List (Fin n → K))) :=
  if s.callsEigen p then
    match eigenFin n fuel s.C with
    | some (.ok r) => some (.ok (s.sample tr b (fun _ => r) p))
    | some .err => some .err
    | some .ub => some .ub
    | none => none
  else some (.ok (s.sample tr b (fun _ => (fun _ => lit 0, fun _ _ => lit 0)) p))

end

end Spot
