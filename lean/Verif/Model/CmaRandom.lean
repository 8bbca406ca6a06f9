import Verif.Num.Arith
import Verif.Model.ParInfo

/-!
# spot/cma_optimizer.cpp:19-30, 115-143, 188-221: the random number generator of CMA-ES

`long int` is modelled by unbounded integers; C49 proves that all values fit in 32 bits. `startseed` is never read and left out.
-/

namespace Spot

/-- spot/cma_optimizer.cpp:19-30 `cmaes_random_t`; `stored` is `hold` if `flgstored` is set. -/
structure Rand (K : Type) where
  aktseed : Int
  aktrand : Int
  rgrand : List Int
  stored : Option K

/-- One step of the seed: spot/cma_optimizer.cpp:134-137 and 192-195 (identical). -/
def nextSeed (s : Int) : Int :=
  let tmp := s.tdiv 127773
  let s := 16807 * (s - tmp * 127773) - 2836 * tmp
  if s < 0 then s + 2147483647 else s

/-- spot/cma_optimizer.cpp:129-130: `while ( inseed > 2e9 ) inseed /= 2`. -/
def reduceSeed (s : Nat) : Nat := if h : 2000000000 < s then reduceSeed (s / 2) else s
termination_by s
decreasing_by omega

/-- The loop of spot/cma_optimizer.cpp:132-140 for the remaining values `k - 1, ..., 0` of `i`. -/
def initRand : Nat → Int → List Int → Int × List Int
  | 0, s, tab => (s, tab)
  | i + 1, s, tab =>
    let s := nextSeed s
    initRand i s (if i < 32 then tab.set i s else tab)

/-- The generator with this seed and table, spot/cma_optimizer.cpp:117, 120 and 141. -/
def Rand.ofTable {K : Type} (p : Int × List Int) : Rand K := { aktseed := p.1, aktrand := p.2.headD 0, rgrand := p.2, stored := none }

/-- spot/cma_optimizer.cpp:115-143 `cmaes_random_init`; `clock` is the value computed from the clock in case of the seed 0
(lines 123-127). -/
def Rand.init {K : Type} (inseed clock : Nat) : Rand K :=
  Rand.ofTable (initRand 40 (reduceSeed (if inseed < 1 then clock else inseed) : Nat) (List.replicate 32 0))

/-- spot/cma_optimizer.cpp:188-200 `cmaes_random_Uniform` without the final division: the new `aktrand`. Reading outside of the table is
undefined. -/
def Rand.next {K : Type} (r : Rand K) : Res (Int × Rand K) :=
  let s := nextSeed r.aktseed
  let i := r.aktrand.tdiv 67108865
  if 0 ≤ i then
    match r.rgrand[i.toNat]? with
    | some v => .ok (v, { r with aktseed := s, aktrand := v, rgrand := r.rgrand.set i.toNat s })
    | none => .ub
  else .ub

section
variable {K : Type} [Arith K]

/-- spot/cma_optimizer.cpp:199: `(double)( t->aktrand ) / ( 2.147483647e9 )`. -/
def unitOf (v : Int) : K := lit (v : ℚ) / lit 2147483647

/-- spot/cma_optimizer.cpp:188-200 `cmaes_random_Uniform`. -/
def Rand.uniform (r : Rand K) : Res (K × Rand K) := r.next >>= fun vr => .ok (unitOf vr.1, vr.2)

/-- spot/cma_optimizer.cpp:213-215: one pass of the loop. -/
def Rand.pair (r : Rand K) : Res (K × K × Rand K) :=
  r.uniform >>= fun u => u.2.uniform >>= fun v => .ok (lit 2 * u.1 - lit 1, lit 2 * v.1 - lit 1, v.2)

/-- spot/cma_optimizer.cpp:216: the pair is rejected. -/
def rejected (x1 x2 : K) : Bool := Arith.le (lit 1) (x1 * x1 + x2 * x2) || Arith.le (x1 * x1 + x2 * x2) (lit 0)

/-- spot/cma_optimizer.cpp:217. -/
def gaussFactor (rquad : K) : K := Arith.sqrt (lit (-2) * Arith.log rquad / rquad)

/-- spot/cma_optimizer.cpp:202-221 `cmaes_random_Gauss`: the results of terminating calls. -/
inductive Rand.Gauss : Rand K → K → Rand K → Prop
  | stored {r : Rand K} {v : K} (h : r.stored = some v) : Gauss r v { r with stored := none }
  | accept {r r' : Rand K} {x1 x2 : K} (h : r.stored = none) (hp : r.pair = .ok (x1, x2, r')) (ha : rejected x1 x2 = false) :
      Gauss r (gaussFactor (x1 * x1 + x2 * x2) * x2) { r' with stored := some (gaussFactor (x1 * x1 + x2 * x2) * x1) }
  | reject {r r' r'' : Rand K} {x1 x2 v : K} (h : r.stored = none) (hp : r.pair = .ok (x1, x2, r')) (hr : rejected x1 x2 = true)
      (hg : Gauss { r' with stored := none } v r'') : Gauss r v r''

end

end Spot
