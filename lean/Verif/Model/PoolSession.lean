import Verif.Model.Pool
import Verif.Spec.Optimizer

/-!
# Sessions with a pool

The calls of `optimizer_pool` (spot/optimizer_pool.h), with what its members evaluated, and `run` (spot/optimizer.cpp:67-80), which a pool does not override.
-/

namespace Spot

/-- An optimizer that has been constructed and configured, but not stepped. -/
def Opt.Ready (E : OptEnv) (info : ObjInfo) (m : Opt) : Prop :=
  ∃ h : List Op, m = (Opt.new info 0).after E h ∧ ∀ o ∈ h, ∀ i, o ≠ .step i

/-- Calls of the interface of a pool, with the populations that its members evaluated; `Q` holds for all of them. -/
inductive Pool.Played (E : OptEnv) (P : Opt → Prop) (Q : In → Prop) : Pool → List In → Pool → Prop
  | nil {p} : Pool.Played E P Q p [] p
  | step {p q q' : Pool} {l sel run ins r} (h : Pool.Played E P Q p l q) (st : Pool.Step E ins q sel run q' r) (hq : ∀ i ∈ run, Q (ins i)) :
      Pool.Played E P Q p (l ++ run.map ins) q'
  | push {p q : Pool} {l m} (h : Pool.Played E P Q p l q) (hm : P m) : Pool.Played E P Q p l (q.push m)
  | addCond {p q : Pool} {l c} (h : Pool.Played E P Q p l q) : Pool.Played E P Q p l (q.addCond c)
  | interrupt {p q : Pool} {l} (h : Pool.Played E P Q p l q) : Pool.Played E P Q p l q.interrupt
  | test {p q : Pool} {l} (h : Pool.Played E P Q p l q) : Pool.Played E P Q p l (q.testStop E).1

/-- The loop of spot/optimizer.cpp:75-77 for a pool, with the populations of every step and what is returned. -/
inductive Pool.Loop (E : OptEnv) (Q : In → Prop) : Nat → Pool → List (List In) → Pool → Option Nat → Prop
  | done {p} : Pool.Loop E Q 0 p [] p none
  | next {n : Nat} {p q u : Pool} {sel run ins ls r} (st : Pool.Step E ins p sel run q none) (hq : ∀ i ∈ run, Q (ins i)) (h : Pool.Loop E Q n q ls u r) :
      Pool.Loop E Q (n + 1) p (run.map ins :: ls) u r
  | stop {n : Nat} {p q : Pool} {sel run ins k} (st : Pool.Step E ins p sel run q (some k)) (hq : ∀ i ∈ run, Q (ins i)) : Pool.Loop E Q (n + 1) p [run.map ins] q (some k)

/-- spot/optimizer.cpp:67-80 `run( n )` of a pool, when nothing throws. -/
def Pool.Run (E : OptEnv) (Q : In → Prop) (n : Nat) (p : Pool) (ls : List (List In)) (q : Pool) (r : Option Nat) : Prop :=
  p.own.info.dim ≠ 0 ∧ Pool.Loop E Q (if n = 0 then 2 ^ 64 - 1 else n) p ls q r

end Spot
