import Verif.Model.Evolution

/-! # Searches of MES and EVA in any arithmetic -/

namespace Spot

variable {K : Type} [Arith K] {n : Nat}

/-- Searches of MES and EVA: `internal_step` (spot/mes_optimizer.cpp:139-151, spot/eva_optimizer.cpp:133-145) again and again for the objective `f`,
with the populations evaluated. -/
inductive Es.Search (R : Rng K) (b : Bounds K n) (alg : EsAlg K) (eps : K) (lambda : Nat) (mu : Int) (info : ObjInfo) (f : (Fin n → K) → Dbl) (s : Es K n) (e : R.Eng) :
    List (List (Fin n → K)) → Es K n → R.Eng → Prop
  | nil : Es.Search R b alg eps lambda mu info f s e [] s e
  | snoc {ps t d pop d' order t'} (h : Es.Search R b alg eps lambda mu info f s e ps t d) (hp : samplePopulation R b alg.ofs.1 alg.ofs.2 lambda t d = (pop, d'))
      (ho : SortedOrder info (pop.map fun x => f (vecOf n x)) order) (hu : updateDistribution alg eps mu t order (pop.map (vecOf n)) = .ok t') :
      Es.Search R b alg eps lambda mu info f s e (ps ++ [pop.map (vecOf n)]) t' d'

end Spot
