import Verif.Model.Evolution
import Verif.Model.Cma

/-! # `make_updated_objective_info` and the state columns of MES and EVA -/

namespace Spot

/-- spot/mes_optimizer.cpp:39-44, spot/eva_optimizer.cpp:39-44 `make_updated_objective_info`: a copy of the objective info with the mean and
standard deviation of the distribution (the copy is returned, the info of the objective itself stays as it is). -/
def EsOpt.updatedInfo [Libm] {R : Rng Dbl} {n : Nat} (s : EsOpt R n) : ObjInfo × Res Unit :=
  s.opt.vis.info.setMeanStd (List.ofFn s.dist.mean) (List.ofFn s.dist.std)

/-- spot/cma_optimizer.cpp:1279-1284 `make_updated_objective_info`, 1254-1258 `current_mean`: the boundary transformer (`tr`, the identity if there is none)
is applied to the mean. -/
def CmaOpt.updatedInfo [Libm] {G : GaussSrc Dbl} {n : Nat} (c : CmaCfg n) (s : CmaOpt G n) : ObjInfo × Res Unit :=
  s.opt.vis.info.setMeanStd (List.ofFn (c.tr s.cma.mean)) (List.ofFn s.cma.std)

/-- spot/mes_optimizer.cpp:46-55 (`third` = ".mom"), spot/eva_optimizer.cpp:46-55 (`third` = ".ev") `optimizer_state_labels`. -/
def stateLabels (third : Str) : List ParInfo → List Str
  | [] => []
  | p :: ps => (p.name ++ ".mean".toList) :: (p.name ++ ".std".toList) :: (p.name ++ third) :: stateLabels third ps

/-- spot/mes_optimizer.cpp:57-64, spot/eva_optimizer.cpp:57-64 `optimizer_state_values`: the loop over the parameters from `i`. -/
def stateValues {K : Type} [Arith K] {n : Nat} (s : Es K n) : List (Fin n) → List K
  | [] => []
  | i :: is => s.mean i :: Arith.sqrt (s.var i) :: s.mom i :: stateValues s is

end Spot
