import Verif.Model.Pool

/-!
# spot/optimizer_pool.cpp:53-57 and 98-105

`make_updated_objective_info` of a pool; members that are pools themselves.
-/

namespace Spot

/-- spot/optimizer_pool.cpp:53-57 `make_updated_objective_info`, with its assertion; `upd k` is the result of `make_updated_objective_info` of member `k`. -/
def Pool.updatedInfo (p : Pool) (upd : Nat → ObjInfo) : Res ObjInfo :=
  match p.bestIdx with
  | none => .ub
  | some k => if k < p.members.length then .ok (upd k) else .ub

/-- A member of a pool: an optimizer, or a pool of optimizers. -/
inductive Member
  | single (m : Opt)
  | pool (p : Pool)

/-- `best_fitness()`, which a pool overrides (spot/optimizer_pool.h:21). -/
def Member.bestFitness : Member → Res Dbl
  | .single m => .ok m.vis.bestFitness
  | .pool p => p.bestFitness

/-- spot/optimizer_pool.cpp:98-105: whenever the queue was empty, a text is composed (and dropped) for which every member is asked for its best fitness. Only the values that are asked
for. -/
def composeText : List Member → Res (List Dbl)
  | [] => .ok []
  | m :: ms => m.bestFitness >>= fun f => composeText ms >>= fun fs => .ok (f :: fs)

end Spot
