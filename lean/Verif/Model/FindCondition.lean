import Verif.Model.Optimizer

/-!
# spot/optimizer.h:135-147: `find_stop_condition`
-/

namespace Spot

/-- The classes of spot/stop_condition.h. `custom` stands for one class defined elsewhere (not derived from one of the others). -/
inductive Kind
  | abort | error | flat | target | maxSteps | minProgress | predicted | custom
deriving DecidableEq

/-- The class of a condition. -/
def Cond.kind : Cond → Kind
  | .abort => .abort
  | .error _ => .error
  | .flat _ => .flat
  | .target _ => .target
  | .maxSteps _ => .maxSteps
  | .minProgress _ _ => .minProgress
  | .predicted _ _ _ => .predicted
  | .custom _ _ _ => .custom

/-- spot/optimizer.h:135-147 `find_stop_condition< T >`: position of the first condition of class `T`; an exception if there is none. -/
def findCond (k : Kind) : List Cond → Res Nat
  | [] => .err
  | c :: cs => if c.kind = k then .ok 0 else findCond k cs >>= fun i => .ok (i + 1)

/-- Assign to members of the condition that `find_stop_condition< T >` returns a reference to. -/
def Opt.change (k : Kind) (f : Cond → Cond) (s : Opt) : Opt × Res Unit :=
  match findCond k s.conds with
  | .ok i => ({ s with conds := s.conds.modify i f }, .ok ())
  | .err => (s, .err)
  | .ub => (s, .ub)

end Spot
