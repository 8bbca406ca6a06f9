import Verif.Model.ObjInfo

/-!
# What a user can see of an objective_info
-/

namespace Spot

/-- What is known about one name: nothing, a free parameter, or a locked value. -/
inductive View
  | absent
  | free (p : ParInfo)
  | locked (v : Dbl)
deriving DecidableEq

/-- No name occurs twice among the free parameters, none is both free and locked, each locked name has one value. -/
structure NamesUnique (i : ObjInfo) : Prop where
  free : (i.pars.map ParInfo.name).Nodup
  locked : (i.locked.map Prod.fst).Nodup
  disjoint : ∀ p ∈ i.pars, p.name ∉ i.locked.map Prod.fst

/-- The name belongs to a free or locked parameter. -/
def Known (i : ObjInfo) (n : Str) : Prop := (∃ p ∈ i.pars, p.name = n) ∨ ∃ v, (n, v) ∈ i.locked

/-- The view of a name: the free parameter of that name if there is one, else its locked value. -/
def ViewOf (i : ObjInfo) (n : Str) : View → Prop
  | .free p => p ∈ i.pars ∧ p.name = n
  | .locked v => (n, v) ∈ i.locked ∧ ∀ p ∈ i.pars, p.name ≠ n
  | .absent => ¬ Known i n

end Spot
