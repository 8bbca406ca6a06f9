import Verif.Model.ObjInfo
import Mathlib.Data.Real.Basic

/-! # What it means to select the best individuals -/

namespace Spot.Spec

/-- `idx` are the indices of `mu` different individuals, and no other individual has a better fitness than one of them. -/
structure IsSelection (minimize : Bool) (fs : List Dbl) (mu : Nat) (idx : List Nat) : Prop where
  count : idx.length = mu
  distinct : idx.Nodup
  exist : ∀ i ∈ idx, i < fs.length
  best : ∀ i ∈ idx, ∀ j, j ∉ idx → ∀ x y, fs[i]? = some x → fs[j]? = some y →
    if minimize then Dbl.lt y x = false else Dbl.lt x y = false

/-- The arithmetic mean of `f x` over a list. -/
noncomputable def average {α : Type} (f : α → ℝ) (l : List α) : ℝ := (l.map f).sum / l.length

end Spot.Spec
