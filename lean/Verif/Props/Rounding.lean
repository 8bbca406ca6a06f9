import Verif.Props.Evolution
import Verif.Model.MathTools

/-! # Rounding errors in population statistics (C64) -/

namespace Spot

/-- **C64 (finding).** In floating-point arithmetic the variance of six identical points need not be 0. -/
theorem C64_rounding : letI := noLibm;
    let x : Dbl := .fin (bin64 (1 / 10))
    let pop : List (Fin 1 → Dbl) := List.replicate 6 fun _ => x
    popMean pop 0 ≠ x ∧
    Dbl.lt (.fin 0) (pop.foldl (fun s x => s + squared (x 0 - popMean pop 0) / lit (pop.length : ℚ)) (lit 0)) = true := by
  decide +kernel
end Spot
