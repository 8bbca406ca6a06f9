import Verif.Spec.ParNotation
import Verif.Spec.Registry
import Verif.Model.ParFile

/-!
# Specification of parameter files

A parameter file is a sequence of records `name value mean std` separated by white space. Independent of the readers.
-/

namespace Spot
open Notation

/-- A name that can stand in a file: not empty, no white space. -/
def FileName (n : Str) : Prop := n ≠ [] ∧ ∀ c ∈ n, isWs c = false

/-- Some white space. -/
def Gap (w : Str) : Prop := Blank w ∧ w ≠ []

/-- One record at the beginning of `s`, followed by `r`. -/
inductive RecText (R : Reader) : Str → Rec → Str → Prop
  | mk {w n g t v t1 m t2 d r} : Blank w → FileName n → Gap g → Number R (g ++ t) v t1 → Number R t1 m t2 → Number R t2 d r →
      RecText R (w ++ n ++ g ++ t) ⟨n, v, m, d⟩ r

/-- `s` consists of the records `rs`, followed by `r`. -/
inductive FileText (R : Reader) : Str → List Rec → Str → Prop
  | nil {s} : FileText R s [] s
  | cons {s x t rs r} : RecText R s x t → FileText R t rs r → FileText R s (x :: rs) r

/-- A name that is not followed by three numbers. -/
inductive BadRec (R : Reader) : Str → Prop
  | value {w n g t} : Blank w → FileName n → (Gap g ∨ (g = [] ∧ t = [])) → NoNumber R (g ++ t) → BadRec R (w ++ n ++ g ++ t)
  | mean {w n g t v t1} : Blank w → FileName n → Gap g → Number R (g ++ t) v t1 → NoNumber R t1 → BadRec R (w ++ n ++ g ++ t)
  | std {w n g t v t1 m t2} : Blank w → FileName n → Gap g → Number R (g ++ t) v t1 → Number R t1 m t2 → NoNumber R t2 →
      BadRec R (w ++ n ++ g ++ t)

/-- The name passes the include and exclude patterns (an empty pattern list filters nothing). -/
def Passes (incl excl : Matcher) (n : Str) : Prop := (∀ f, incl = some f → f n = true) ∧ (∀ f, excl = some f → f n = false)

instance (incl excl : Matcher) (n : Str) : Decidable (Passes incl excl n) :=
  decidable_of_iff (((incl.map (· n)).getD true && !(excl.map (· n)).getD false) = true)
    (by unfold Passes; cases incl <;> cases excl <;> simp)

/-- What an imported record does to a parameter of its name: std 0 locks it to the value; otherwise the mean becomes
`value_offset + value_factor * (value or mean)`, and the std becomes `std_offset + std_factor * std` if stds are imported,
`std_offset + std_factor * |new mean|` if not and the factor is not 1, and stays otherwise. -/
def importView (st : ImportSettings) (w : View) (r : Rec) : View :=
  match w with
  | .absent => .absent
  | .locked v => if r.std = .fin 0 then .locked r.value else .locked v
  | .free p =>
    if r.std = .fin 0 then .locked r.value
    else
      let mean := Dbl.add st.valueOffset (Dbl.mul st.valueFactor (if st.useBestAsMean then r.value else r.mean))
      let std := if st.importStd then Dbl.add st.stdOffset (Dbl.mul st.stdFactor r.std)
        else if st.stdFactor = .fin 1 then p.std else Dbl.add st.stdOffset (Dbl.mul st.stdFactor mean.abs)
      .free ⟨p.name, mean, std, p.min, p.max⟩

/-- What `import_locked` does to a parameter named in a record. -/
def lockView (w : View) (r : Rec) : View :=
  match w with
  | .absent => .absent
  | _ => .locked r.value

/-- All records of a file, as seen by one name. -/
def importViews (st : ImportSettings) (n : Str) (w : View) (rs : List Rec) : View :=
  (rs.filter (fun r => decide (Passes st.incl st.excl r.name ∧ r.name = n))).foldl (importView st) w

/-- Does an imported record find a parameter to change? Locked parameters are only changed by records with std 0. -/
def importFinds (w : View) (r : Rec) : Bool :=
  match w with
  | .absent => false
  | .locked _ => decide (r.std = .fin 0)
  | .free _ => true

/-- (set, not found): each accepted record is counted once, judged by the view of its name after the records before it. -/
def importCounts (st : ImportSettings) (view : Str → View) : List Rec → Nat × Nat
  | [] => (0, 0)
  | r :: rs =>
    let (a, b) := importCounts st (fun n => if Passes st.incl st.excl r.name ∧ r.name = n then importView st (view n) r else view n) rs
    if Passes st.incl st.excl r.name then (if importFinds (view r.name) r then (a + 1, b) else (a, b + 1)) else (a, b)

end Spot
