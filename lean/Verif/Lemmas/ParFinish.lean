import Verif.Lemmas.ParInfo
import Mathlib.Data.List.Permutation

namespace Spot
open Notation

theorem lt_eq_le_not_le (lo hi : Dbl) : Dbl.lt lo hi = (Dbl.le lo hi && !Dbl.le hi lo) := by
  cases lo <;> cases hi <;> simp [Dbl.lt, Dbl.le]
  rename_i a b
  by_cases h : b ≤ a
  · simp [h, not_lt.2 h]
  · simp only [h, not_false_eq_true, decide_true, Bool.and_true]; rw [not_le] at h; simp [h, h.le]

theorem eq_self_eq (m : Dbl) : Dbl.eq m m = !m.isNaN := by cases m <;> simp [Dbl.eq, Dbl.isNaN]

theorem le_imp_not_lt {a b : Dbl} (h : Dbl.le a b = true) : Dbl.lt b a = false := by
  cases a <;> cases b <;> simp_all [Dbl.lt, Dbl.le]

theorem isValid_mk (name : Str) (m s lo hi : Dbl) : (ParInfo.mk name m s lo hi).isValid =
    (!m.isNaN && Dbl.le (.fin 0) s && Dbl.le lo hi && Dbl.le lo m && Dbl.le m hi) := by
  simp [ParInfo.isValid, eq_self_eq]

/-- The checks before and after the derivation together are exactly `proper`. -/
theorem checks_proper (name : Str) (m s lo hi : Dbl) :
    (if Dbl.le hi lo then Res.err else ParInfo.make name m s lo hi) =
      if proper (m, s, lo, hi) then .ok ⟨name, m, s, lo, hi⟩ else .err := by
  unfold ParInfo.make
  simp only [isValid_mk, proper, lt_eq_le_not_le]
  cases Dbl.le hi lo <;> simp

theorem checks_proper' (name : Str) (m s lo hi : Dbl) :
    (if (Dbl.lt m lo || Dbl.lt hi m) = true then Res.err else
      if Dbl.le hi lo then Res.err else ParInfo.make name m s lo hi) =
      if proper (m, s, lo, hi) then .ok ⟨name, m, s, lo, hi⟩ else .err := by
  rw [checks_proper]
  by_cases hp : proper (m, s, lo, hi) = true
  · have h : Dbl.le lo m = true ∧ Dbl.le m hi = true := by
      simp [proper] at hp; exact ⟨hp.1.2, hp.2⟩
    simp [hp, le_imp_not_lt h.1, le_imp_not_lt h.2]
  · simp [hp]

theorem errIf_bind {α : Type} (b : Bool) (f : Unit → Res α) : (Res.errIf b >>= f) = if b then .err else f () := by
  cases b <;> rfl

/-- The bounds given by an optional range. -/
def rgBounds (o : ParOptions) (rg : Option (Bracket × Dbl × Dbl)) : Dbl × Dbl :=
  (rg.map Prod.snd).getD (o.lower, o.upper)

/-- The parser's variables after reading each component at most once. -/
def partsState (o : ParOptions) (m sd : Option Dbl) (rg : Option (Bracket × Dbl × Dbl)) : PState :=
  ⟨m.getD .nan, sd.getD (.fin 0), (rgBounds o rg).1, (rgBounds o rg).2, sd.isSome⟩

/-- The components as a list. -/
def parts (m sd : Option Dbl) (rg : Option (Bracket × Dbl × Dbl)) : List Item :=
  (m.map Item.mean).toList ++ (sd.map Item.std).toList ++ (rg.map fun x => Item.range x.1 x.2.1 x.2.2).toList

theorem applyItems_parts (o : ParOptions) (m sd : Option Dbl) (rg : Option (Bracket × Dbl × Dbl)) (is : List Item)
    (h : is.Perm (parts m sd rg)) : applyItems (PState.init o) is = .ok (partsState o m sd rg) := by
  have h' := List.mem_permutations'.2 h
  cases m <;> cases sd <;> cases rg <;>
    simp [parts, List.permutations', List.permutations'Aux] at h' <;>
    (try rcases h' with h' | h' | h' | h' | h' | h') <;> (try rcases h' with h' | h') <;> (try subst h') <;>
    simp [applyItems, applyItem, PState.init, partsState, rgBounds, Dbl.isNaN, Dbl.eq]

/-- The meaning of the options' view of the notation. -/
theorem finish_parts (name : Str) (o : ParOptions) (m sd : Option Dbl) (rg : Option (Bracket × Dbl × Dbl))
    (hm : m ≠ some .nan) :
    finish name o (partsState o m sd rg) =
      match meaning o.autoStdFactor o.autoStdOffset o.autoStdMinimum o.lower o.upper m sd (rg.map Prod.snd) with
      | some q => if proper q then .ok ⟨name, q.1, q.2.1, q.2.2.1, q.2.2.2⟩ else .err
      | none => .err := by
  have hlo : (((rg.map Prod.snd).map Prod.fst).getD o.lower) = (rgBounds o rg).1 := by cases rg <;> rfl
  have hhi : (((rg.map Prod.snd).map Prod.snd).getD o.upper) = (rgBounds o rg).2 := by cases rg <;> rfl
  simp only [meaning, hlo, hhi, finish, partsState, errIf_bind]
  obtain ⟨lo, hlo'⟩ : ∃ lo, (rgBounds o rg).1 = lo := ⟨_, rfl⟩
  obtain ⟨hi, hhi'⟩ : ∃ hi, (rgBounds o rg).2 = hi := ⟨_, rfl⟩
  simp only [hlo', hhi']
  cases m with
  | some v =>
    have hv : v.isNaN = false := by
      rw [Dbl.isNaN_false_iff]; rintro rfl; exact hm rfl
    have hv' : ∀ b : Bool, (b && v.isNaN) = false := by simp [hv]
    simp only [Option.getD_some, hv, Bool.false_and, Bool.false_eq_true, if_false, Bool.and_false]
    rw [← checks_proper']
    congr 2
    cases (!Dbl.eq lo o.lower && !Dbl.eq hi o.upper) <;> cases Dbl.eq (sd.getD (.fin 0)) (.fin 0) <;> rfl
  | none =>
    cases sd with
    | some v =>
      have has : (Dbl.eq v (.fin 0) && Dbl.eq lo o.lower && Dbl.eq hi o.upper) =
        (Dbl.eq v (.fin 0) && (Dbl.eq lo o.lower && Dbl.eq hi o.upper)) := Bool.and_assoc ..
      simp only [Option.getD_none, Option.getD_some, Option.isSome_some, Dbl.isNaN, Dbl.nan_lt, Dbl.lt_nan, Bool.or_false,
        Bool.false_eq_true, if_false, Bool.true_and, has, Bool.and_self, if_true]
      cases h3 : (Dbl.eq v (.fin 0) && (Dbl.eq lo o.lower && Dbl.eq hi o.upper))
      · simp only [Bool.false_eq_true, if_false]
        rw [← checks_proper]
        congr 1
        cases hc : (!Dbl.eq lo o.lower && !Dbl.eq hi o.upper)
        · simp only [Bool.false_and, Bool.false_eq_true, if_false]
        · simp only [if_true, Bool.true_and]
          by_cases hv : v = .nan
          · subst hv
            have hA : Dbl.max (Dbl.add (Dbl.mul o.autoStdFactor (Dbl.abs .nan)) o.autoStdOffset) o.autoStdMinimum = .nan := by
              have : Dbl.mul o.autoStdFactor .nan = .nan := by cases o.autoStdFactor <;> rfl
              simp only [Dbl.abs, this]
              have : Dbl.add .nan o.autoStdOffset = .nan := by cases o.autoStdOffset <;> rfl
              rw [this]; rfl
            rw [hA]
            simp [ParInfo.make, isValid_mk, Dbl.isNaN]
          · cases v with
            | nan => exact absurd rfl hv
            | ninf => simp only [Bool.false_eq_true, if_false]; split <;> rfl
            | fin q => simp only [Bool.false_eq_true, if_false]; split <;> rfl
            | pinf => simp only [Bool.false_eq_true, if_false]; split <;> rfl
      · simp
    | none =>
      simp only [Option.getD_none, Option.isSome_none, Dbl.isNaN, Dbl.nan_lt, Dbl.lt_nan, Bool.or_false,
        Bool.false_eq_true, if_false, Bool.true_and, Bool.false_and, if_true]
      have h0 : Dbl.eq (.fin 0) (.fin 0) = true := by simp [Dbl.eq]
      simp only [h0, Bool.true_and, if_true]
      cases hc : (!Dbl.eq lo o.lower && !Dbl.eq hi o.upper)
      · have : ParInfo.make name .nan (.fin 0) lo hi = .err := by simp [ParInfo.make, isValid_mk, Dbl.isNaN]
        simp [this]
      · have : (Dbl.eq lo o.lower && Dbl.eq hi o.upper) = false := by
          cases h : Dbl.eq lo o.lower <;> simp_all
        simp only [this, Bool.false_eq_true, if_false, if_true]
        rw [checks_proper]

end Spot
