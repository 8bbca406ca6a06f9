import Verif.Model.CmaEigen
import Verif.Lemmas.Arith

/-! # Loop invariants -/

namespace Spot

section
variable {S K : Type}

theorem forUp_of_le {a b : Nat} (h : b ≤ a) (f : Nat → S → S) (s : S) : forUp a b f s = s := by
  unfold forUp
  rw [Nat.sub_eq_zero_of_le h]
  rfl

theorem forUp_succ {a b : Nat} (h : a ≤ b) (f : Nat → S → S) (s : S) : forUp a (b + 1) f s = f b (forUp a b f s) := by
  unfold forUp
  rw [show b + 1 - a = (b - a) + 1 by omega, List.range'_concat, List.foldl_append]
  simp only [List.foldl_cons, List.foldl_nil, Nat.one_mul]
  rw [show a + (b - a) = b by omega]

theorem forDown_of_le {a b : Nat} (h : b ≤ a) (f : Nat → S → S) (s : S) : forDown a b f s = s := by
  unfold forDown
  rw [Nat.sub_eq_zero_of_le h]
  rfl

theorem forDown_cons {a b : Nat} (h : a < b) (f : Nat → S → S) (s : S) : forDown a b f s = f a (forDown (a + 1) b f s) := by
  unfold forDown
  rw [show b - a = (b - (a + 1)) + 1 by omega, List.range'_succ]
  rfl

theorem forUp_inv (P : Nat → S → Prop) {a b : Nat} (hab : a ≤ b) {f : Nat → S → S} {s : S} (h0 : P a s)
    (hs : ∀ i s, a ≤ i → i < b → P i s → P (i + 1) (f i s)) : P b (forUp a b f s) := by
  induction b, hab using Nat.le_induction with
  | base => rwa [forUp_of_le le_rfl]
  | succ b hb ih =>
    rw [forUp_succ hb]
    exact hs b _ hb (by omega) (ih fun i s h1 h2 => hs i s h1 (by omega))

theorem forDown_inv (P : Nat → S → Prop) {a b : Nat} (hab : a ≤ b) {f : Nat → S → S} {s : S} (h0 : P b s)
    (hs : ∀ i s, a ≤ i → i < b → P (i + 1) s → P i (f i s)) : P a (forDown a b f s) := by
  obtain ⟨k, rfl⟩ := Nat.exists_eq_add_of_le hab
  clear hab
  induction k generalizing a with
  | zero => rw [forDown_of_le (by omega)]; simpa using h0
  | succ k ih =>
    rw [forDown_cons (by omega)]
    refine hs a _ le_rfl (by omega) ?_
    rw [show a + (k + 1) = a + 1 + k by omega]
    exact ih (by rwa [show a + 1 + k = a + (k + 1) by omega]) fun i s h1 h2 => hs i s (by omega) (by omega)

@[simp] theorem set1_same (v : Nat → K) (i : Nat) (x : K) : set1 v i x i = x := by simp [set1]

theorem set1_ne (v : Nat → K) {i j : Nat} (x : K) (h : j ≠ i) : set1 v i x j = v j := by simp [set1, h]

@[simp] theorem set2_same (V : Nat → Nat → K) (i j : Nat) (x : K) : set2 V i j x i j = x := by simp [set2]

theorem set2_ne (V : Nat → Nat → K) {i j a b : Nat} (x : K) (h : ¬(a = i ∧ b = j)) : set2 V i j x a b = V a b := by simp [set2, h]

/-- A loop that assigns every element of an array once, the value of an element depending on that element only. -/
theorem forUp_set1 (a b : Nat) (g : Nat → K → K) (v : Nat → K) :
    forUp a b (fun i v => set1 v i (g i (v i))) v = fun j => if a ≤ j ∧ j < b then g j (v j) else v j := by
  rcases Nat.lt_or_ge b a with h | h
  · rw [forUp_of_le h.le]
    funext j
    rw [if_neg (by omega)]
  · refine forUp_inv (fun i w => w = fun j => if a ≤ j ∧ j < i then g j (v j) else v j) h ?_ ?_
    · funext j; rw [if_neg (by omega)]
    · rintro i _ h1 h2 rfl
      funext j
      by_cases hj : j = i
      · subst hj
        simp only [set1_same]
        rw [if_neg (show ¬(a ≤ j ∧ j < j) by omega), if_pos (show a ≤ j ∧ j < j + 1 by omega)]
      · rw [set1_ne _ _ hj]
        congr 1
        simp only [eq_iff_iff]
        omega

end

end Spot
