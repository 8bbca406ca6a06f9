import Verif.Model.Evolution
import Verif.Lemmas.Pool

/-! # Sampling and selection in MES and EVA -/

namespace Spot

section
variable {K : Type} [Arith K]

theorem gather_ok {α : Type} {pop : List α} : ∀ {is : List Nat} {sel : List α}, gather pop is = .ok sel →
    is.map (fun i => pop[i]?) = sel.map some := by
  intro is
  induction is with
  | nil => intro sel h; cases h; rfl
  | cons i is ih =>
    intro sel h
    unfold gather at h
    split at h
    · rename_i x hx
      rw [Res.bind_eq_ok] at h
      obtain ⟨xs, h1, h2⟩ := h
      cases h2
      simp only [List.map_cons, hx, ih h1]
    · cases h

theorem gather_exists {α : Type} {pop : List α} : ∀ {is : List Nat}, (∀ i ∈ is, i < pop.length) → ∃ sel, gather pop is = .ok sel := by
  intro is
  induction is with
  | nil => intro _; exact ⟨[], rfl⟩
  | cons i is ih =>
    intro h
    obtain ⟨sel, hs⟩ := ih (fun i hi => h i (by simp [hi]))
    have hi := h i (by simp)
    refine ⟨pop[i] :: sel, ?_⟩
    simp only [gather, hs, List.getElem?_eq_getElem hi]
    rfl

theorem gather_congr {α : Type} {pop pop' : List α} : ∀ {is : List Nat}, (∀ i ∈ is, pop[i]? = pop'[i]?) → gather pop is = gather pop' is := by
  intro is
  induction is with
  | nil => intro _; rfl
  | cons i is ih =>
    intro h
    simp only [gather]
    rw [ih (fun i hi => h i (by simp [hi])), h i (by simp)]

theorem selected_ok {α : Type} {mu : Int} {order : List Nat} {pop sel : List α} (h : selected mu order pop = .ok sel) :
    0 ≤ mu ∧ mu.toNat ≤ order.length ∧ sel.length = mu.toNat ∧ (order.take mu.toNat).map (fun i => pop[i]?) = sel.map some := by
  unfold selected at h
  split at h
  · cases h
  · rename_i h0
    split at h
    · rename_i h1
      have hk := gather_ok h
      refine ⟨by omega, h1, ?_, hk⟩
      have := congrArg List.length hk
      simp only [List.length_map, List.length_take] at this
      omega
    · cases h

theorem selected_iff {α : Type} {mu : Int} {order : List Nat} {pop : List α} (hp : order.Perm (List.range pop.length)) :
    (selected mu order pop = .ub ↔ mu < 0 ∨ (pop.length : Int) < mu) ∧ (selected mu order pop = .ub ∨ ∃ sel, selected mu order pop = .ok sel) := by
  have hl : order.length = pop.length := by rw [hp.length_eq, List.length_range]
  have hin : ∀ i ∈ order.take mu.toNat, i < pop.length := fun i hi => List.mem_range.1 (hp.mem_iff.1 (List.mem_of_mem_take hi))
  obtain ⟨sel, hs⟩ := gather_exists hin
  unfold selected
  by_cases h0 : mu < 0
  · simp [h0]
  · by_cases h1 : mu.toNat ≤ order.length
    · rw [if_neg h0, if_pos h1, hs]
      exact ⟨iff_of_false (by simp) (by omega), .inr ⟨sel, rfl⟩⟩
    · rw [if_neg h0, if_neg h1]
      exact ⟨iff_of_true rfl (by omega), .inl rfl⟩

end

namespace Dbl

theorem within_clamped [Libm] {v lo hi : Dbl} (h : Dbl.le lo hi = true) (hv : v ≠ .nan) :
    Dbl.le lo (clamped v lo hi) = true ∧ Dbl.le (clamped v lo hi) hi = true := by
  have h1 := ne_nan_of_le_left h
  have h2 := ne_nan_of_le_right h
  unfold clamped
  show Dbl.le lo (if Dbl.lt v lo = true then lo else if Dbl.lt hi v = true then hi else v) = true ∧
    Dbl.le (if Dbl.lt v lo = true then lo else if Dbl.lt hi v = true then hi else v) hi = true
  split
  · exact ⟨le_refl h1, h⟩
  · rename_i ha
    split
    · exact ⟨h, le_refl h2⟩
    · rename_i hb
      rw [Bool.not_eq_true] at ha hb
      exact ⟨(not_lt hv h1).1 ha, (not_lt h2 hv).1 hb⟩

end Dbl

/-- No draw is NaN. -/
def Rng.NoNaN (R : Rng Dbl) : Prop := ∀ d e, (R.draw d e).1 ≠ .nan

section
variable [Libm] {n : Nat}

theorem sampleLoop_within (R : Rng Dbl) {lo hi : Dbl} (h : Dbl.le lo hi = true) (hR : R.NoNaN) : ∀ (k : Nat) (d : R.Dist) (e : R.Eng),
    Dbl.le lo (sampleLoop R lo hi k d e).1 = true ∧ Dbl.le (sampleLoop R lo hi k d e).1 hi = true := by
  intro k
  induction k with
  | zero => intro d e; exact Dbl.within_clamped h (hR d e)
  | succ k ih =>
    intro d e
    simp only [sampleLoop]
    split
    · rename_i hw
      rw [Bool.and_eq_true] at hw
      exact hw
    · exact ih _ _

end

section
variable {K : Type} [Arith K] {n : Nat}

/-- Every coordinate of a vector was sampled by `sample_parameter`. -/
theorem sampleVec_all (R : Rng K) (b : Bounds K n) (m s : Fin n → K) (P : Fin n → K → Prop)
    (hP : ∀ i e, P i (sampleParameter R (m i) (s i) (b.lo i) (b.hi i) e).1) : ∀ (is : List (Fin n)) (e : R.Eng),
    List.Forall₂ P is (sampleVec R b m s is e).1 := by
  intro is
  induction is with
  | nil => intro e; exact .nil
  | cons i is ih =>
    intro e
    have h1 := hP i e
    simp only [sampleVec]
    rcases hh : sampleParameter R (m i) (s i) (b.lo i) (b.hi i) e with ⟨v, e'⟩
    rw [hh] at h1
    exact .cons h1 (ih _)

theorem samplePop_all (R : Rng K) (b : Bounds K n) (s : Es K n) (P : Fin n → K → Prop)
    (hP : ∀ m st i e, P i (sampleParameter R m st (b.lo i) (b.hi i) e).1) : ∀ (k : Nat) (d : R.Dist) (e : R.Eng),
    (sampleLoopPop R b s k d e).1.length = k ∧
    ∀ x ∈ (sampleLoopPop R b s k d e).1, ∃ v, x = v.map Arith.round8 ∧ List.Forall₂ P (List.finRange n) v := by
  intro k
  induction k with
  | zero => intro d e; simp [sampleLoopPop]
  | succ k ih =>
    intro d e
    simp only [sampleLoopPop]
    refine ⟨by simp [(ih _ _).1], fun x hx => ?_⟩
    rcases List.mem_cons.1 hx with rfl | hx
    · exact ⟨_, rfl, sampleVec_all R b _ _ P (fun i e => hP _ _ i e) _ _⟩
    · exact (ih _ _).2 x hx

end

/-! ## Sign of floating-point results -/

namespace Dbl

/-- Not a negative number (it may be NaN). -/
def NotNeg (x : Dbl) : Prop := Dbl.lt x (.fin 0) = false

theorem notNeg_fin {q : ℚ} : NotNeg (.fin q) ↔ 0 ≤ q := by simp [NotNeg]
theorem notNeg_pinf : NotNeg .pinf := rfl
theorem notNeg_nan : NotNeg .nan := rfl
theorem not_notNeg_ninf : ¬ NotNeg .ninf := by simp [NotNeg, Dbl.lt]

theorem notNeg_ofQ {q : ℚ} (h : 0 ≤ q) : NotNeg (ofQ q) := by
  have hb : 0 ≤ bin64 q := rnd_nonneg (by norm_num) (fexp := fexp64) h
  unfold ofQ
  dsimp only
  split
  · exact notNeg_pinf
  · split
    · rename_i h2
      have : (0:ℚ) ≤ maxQ := by unfold maxQ; norm_num
      linarith
    · exact notNeg_fin.2 hb

theorem notNeg_infSign {q : ℚ} (h : 0 ≤ q) : NotNeg (infSign q) := by
  unfold infSign
  split
  · exact notNeg_pinf
  · rw [if_neg (_root_.not_lt.2 h)]; exact notNeg_nan

theorem NotNeg.add {a b : Dbl} (ha : NotNeg a) (hb : NotNeg b) : NotNeg (Dbl.add a b) := by
  cases a <;> cases b <;> simp only [Dbl.add] <;> first
    | exact notNeg_nan
    | exact notNeg_pinf
    | exact absurd ha not_notNeg_ninf
    | exact absurd hb not_notNeg_ninf
    | exact notNeg_ofQ (add_nonneg (notNeg_fin.1 ha) (notNeg_fin.1 hb))

theorem NotNeg.mul {a b : Dbl} (ha : NotNeg a) (hb : NotNeg b) : NotNeg (Dbl.mul a b) := by
  cases a <;> cases b <;> simp only [Dbl.mul] <;> first
    | exact notNeg_nan
    | exact notNeg_pinf
    | exact absurd ha not_notNeg_ninf
    | exact absurd hb not_notNeg_ninf
    | exact notNeg_ofQ (mul_nonneg (notNeg_fin.1 ha) (notNeg_fin.1 hb))
    | exact notNeg_infSign (notNeg_fin.1 ha)
    | exact notNeg_infSign (notNeg_fin.1 hb)

theorem notNeg_squared (a : Dbl) : NotNeg (Dbl.mul a a) := by
  cases a <;> simp only [Dbl.mul] <;> first
    | exact notNeg_nan
    | exact notNeg_pinf
    | exact notNeg_ofQ (mul_self_nonneg _)

theorem NotNeg.div {a b : Dbl} (ha : NotNeg a) (hb : NotNeg b) : NotNeg (Dbl.div a b) := by
  cases a <;> cases b <;> simp only [Dbl.div] <;> first
    | exact notNeg_nan
    | exact notNeg_pinf
    | exact absurd ha not_notNeg_ninf
    | exact absurd hb not_notNeg_ninf
    | exact notNeg_fin.2 (le_refl 0)
    | (split
       · exact notNeg_infSign (notNeg_fin.1 ha)
       · exact notNeg_ofQ (div_nonneg (notNeg_fin.1 ha) (notNeg_fin.1 hb)))
    | (rw [if_neg (_root_.not_lt.2 (notNeg_fin.1 hb))]; exact notNeg_pinf)

theorem NotNeg.foldl {α : Type} (f : α → Dbl) (hf : ∀ x, NotNeg (f x)) : ∀ (l : List α) (a : Dbl), NotNeg a →
    NotNeg (l.foldl (fun a x => Dbl.add a (f x)) a) := by
  intro l
  induction l with
  | nil => intro a h; exact h
  | cons x l ih => intro a h; exact ih _ (h.add (hf x))

theorem ofQ_one : ofQ 1 = .fin 1 := by decide +kernel
theorem ofQ_zero : ofQ 0 = .fin 0 := by decide +kernel

theorem NotNeg.one_sub {r : Dbl} (h : Dbl.le r (.fin 1) = true) : NotNeg (Dbl.sub (.fin 1) r) := by
  cases r with
  | nan => exact notNeg_nan
  | ninf => exact notNeg_pinf
  | pinf => simp [Dbl.le] at h
  | fin q =>
    simp only [Dbl.le, decide_eq_true_eq] at h
    exact notNeg_ofQ (by linarith)

theorem NotNeg.of_le {r : Dbl} (h : Dbl.le (.fin 0) r = true) : NotNeg r := (le_iff.1 h).2

end Dbl

end Spot
