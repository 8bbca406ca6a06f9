import Verif.Lemmas.CmaQLEnd

/-!
# The Householder reduction in exact arithmetic
-/

namespace Spot

open Finset

/-! ## The loops -/

theorem sum_lt_eq {j i : Nat} (h : j ≤ i) (f : Nat → ℝ) : ∑ k ∈ range j, f k = ∑ k ∈ range i, if k < j then f k else 0 := by
  rw [← sum_filter]
  refine sum_congr ?_ fun _ _ => rfl
  ext k
  simp only [mem_filter, mem_range]
  omega

/-- The symmetric matrix whose lower triangle is that of `V`. -/
def sym (V : Nat → Nat → ℝ) (a b : Nat) : ℝ := if b ≤ a then V a b else V b a

theorem sym_comm (V : Nat → Nat → ℝ) (a b : Nat) : sym V a b = sym V b a := by
  unfold sym
  by_cases h : b ≤ a
  · by_cases h' : a ≤ b
    · rw [show a = b by omega]
    · rw [if_pos h, if_neg h']
  · rw [if_neg h, if_pos (by omega)]

def dot (m : Nat) (u v : Nat → ℝ) : ℝ := ∑ k ∈ range m, u k * v k

def mv (m : Nat) (S : Nat → Nat → ℝ) (x : Nat → ℝ) (a : Nat) : ℝ := ∑ b ∈ range m, S a b * x b

theorem hhScale_eq (i : Nat) (scale : ℝ) (d : Nat → ℝ) :
    hhScale i scale d = (fun k => if k < i then d k / scale else d k, ∑ k ∈ range i, (d k / scale) ^ 2) := by
  unfold hhScale
  refine forUp_inv (fun m (x : (Nat → ℝ) × ℝ) => x = (fun k => if k < m then d k / scale else d k, ∑ k ∈ range m, (d k / scale) ^ 2)) (Nat.zero_le i) ?_ ?_
  · simp
  · rintro m _ - - rfl
    dsimp only
    rw [if_neg (lt_irrefl m)]
    refine Prod.ext ?_ ?_
    · funext k
      dsimp only
      by_cases hk : k = m
      · subst hk; rw [set1_same, if_pos (by omega)]
      · rw [set1_ne _ _ hk]
        have : k < m + 1 ↔ k < m := by omega
        simp only [this]
    · show _ = _
      rw [sum_range_succ]
      ring

theorem hhInner_eq (i j : Nat) (d : Nat → ℝ) (V : Nat → Nat → ℝ) (g : ℝ) (e : Nat → ℝ) (hj : j < i) :
    forUp (j + 1) i (fun k (y : ℝ × (Nat → ℝ)) => (y.1 + V k j * d k, set1 y.2 k (y.2 k + V k j * d j))) (g, e) =
      (g + ∑ k ∈ range i, (if j < k then V k j * d k else 0), fun a => if j < a ∧ a < i then e a + V a j * d j else e a) := by
  refine forUp_inv (fun m (y : ℝ × (Nat → ℝ)) => y = (g + ∑ k ∈ range m, (if j < k then V k j * d k else 0), fun a => if j < a ∧ a < m then e a + V a j * d j else e a))
    (show j + 1 ≤ i by omega) ?_ ?_
  · refine Prod.ext ?_ ?_
    · show g = _
      rw [sum_eq_zero, add_zero]
      intro k hk
      rw [mem_range] at hk
      rw [if_neg (by omega)]
    · funext a
      dsimp only
      rw [if_neg (by omega)]
  · rintro m _ h1 h2 rfl
    dsimp only
    refine Prod.ext ?_ ?_
    · show _ = _
      rw [sum_range_succ, if_pos (show j < m by omega)]
      ring
    · funext a
      dsimp only
      by_cases ha : a = m
      · subst ha
        rw [set1_same, if_neg (by omega), if_pos (by omega)]
      · rw [set1_ne _ _ ha]
        have : (j < a ∧ a < m + 1) ↔ (j < a ∧ a < m) := by omega
        simp only [this]

theorem hhProduct_eq (i : Nat) (d : Nat → ℝ) (V : Nat → Nat → ℝ) (e : Nat → ℝ) (he : ∀ a, a < i → e a = 0) :
    hhProduct i d V e = (fun a b => if b = i ∧ a < i then d a else V a b, fun a => if a < i then mv i (sym V) d a else e a) := by
  unfold hhProduct
  have key := forUp_inv (fun m (x : (Nat → Nat → ℝ) × (Nat → ℝ)) => x = (fun a b => if b = i ∧ a < m then d a else V a b,
      fun a => if a < m then mv i (sym V) d a else if a < i then ∑ k ∈ range m, V a k * d k else e a)) (Nat.zero_le i) (s := (V, e))
    (f := fun j x =>
      let V := set2 x.1 j i (d j)
      let y := forUp (j + 1) i (fun k (y : ℝ × (Nat → ℝ)) => (y.1 + V k j * d k, set1 y.2 k (y.2 k + V k j * d j))) (x.2 j + V j j * d j, x.2)
      (V, set1 y.2 j y.1)) ?_ ?_
  · rw [key]
    refine Prod.ext rfl ?_
    funext a
    dsimp only
    split
    · rfl
    · rfl
  · refine Prod.ext ?_ ?_
    · funext a b
      dsimp only
      rw [if_neg (by omega)]
    · funext a
      dsimp only
      rw [if_neg (by omega)]
      split
      · rename_i h; rw [he a h]; simp
      · rfl
  · rintro j _ - hj rfl
    dsimp only
    have hV : set2 (fun a b => if b = i ∧ a < j then d a else V a b) j i (d j) = fun a b => if b = i ∧ a < j + 1 then d a else V a b := by
      funext a b
      unfold set2
      by_cases h1 : a = j ∧ b = i
      · rw [if_pos h1, if_pos (by omega), h1.1]
      · rw [if_neg h1]
        dsimp only
        have : (b = i ∧ a < j + 1) ↔ (b = i ∧ a < j) := by omega
        simp only [this]
    have hcol : ∀ k, (fun a b => if b = i ∧ a < j + 1 then d a else V a b) k j = V k j := by
      intro k
      dsimp only
      rw [if_neg (by omega)]
    rw [hV, hhInner_eq i j d (fun a b => if b = i ∧ a < j + 1 then d a else V a b) _ _ hj]
    refine Prod.ext rfl ?_
    funext a
    simp only [hcol]
    by_cases ha : a = j
    · subst ha
      rw [set1_same, if_neg (lt_irrefl _), if_pos hj, if_pos (by omega)]
      unfold mv
      rw [sum_lt_eq hj.le, show V a a * d a = ∑ k ∈ range i, if k = a then V a k * d k else 0 by
        rw [sum_ite_eq' (range i) a, if_pos (mem_range.2 hj)], ← sum_add_distrib, ← sum_add_distrib]
      refine sum_congr rfl fun k _ => ?_
      unfold sym
      rcases lt_trichotomy k a with h | h | h
      · rw [if_pos h, if_neg (by omega), if_neg (by omega), if_pos h.le]; ring
      · subst h; simp
      · rw [if_neg (by omega), if_neg (by omega), if_pos h, if_neg (by omega)]; ring
    · rw [set1_ne _ _ ha]
      by_cases h1 : a < j
      · rw [if_neg (by omega), if_pos h1, if_pos (by omega)]
      · by_cases h2 : a < i
        · rw [if_pos (by omega), if_neg h1, if_pos h2, if_neg (by omega), if_pos h2, sum_range_succ]
        · rw [if_neg (by omega), if_neg h1, if_neg h2, if_neg (by omega), if_neg h2]

theorem hhDivide_eq (i : Nat) (h : ℝ) (d e : Nat → ℝ) :
    hhDivide i h d e = (fun k => if k < i then e k / h else e k, ∑ k ∈ range i, e k / h * d k) := by
  unfold hhDivide
  refine forUp_inv (fun m (x : (Nat → ℝ) × ℝ) => x = (fun k => if k < m then e k / h else e k, ∑ k ∈ range m, e k / h * d k)) (Nat.zero_le i) ?_ ?_
  · simp
  · rintro m _ - - rfl
    dsimp only
    rw [if_neg (lt_irrefl m)]
    refine Prod.ext ?_ ?_
    · funext k
      dsimp only
      by_cases hk : k = m
      · subst hk; rw [set1_same, if_pos (by omega)]
      · rw [set1_ne _ _ hk]
        have : k < m + 1 ↔ k < m := by omega
        simp only [this]
    · show _ = _
      rw [sum_range_succ]

theorem hhReduce_eq (i : Nat) (hh : ℝ) (d e : Nat → ℝ) : hhReduce i hh d e = fun k => if k < i then e k - hh * d k else e k := by
  unfold hhReduce
  rw [forUp_set1 0 i (fun j x => x - hh * d j) e]
  simp

theorem hhUpdate_eq (i : Nat) (hi : 1 ≤ i) (e : Nat → ℝ) (V : Nat → Nat → ℝ) (d : Nat → ℝ) :
    hhUpdate i e V d = (fun a b => if b < i ∧ b ≤ a ∧ a < i then V a b - (d b * e a + e b * d a) else if a = i ∧ b < i then 0 else V a b,
      fun b => if b < i then V (i - 1) b - (d b * e (i - 1) + e b * d (i - 1)) else d b) := by
  unfold hhUpdate
  refine forUp_inv (fun m (x : (Nat → Nat → ℝ) × (Nat → ℝ)) => x =
      (fun a b => if b < m ∧ b ≤ a ∧ a < i then V a b - (d b * e a + e b * d a) else if a = i ∧ b < m then 0 else V a b,
      fun b => if b < m then V (i - 1) b - (d b * e (i - 1) + e b * d (i - 1)) else d b)) (Nat.zero_le i) ?_ ?_
  · simp
  · rintro j _ - hj rfl
    dsimp only
    rw [if_neg (lt_irrefl j)]
    have hin : forUp j i (fun k W => set2 W k j (W k j - (d j * e k + e j * if k < j then V (i - 1) k - (d k * e (i - 1) + e k * d (i - 1)) else d k)))
        (fun a b => if b < j ∧ b ≤ a ∧ a < i then V a b - (d b * e a + e b * d a) else if a = i ∧ b < j then 0 else V a b) =
        fun a b => if b < j + 1 ∧ b ≤ a ∧ a < i then V a b - (d b * e a + e b * d a) else if a = i ∧ b < j then 0 else V a b := by
      have h0 := forUp_inv (fun m W => W = fun a b => if (b < j ∧ b ≤ a ∧ a < i) ∨ (b = j ∧ j ≤ a ∧ a < m) then V a b - (d b * e a + e b * d a)
          else if a = i ∧ b < j then 0 else V a b) (show j ≤ i by omega)
        (f := fun k W => set2 W k j (W k j - (d j * e k + e j * if k < j then V (i - 1) k - (d k * e (i - 1) + e k * d (i - 1)) else d k)))
        (s := fun a b => if b < j ∧ b ≤ a ∧ a < i then V a b - (d b * e a + e b * d a) else if a = i ∧ b < j then 0 else V a b) ?_ ?_
      · rw [h0]
        funext a b
        have : ((b < j ∧ b ≤ a ∧ a < i) ∨ (b = j ∧ j ≤ a ∧ a < i)) ↔ (b < j + 1 ∧ b ≤ a ∧ a < i) := by omega
        simp only [this]
      · funext a b
        have : ((b < j ∧ b ≤ a ∧ a < i) ∨ (b = j ∧ j ≤ a ∧ a < j)) ↔ (b < j ∧ b ≤ a ∧ a < i) := by omega
        simp only [this]
      · rintro k _ h1 h2 rfl
        funext a b
        unfold set2
        dsimp only
        by_cases h : a = k ∧ b = j
        · obtain ⟨rfl, rfl⟩ := h
          rw [if_pos ⟨rfl, rfl⟩, if_neg (by omega), if_neg (by omega), if_neg (show ¬ a < b by omega), if_pos (by omega)]
        · rw [if_neg h]
          have : ((b < j ∧ b ≤ a ∧ a < i) ∨ (b = j ∧ j ≤ a ∧ a < k + 1)) ↔ ((b < j ∧ b ≤ a ∧ a < i) ∨ (b = j ∧ j ≤ a ∧ a < k)) := by omega
          simp only [this]
    rw [hin]
    refine Prod.ext ?_ ?_
    · funext a b
      unfold set2
      dsimp only
      by_cases h : a = i ∧ b = j
      · obtain ⟨rfl, rfl⟩ := h
        rw [if_pos ⟨rfl, rfl⟩, if_neg (by omega), if_pos (by omega)]
        simp
      · rw [if_neg h]
        have : (a = i ∧ b < j + 1) ↔ (a = i ∧ b < j) := by omega
        simp only [this]
    · funext b
      dsimp only
      by_cases hb : b = j
      · subst hb
        rw [set1_same]
        rw [if_pos (by omega), if_pos (by omega)]
      · rw [set1_ne _ _ hb]
        have : b < j + 1 ↔ b < j := by omega
        simp only [this]

theorem skip_eq (i : Nat) (s : HH ℝ) : s.skip i =
    { V := fun a b => if (a = i ∧ b < i) ∨ (b = i ∧ a < i) then 0 else s.V a b
      d := fun j => if j < i then s.V (i - 1) j else s.d j
      e := set1 s.e i (s.d (i - 1)) } := by
  unfold HH.skip
  refine forUp_inv (fun m (t : HH ℝ) => t = { V := fun a b => if (a = i ∧ b < m) ∨ (b = i ∧ a < m) then 0 else s.V a b
                                              d := fun j => if j < m then s.V (i - 1) j else s.d j
                                              e := set1 s.e i (s.d (i - 1)) }) (Nat.zero_le i) ?_ ?_
  · simp
  · rintro j _ - hj rfl
    dsimp only
    congr 1
    · funext a b
      unfold set2
      by_cases h1 : a = j ∧ b = i
      · rw [if_pos h1, if_pos (by omega)]; simp
      · rw [if_neg h1]
        by_cases h2 : a = i ∧ b = j
        · rw [if_pos h2, if_pos (by omega)]; simp
        · rw [if_neg h2]
          have : ((a = i ∧ b < j + 1) ∨ (b = i ∧ a < j + 1)) ↔ ((a = i ∧ b < j) ∨ (b = i ∧ a < j)) := by omega
          simp only [this]
    · funext a
      by_cases ha : a = j
      · subst ha
        rw [set1_same, if_neg (by omega), if_pos (by omega)]
      · rw [set1_ne _ _ ha]
        have : a < j + 1 ↔ a < j := by omega
        simp only [this]

/-! ## Reflections -/

/-- The reflection stored in column `j` of `V` and in `d j`. -/
noncomputable def refl (V : Nat → Nat → ℝ) (d : Nat → ℝ) (j : Nat) (y : Nat → ℝ) : Nat → ℝ :=
  fun a => if a < j then y a - (∑ k ∈ range j, V k j * y k) / d j * V a j else y a

/-- Two-sided application of a reflection. -/
theorem reflect_form {m : Nat} {S : Nat → Nat → ℝ} (hS : ∀ a b, S a b = S b a) {u : Nat → ℝ} {h : ℝ} (hh : h ≠ 0) (hu : dot m u u = 2 * h)
    (p q : Nat → ℝ) (hp : ∀ a, a < m → p a = mv m S u a / h) (hq : ∀ a, a < m → q a = p a - dot m p u / (2 * h) * u a)
    {S' : Nat → Nat → ℝ} (hS' : ∀ a b, a < m → b < m → S' a b = S a b - (u b * q a + q b * u a)) (x y : Nat → ℝ)
    (hy : ∀ a, a < m → y a = x a - dot m u x / h * u a) : dot m y (mv m S' y) = dot m x (mv m S x) := by
  set t := dot m u x / h with ht
  set K := dot m p u / (2 * h) with hK
  have hux : dot m u x = t * h := by rw [ht]; field_simp
  have hpu : dot m p u = 2 * h * K := by rw [hK]; field_simp
  have huy : dot m u y = -(t * h) := by
    have : dot m u y = dot m u x - t * dot m u u := by
      unfold dot
      rw [mul_sum, ← sum_sub_distrib]
      exact sum_congr rfl fun a ha => by rw [hy a (mem_range.1 ha)]; ring
    rw [this, hu, hux]; ring
  have hqy : dot m q y = dot m p x - K * (t * h) := by
    have h1 : dot m q y = dot m p x - t * dot m p u - K * (dot m u x - t * dot m u u) := by
      unfold dot
      rw [mul_sum, mul_sum, ← sum_sub_distrib, ← sum_sub_distrib, mul_sum, ← sum_sub_distrib]
      exact sum_congr rfl fun a ha => by rw [hy a (mem_range.1 ha), hq a (mem_range.1 ha)]; ring
    rw [h1, hpu, hux, hu]; ring
  have hmv' : ∀ a, a < m → mv m S' y a = mv m S y a - (q a * dot m u y + u a * dot m q y) := by
    intro a ha
    unfold mv dot
    rw [mul_sum, mul_sum, ← sum_add_distrib, ← sum_sub_distrib]
    exact sum_congr rfl fun b hb => by rw [hS' a b ha (mem_range.1 hb)]; ring
  have hmvy : ∀ a, mv m S y a = mv m S x a - t * mv m S u a := by
    intro a
    unfold mv
    rw [mul_sum, ← sum_sub_distrib]
    exact sum_congr rfl fun b hb => by rw [hy b (mem_range.1 hb)]; ring
  have hmvu : ∀ a, a < m → mv m S u a = h * p a := by
    intro a ha; rw [hp a ha]; field_simp
  have hadj : dot m u (mv m S x) = dot m x (mv m S u) := by
    unfold dot mv
    simp only [mul_sum]
    rw [sum_comm]
    exact sum_congr rfl fun a _ => sum_congr rfl fun b _ => by rw [hS b a]; ring
  have hxu : dot m x (mv m S u) = h * dot m p x := by
    unfold dot
    rw [mul_sum]
    exact sum_congr rfl fun a ha => by rw [hmvu a (mem_range.1 ha)]; ring
  have huu : dot m u (mv m S u) = h * dot m p u := by
    unfold dot
    rw [mul_sum]
    exact sum_congr rfl fun a ha => by rw [hmvu a (mem_range.1 ha)]; ring
  have h1 : dot m y (mv m S' y) = dot m y (mv m S y) - 2 * (dot m u y * dot m q y) := by
    have : dot m y (mv m S' y) = dot m y (mv m S y) - (dot m q y * dot m u y + dot m u y * dot m q y) := by
      unfold dot
      rw [sum_mul, sum_mul, ← sum_add_distrib, ← sum_sub_distrib]
      refine sum_congr rfl fun a ha => ?_
      rw [hmv' a (mem_range.1 ha)]
      unfold dot
      ring
    rw [this]; ring
  have h2 : dot m y (mv m S y) = dot m x (mv m S x) - t * dot m x (mv m S u) - t * (dot m u (mv m S x) - t * dot m u (mv m S u)) := by
    unfold dot
    rw [mul_sum, mul_sum, ← sum_sub_distrib, ← sum_sub_distrib, mul_sum, ← sum_sub_distrib]
    exact sum_congr rfl fun a ha => by rw [hmvy a, hy a (mem_range.1 ha)]; ring
  rw [h1, h2, hadj, hxu, huu, huy, hqy, hpu]
  ring

/-! ## One round of the reduction -/

structure HH.StepSpec (i : Nat) (s t : HH ℝ) : Prop where
  right : ∀ a b, i < b → t.V a b = s.V a b
  below : ∀ a b, i < a → t.V a b = s.V a b
  corner : t.V i i = s.V i i
  d_hi : ∀ j, i < j → t.d j = s.d j
  e_hi : ∀ j, i < j → t.e j = s.e j
  d_lo : ∀ j, j < i → t.d j = t.V (i - 1) j
  row : ∀ b, b < i → t.V i b = 0
  norm : ∑ k ∈ range i, t.V k i ^ 2 = 2 * t.d i
  form : ∀ y, dot i (refl t.V t.d i y) (mv i (sym t.V) (refl t.V t.d i y)) = dot i y (mv i (sym s.V) y)
  off : ∀ y, ∑ b ∈ range i, s.V i b * y b = t.e i * refl t.V t.d i y (i - 1)

theorem form_congr {i : Nat} {S S' : Nat → Nat → ℝ} (h : ∀ a b, a < i → b < i → S a b = S' a b) {y y' : Nat → ℝ} (hy : ∀ a, a < i → y a = y' a) :
    dot i y (mv i S y) = dot i y' (mv i S' y') := by
  unfold dot mv
  refine sum_congr rfl fun a ha => ?_
  rw [hy a (mem_range.1 ha)]
  congr 1
  exact sum_congr rfl fun b hb => by rw [hy b (mem_range.1 hb), h a b (mem_range.1 ha) (mem_range.1 hb)]

theorem step_spec {i : Nat} (hi : 1 ≤ i) {s : HH ℝ} (hd : ∀ j, j < i → s.d j = s.V i j) : HH.StepSpec i s (s.step i) := by
  by_cases hsc : ∑ k ∈ range i, |s.d k| = 0
  · have hz : ∀ k, k < i → s.d k = 0 := by
      intro k hk
      have := (sum_eq_zero_iff_of_nonneg (fun k _ => abs_nonneg (s.d k))).1 hsc k (mem_range.2 hk)
      exact abs_eq_zero.1 this
    have ht : s.step i = { V := fun a b => if (a = i ∧ b < i) ∨ (b = i ∧ a < i) then 0 else s.V a b
                           d := set1 (fun j => if j < i then s.V (i - 1) j else s.d j) i 0
                           e := set1 s.e i (s.d (i - 1)) } := by
      unfold HH.step
      simp only [sumLoop_real, abs_real, eq_real, lit_real, Rat.cast_zero, decide_eq_true_eq]
      rw [if_pos hsc, skip_eq]
    rw [ht]
    have hcol : ∀ k, k < i → (fun a b => if (a = i ∧ b < i) ∨ (b = i ∧ a < i) then 0 else s.V a b) k i = 0 := by
      intro k hk
      dsimp only
      rw [if_pos (by omega)]
    have hrefl : ∀ (d : Nat → ℝ) (y : Nat → ℝ) (a : Nat), refl (fun a b => if (a = i ∧ b < i) ∨ (b = i ∧ a < i) then 0 else s.V a b) d i y a = y a := by
      intro d y a
      unfold refl
      split
      · rename_i h
        rw [hcol a h]; ring
      · rfl
    constructor
    · intro a b h; dsimp only; rw [if_neg (by omega)]
    · intro a b h; dsimp only; rw [if_neg (by omega)]
    · dsimp only; rw [if_neg (by omega)]
    · intro j h; dsimp only; rw [set1_ne _ _ (by omega), if_neg (by omega)]
    · intro j h; dsimp only; rw [set1_ne _ _ (by omega)]
    · intro j h; dsimp only; rw [set1_ne _ _ (by omega), if_pos h, if_neg (by omega)]
    · intro b h; dsimp only; rw [if_pos (by omega)]
    · dsimp only
      rw [set1_same, mul_zero]
      refine sum_eq_zero fun k hk => ?_
      rw [mem_range] at hk
      rw [if_pos (by omega)]
      norm_num
    · intro y
      refine form_congr ?_ fun a _ => hrefl _ y a
      intro a b ha hb
      unfold sym
      simp only [if_neg (show ¬((a = i ∧ b < i) ∨ (b = i ∧ a < i)) by omega), if_neg (show ¬((b = i ∧ a < i) ∨ (a = i ∧ b < i)) by omega)]
    · intro y
      dsimp only
      rw [set1_same, hz _ (by omega), zero_mul]
      refine sum_eq_zero fun b hb => ?_
      rw [mem_range] at hb
      rw [← hd b hb, hz b hb, zero_mul]
  · set scale := ∑ k ∈ range i, |s.d k| with hscale
    set h0 := ∑ k ∈ range i, (s.d k / scale) ^ 2 with hh0
    set f := s.d (i - 1) / scale with hf
    set g := if 0 < f then -Real.sqrt h0 else Real.sqrt h0 with hg
    set h := h0 - f * g with hh
    set u : Nat → ℝ := set1 (fun k => if k < i then s.d k / scale else s.d k) (i - 1) (f - g) with hu
    set W : Nat → Nat → ℝ := fun a b => if b = i ∧ a < i then u a else s.V a b with hW
    set e0 : Nat → ℝ := fun j => if j < i then 0 else set1 s.e i (scale * g) j with he0
    set p : Nat → ℝ := fun k => if k < i then mv i (sym s.V) u k / h else e0 k with hp
    set K := dot i p u / (2 * h) with hK
    set q : Nat → ℝ := fun k => if k < i then p k - K * u k else p k with hq
    have ht : s.step i = { V := fun a b => if b < i ∧ b ≤ a ∧ a < i then W a b - (u b * q a + q b * u a) else if a = i ∧ b < i then 0 else W a b
                           d := set1 (fun b => if b < i then W (i - 1) b - (u b * q (i - 1) + q b * u (i - 1)) else u b) i h
                           e := q } := by
      have hpe : (fun k => if k < i then (fun a => if a < i then mv i (sym s.V) u a else e0 a) k / h else (fun a => if a < i then mv i (sym s.V) u a else e0 a) k) = p := by
        funext k
        rw [hp]
        dsimp only
        by_cases hk : k < i
        · simp only [if_pos hk]
        · simp only [if_neg hk]
      have hKe : (∑ k ∈ range i, (if k < i then mv i (sym s.V) u k else e0 k) / h * u k) = dot i p u := by
        unfold dot
        refine sum_congr rfl fun k hk => ?_
        rw [hp]
        dsimp only
        rw [if_pos (mem_range.1 hk), if_pos (mem_range.1 hk)]
      unfold HH.step
      simp only [sumLoop_real, abs_real, eq_real, lt_real, sqrt_real, lit_real, Rat.cast_zero, decide_eq_true_eq]
      rw [← hscale, if_neg hsc, hhScale_eq]
      dsimp only
      simp only [if_pos (show i - 1 < i by omega)]
      rw [← hf, ← hh0, ← hg, ← hh, ← hu]
      rw [show forUp 0 i (fun j e => set1 e j (0 : ℝ)) (set1 s.e i (scale * g)) = e0 by
        rw [forUp_set1 0 i (fun _ _ => (0 : ℝ))]
        funext j
        rw [he0]
        simp]
      rw [hhProduct_eq i u s.V e0 (fun a ha => by rw [he0]; exact if_pos ha)]
      dsimp only
      rw [← hW, hhDivide_eq]
      dsimp only
      rw [hpe, hKe, hhReduce_eq, show dot i p u / (h + h) = K by rw [hK]; ring, ← hq, hhUpdate_eq i hi]
    -- numbers
    have hs0 : 0 < scale := lt_of_le_of_ne (sum_nonneg fun _ _ => abs_nonneg _) (Ne.symm hsc)
    have hh0' : 0 < h0 := by
      refine lt_of_le_of_ne (sum_nonneg fun _ _ => sq_nonneg _) fun h1 => hsc ?_
      have := (sum_eq_zero_iff_of_nonneg (fun k _ => sq_nonneg (s.d k / scale))).1 h1.symm
      refine sum_eq_zero fun k hk => ?_
      have := pow_eq_zero_iff (two_ne_zero) |>.1 (this k hk)
      rw [div_eq_zero_iff] at this
      rcases this with h | h
      · rw [h, abs_zero]
      · exact absurd h hs0.ne'
    have hgg : g ^ 2 = h0 := by
      rw [hg]
      split
      · rw [neg_sq, Real.sq_sqrt hh0'.le]
      · rw [Real.sq_sqrt hh0'.le]
    have hfg : f * g ≤ 0 := by
      rw [hg]
      split
      · rename_i h1; nlinarith [Real.sqrt_nonneg h0]
      · rename_i h1; nlinarith [Real.sqrt_nonneg h0]
    have hpos : 0 < h := by rw [hh]; linarith
    have hui : ∀ k, k < i → u k = if k = i - 1 then f - g else s.d k / scale := by
      intro k hk
      rw [hu]
      unfold set1
      dsimp only
      rw [if_pos hk]
    have hlast : ∀ F : Nat → ℝ, ∑ k ∈ range i, F k = ∑ k ∈ range (i - 1), F k + F (i - 1) := by
      intro F
      conv_lhs => rw [show i = (i - 1) + 1 by omega]
      rw [sum_range_succ]
    have huu : dot i u u = 2 * h := by
      have h1 : dot i u u = h0 - f ^ 2 + (f - g) ^ 2 := by
        unfold dot
        rw [hh0, hlast, hlast, hui _ (by omega), if_pos rfl, ← hf]
        have : ∑ k ∈ range (i - 1), u k * u k = ∑ k ∈ range (i - 1), (s.d k / scale) ^ 2 := by
          refine sum_congr rfl fun k hk => ?_
          rw [mem_range] at hk
          rw [hui _ (by omega), if_neg (by omega)]; ring
        rw [this]; ring
      rw [h1, hh]
      nlinarith
    have hud : ∑ k ∈ range i, s.V i k * u k = scale * h := by
      have h1 : ∑ k ∈ range i, s.V i k * u k = scale * (h0 - f ^ 2 + f * (f - g)) := by
        rw [hh0, hlast, hlast, hui _ (by omega), if_pos rfl, ← hf, ← hd _ (by omega)]
        have : ∑ k ∈ range (i - 1), s.V i k * u k = scale * ∑ k ∈ range (i - 1), (s.d k / scale) ^ 2 := by
          rw [mul_sum]
          refine sum_congr rfl fun k hk => ?_
          rw [mem_range] at hk
          rw [hui _ (by omega), if_neg (by omega), ← hd _ (by omega)]
          field_simp
        rw [this, show s.d (i - 1) = scale * f by rw [hf]; field_simp]
        ring
      rw [h1, hh]; ring
    rw [ht]
    set V' : Nat → Nat → ℝ := fun a b => if b < i ∧ b ≤ a ∧ a < i then W a b - (u b * q a + q b * u a) else if a = i ∧ b < i then 0 else W a b with hV'
    set d' : Nat → ℝ := set1 (fun b => if b < i then W (i - 1) b - (u b * q (i - 1) + q b * u (i - 1)) else u b) i h with hd'
    have hcol : ∀ k, k < i → V' k i = u k := by
      intro k hk
      rw [hV']
      dsimp only
      rw [if_neg (by omega), if_neg (by omega), hW]
      dsimp only
      rw [if_pos (by omega)]
    have hdi : d' i = h := by rw [hd', set1_same]
    have hrefl : ∀ y a, a < i → refl V' d' i y a = y a - dot i u y / h * u a := by
      intro y a ha
      unfold refl
      rw [if_pos ha, hdi, hcol a ha]
      congr 3
      unfold dot
      exact sum_congr rfl fun k hk => by rw [hcol k (mem_range.1 hk)]
    have hWs : ∀ a b, b ≠ i → W a b = s.V a b := by
      intro a b hb
      rw [hW]
      dsimp only
      rw [if_neg (by omega)]
    constructor
    · intro a b hb
      show V' a b = _
      rw [hV']
      dsimp only
      rw [if_neg (by omega), if_neg (by omega), hWs _ _ (by omega)]
    · intro a b ha
      show V' a b = _
      rw [hV']
      dsimp only
      rw [if_neg (by omega), if_neg (by omega), hW]
      dsimp only
      rw [if_neg (by omega)]
    · show V' i i = _
      rw [hV']
      dsimp only
      rw [if_neg (by omega), if_neg (by omega), hW]
      dsimp only
      rw [if_neg (by omega)]
    · intro j hj
      show d' j = _
      rw [hd', set1_ne _ _ (by omega)]
      rw [if_neg (by omega), hu, set1_ne _ _ (by omega)]
      rw [if_neg (by omega)]
    · intro j hj
      show q j = _
      rw [hq]
      dsimp only
      rw [if_neg (by omega), hp]
      dsimp only
      rw [if_neg (by omega), he0]
      dsimp only
      rw [if_neg (by omega), set1_ne _ _ (by omega)]
    · intro j hj
      show d' j = V' (i - 1) j
      rw [hd', set1_ne _ _ (by omega), hV']
      dsimp only
      rw [if_pos hj, if_pos (by omega)]
    · intro b hb
      show V' i b = 0
      rw [hV']
      dsimp only
      rw [if_neg (by omega), if_pos (by omega)]
    · show ∑ k ∈ range i, V' k i ^ 2 = 2 * d' i
      rw [hdi, ← huu]
      unfold dot
      exact sum_congr rfl fun k hk => by rw [hcol k (mem_range.1 hk)]; ring
    · intro y
      show dot i (refl V' d' i y) (mv i (sym V') (refl V' d' i y)) = _
      refine reflect_form (sym_comm s.V) hpos.ne' huu p q ?_ ?_ ?_ y _ (hrefl y)
      · intro a ha
        rw [hp]
        dsimp only
        rw [if_pos ha]
      · intro a ha
        rw [hq]
        dsimp only
        rw [if_pos ha]
      · intro a b ha hb
        have hV : ∀ a b, a < i → b < i → b ≤ a → V' a b = s.V a b - (u b * q a + q b * u a) := by
          intro a b ha hb hab
          rw [hV']
          dsimp only
          rw [if_pos ⟨hb, hab, ha⟩, hWs _ _ (by omega)]
        unfold sym
        split
        · exact hV a b ha hb (by assumption)
        · rw [hV b a hb ha (by omega)]; ring
    · intro y
      show _ = q i * refl V' d' i y (i - 1)
      have hqi : q i = scale * g := by
        rw [hq]
        dsimp only
        rw [if_neg (by omega), hp]
        dsimp only
        rw [if_neg (by omega), he0]
        dsimp only
        rw [if_neg (by omega), set1_same]
      -- the row, applied to the reflected vector
      have h1 : ∑ b ∈ range i, s.V i b * y b = scale * (dot i u y + g * y (i - 1)) := by
        unfold dot
        rw [hlast, hlast, hui _ (by omega), if_pos rfl, ← hd _ (by omega), show s.d (i - 1) = scale * f by rw [hf]; field_simp]
        have : ∑ k ∈ range (i - 1), s.V i k * y k = scale * ∑ k ∈ range (i - 1), u k * y k := by
          rw [mul_sum]
          refine sum_congr rfl fun k hk => ?_
          rw [mem_range] at hk
          rw [hui _ (by omega), if_neg (by omega), ← hd _ (by omega)]
          field_simp
        rw [this]; ring
      rw [h1, hqi, hrefl y _ (by omega), hui _ (by omega), if_pos rfl]
      have h2 : g * (f - g) = -h := by rw [hh, ← hgg]; ring
      have h3 : dot i u y = dot i u y / h * h := by field_simp
      linear_combination scale * h3 + scale * (dot i u y / h) * h2

/-! ## The reduction -/

theorem forDown_congr {S : Type} {a b : Nat} {f g : Nat → S → S} (h : ∀ j, a ≤ j → j < b → f j = g j) (s : S) : forDown a b f s = forDown a b g s := by
  rcases Nat.lt_or_ge b a with hab | hab
  · rw [forDown_of_le hab.le, forDown_of_le hab.le]
  · obtain ⟨k, rfl⟩ := Nat.exists_eq_add_of_le hab
    clear hab
    induction k generalizing a with
    | zero => rw [forDown_of_le (by omega), forDown_of_le (by omega)]
    | succ k ih =>
      rw [forDown_cons (by omega) f, forDown_cons (by omega) g, h a le_rfl (by omega)]
      have := ih (a := a + 1) fun j h1 h2 => h j (by omega) (by omega)
      rw [show a + 1 + k = a + (k + 1) by omega] at this
      rw [this]

theorem forDown_snoc {S : Type} {a b : Nat} (h : a ≤ b) (f : Nat → S → S) (s : S) : forDown a (b + 1) f s = forDown a b f (f b s) := by
  unfold forDown
  rw [show b + 1 - a = (b - a) + 1 by omega, List.range'_concat, List.foldr_append]
  simp only [List.foldr_cons, List.foldr_nil, Nat.one_mul]
  rw [show a + (b - a) = b by omega]

theorem refl_congr {V V' : Nat → Nat → ℝ} {d d' : Nat → ℝ} {j : Nat} (hV : ∀ k, k < j → V k j = V' k j) (hd : d j = d' j) : refl V d j = refl V' d' j := by
  funext y a
  unfold refl
  rw [hd]
  split
  · rename_i h
    rw [hV a h]
    congr 3
    exact sum_congr rfl fun k hk => by rw [hV k (mem_range.1 hk)]
  · rfl

theorem refl_high (V : Nat → Nat → ℝ) (d : Nat → ℝ) {j a : Nat} (h : j ≤ a) (y : Nat → ℝ) : refl V d j y a = y a := if_neg (by omega)

theorem refl_norm {V : Nat → Nat → ℝ} {d : Nat → ℝ} {n j : Nat} (hj : j ≤ n) (h : ∑ k ∈ range j, V k j ^ 2 = 2 * d j) (y : Nat → ℝ) :
    sqNorm n (refl V d j y) = sqNorm n y := by
  by_cases h0 : d j = 0
  · have : refl V d j y = y := by
      funext a
      unfold refl
      rw [h0, div_zero, zero_mul, sub_zero, ite_self]
    rw [this]
  · set t := (∑ k ∈ range j, V k j * y k) / d j with ht
    have hs : ∑ k ∈ range j, V k j * y k = t * d j := by rw [ht]; field_simp
    have h1 : sqNorm n (refl V d j y) - sqNorm n y = ∑ k ∈ range n, if k < j then t * (t * V k j ^ 2) - 2 * t * (V k j * y k) else 0 := by
      unfold sqNorm
      rw [← sum_sub_distrib]
      refine sum_congr rfl fun k _ => ?_
      unfold refl
      split
      · rw [← ht]; ring
      · ring
    rw [← sum_lt_eq hj, sum_sub_distrib, ← mul_sum, ← mul_sum, ← mul_sum, h, hs] at h1
    linarith

/-- What holds before round `m - 1` of the reduction of the form `A`. -/
structure HH.Red (n : Nat) (A : (Nat → ℝ) → ℝ) (m : Nat) (s : HH ℝ) : Prop where
  form : ∀ x, A x = (let y := forDown m n (refl s.V s.d) x
    dot m y (mv m (sym s.V) y) + ∑ a ∈ range n, if m ≤ a then s.V a a * y a ^ 2 + 2 * s.e a * y a * y (a - 1) else 0)
  row : ∀ j, j < m → s.d j = s.V (m - 1) j
  norm : ∀ j, m ≤ j → j < n → ∑ k ∈ range j, s.V k j ^ 2 = 2 * s.d j
  zero : ∀ a b, m ≤ a → a < n → b < a → s.V a b = 0

theorem sym_form_succ (i : Nat) (V : Nat → Nat → ℝ) (y : Nat → ℝ) :
    dot (i + 1) y (mv (i + 1) (sym V) y) = dot i y (mv i (sym V) y) + V i i * y i ^ 2 + 2 * y i * ∑ b ∈ range i, V i b * y b := by
  have h1 : ∀ a, a < i → mv (i + 1) (sym V) y a = mv i (sym V) y a + V i a * y i := by
    intro a ha
    unfold mv
    rw [sum_range_succ]
    unfold sym
    rw [if_neg (show ¬ i ≤ a by omega)]
  have h2 : mv (i + 1) (sym V) y i = (∑ b ∈ range i, V i b * y b) + V i i * y i := by
    unfold mv
    rw [sum_range_succ]
    unfold sym
    rw [if_pos le_rfl]
    congr 1
    exact sum_congr rfl fun b hb => by rw [if_pos (mem_range.1 hb).le]
  have h3 : dot (i + 1) y (mv (i + 1) (sym V) y) = ∑ a ∈ range i, y a * (mv i (sym V) y a + V i a * y i) + y i * ((∑ b ∈ range i, V i b * y b) + V i i * y i) := by
    unfold dot
    rw [sum_range_succ, h2]
    congr 1
    exact sum_congr rfl fun a ha => by rw [h1 a (mem_range.1 ha)]
  rw [h3]
  have h4 : ∑ a ∈ range i, y a * (mv i (sym V) y a + V i a * y i) = dot i y (mv i (sym V) y) + y i * ∑ b ∈ range i, V i b * y b := by
    unfold dot
    rw [mul_sum, ← sum_add_distrib]
    exact sum_congr rfl fun a _ => by ring
  rw [h4]; ring

theorem red_step {n i : Nat} {A : (Nat → ℝ) → ℝ} (hi : 1 ≤ i) (hin : i < n) {s : HH ℝ} (h : HH.Red n A (i + 1) s) : HH.Red n A i (s.step i) := by
  have hs := step_spec hi (s := s) (fun j hj => by rw [h.row j (by omega)]; rfl)
  set t := s.step i
  constructor
  · intro x
    dsimp only
    rw [forDown_cons hin, forDown_congr (g := refl s.V s.d) (fun j h1 h2 => refl_congr (fun k hk => hs.right k j (by omega)) (hs.d_hi j (by omega)))]
    rw [h.form x]
    dsimp only
    set y := forDown (i + 1) n (refl s.V s.d) x
    set z := refl t.V t.d i y with hz
    have hzy : ∀ a, i ≤ a → z a = y a := fun a ha => refl_high _ _ ha y
    rw [sym_form_succ, hs.off y, ← hs.form y, ← hz]
    have h1 : (∑ a ∈ range n, if i ≤ a then t.V a a * z a ^ 2 + 2 * t.e a * z a * z (a - 1) else 0) =
        (t.V i i * z i ^ 2 + 2 * t.e i * z i * z (i - 1)) + ∑ a ∈ range n, if i + 1 ≤ a then s.V a a * y a ^ 2 + 2 * s.e a * y a * y (a - 1) else 0 := by
      rw [show t.V i i * z i ^ 2 + 2 * t.e i * z i * z (i - 1) = ∑ a ∈ range n, if a = i then t.V a a * z a ^ 2 + 2 * t.e a * z a * z (a - 1) else 0 by
        rw [sum_ite_eq' (range n) i, if_pos (mem_range.2 hin)], ← sum_add_distrib]
      refine sum_congr rfl fun a _ => ?_
      rcases lt_trichotomy a i with ha | ha | ha
      · rw [if_neg (by omega), if_neg (by omega), if_neg (by omega), add_zero]
      · rw [if_pos (by omega), if_pos ha, if_neg (by omega), add_zero]
      · rw [if_pos (by omega), if_neg (by omega), if_pos (by omega), zero_add, hs.right a a ha, hs.e_hi a ha, hzy a ha.le, hzy (a - 1) (by omega)]
    rw [h1, hs.corner, hzy i le_rfl]
    ring
  · exact hs.d_lo
  · intro j h1 h2
    by_cases hj : j = i
    · rw [hj]; exact hs.norm
    · rw [hs.d_hi j (by omega), ← h.norm j (by omega) h2]
      exact sum_congr rfl fun k _ => by rw [hs.right k j (by omega)]
  · intro a b h1 h2 h3
    by_cases ha : a = i
    · rw [ha]; exact hs.row b (by omega)
    · rw [hs.below a b (by omega)]; exact h.zero a b (by omega) h2 h3

/-! ## The accumulation -/

theorem accumInner_eq (m j : Nat) (g : ℝ) (d : Nat → ℝ) (V : Nat → Nat → ℝ) :
    forUp 0 m (fun k V => set2 V k j (V k j - g * d k)) V = fun a b => if b = j ∧ a < m then V a b - g * d a else V a b := by
  refine forUp_inv (fun k W => W = fun a b => if b = j ∧ a < k then V a b - g * d a else V a b) (Nat.zero_le m) ?_ ?_
  · funext a b; rw [if_neg (by omega)]
  · rintro k _ - - rfl
    funext a b
    unfold set2
    dsimp only
    by_cases h : a = k ∧ b = j
    · obtain ⟨rfl, rfl⟩ := h
      rw [if_pos ⟨rfl, rfl⟩, if_neg (by omega), if_pos (by omega)]
    · rw [if_neg h]
      have : (b = j ∧ a < k + 1) ↔ (b = j ∧ a < k) := by omega
      simp only [this]

theorem accumOuter_eq (m : Nat) (d : Nat → ℝ) (V : Nat → Nat → ℝ) :
    forUp 0 m (fun j V => forUp 0 m (fun k W => set2 W k j (W k j - (∑ k ∈ range m, V k m * V k j) * d k)) V) V =
      fun a b => if b < m ∧ a < m then V a b - (∑ k ∈ range m, V k m * V k b) * d a else V a b := by
  refine forUp_inv (fun j W => W = fun a b => if b < j ∧ a < m then V a b - (∑ k ∈ range m, V k m * V k b) * d a else V a b) (Nat.zero_le m) ?_ ?_
  · funext a b; rw [if_neg (by omega)]
  · rintro j _ - hj rfl
    rw [accumInner_eq]
    have hg : (∑ k ∈ range m, (fun a b => if b < j ∧ a < m then V a b - (∑ k ∈ range m, V k m * V k b) * d a else V a b) k m *
        (fun a b => if b < j ∧ a < m then V a b - (∑ k ∈ range m, V k m * V k b) * d a else V a b) k j) = ∑ k ∈ range m, V k m * V k j := by
      refine sum_congr rfl fun k _ => ?_
      dsimp only
      rw [if_neg (by omega), if_neg (by omega)]
    rw [hg]
    funext a b
    by_cases h : b = j ∧ a < m
    · obtain ⟨rfl, ha⟩ := h
      simp [ha]
    · rw [if_neg h]
      have : (b < j + 1 ∧ a < m) ↔ (b < j ∧ a < m) := by omega
      simp only [this]

/-- One round of the accumulation, `D` being the array in which the quotients are stored. -/
theorem accum_eq (n i : Nat) (s : HH ℝ) : ∃ D : Nat → ℝ, (∀ j, i < j → D j = s.d j) ∧
    s.accum n i = (let V := set2 (set2 s.V (n - 1) i (s.V i i)) i i 1
      { s with
        V := fun a b => if b = i + 1 ∧ a < i + 1 then 0 else
          if b < i + 1 ∧ a < i + 1 then V a b - (∑ k ∈ range (i + 1), V k (i + 1) * V k b) / s.d (i + 1) * V a (i + 1) else V a b
        d := D }) := by
  have hzero : ∀ V : Nat → Nat → ℝ, forUp 0 (i + 1) (fun k V => set2 V k (i + 1) (0 : ℝ)) V = fun a b => if b = i + 1 ∧ a < i + 1 then 0 else V a b := by
    intro V
    refine forUp_inv (fun k W => W = fun a b => if b = i + 1 ∧ a < k then 0 else V a b) (Nat.zero_le (i + 1)) ?_ ?_
    · funext a b; rw [if_neg (by omega)]
    · rintro k _ - - rfl
      funext a b
      unfold set2
      dsimp only
      by_cases h : a = k ∧ b = i + 1
      · rw [if_pos h, if_pos (by omega)]
      · rw [if_neg h]
        have : (b = i + 1 ∧ a < k + 1) ↔ (b = i + 1 ∧ a < k) := by omega
        simp only [this]
  unfold HH.accum
  simp only [eq_real, lit_real, Rat.cast_zero, Rat.cast_one, sumLoop_real]
  set V := set2 (set2 s.V (n - 1) i (s.V i i)) i i 1
  by_cases h : s.d (i + 1) = 0
  · refine ⟨s.d, fun _ _ => rfl, ?_⟩
    rw [if_neg (by simp [h]), hzero]
    simp only [h, div_zero, zero_mul, sub_zero, ite_self]
  · refine ⟨forUp 0 (i + 1) (fun k d => set1 d k (V k (i + 1) / s.d (i + 1))) s.d, ?_, ?_⟩
    · intro j hj
      rw [forUp_set1 0 (i + 1) (fun k _ => V k (i + 1) / s.d (i + 1))]
      dsimp only
      rw [if_neg (by omega)]
    · rw [if_pos (by simp [h]), hzero, accumOuter_eq]
      congr 1
      funext a b
      by_cases h1 : b = i + 1 ∧ a < i + 1
      · rw [if_pos h1, if_pos h1]
      · rw [if_neg h1, if_neg h1]
        dsimp only
        by_cases h2 : b < i + 1 ∧ a < i + 1
        · rw [if_pos h2, if_pos h2, forUp_set1 0 (i + 1) (fun k _ => V k (i + 1) / s.d (i + 1))]
          dsimp only
          rw [if_pos (by omega)]
          ring
        · rw [if_neg h2, if_neg h2]

/-- What holds before round `i` of the accumulation; `V1` and `d1` are the results of the reduction. -/
structure HH.Acc (n : Nat) (V1 : Nat → Nat → ℝ) (d1 e1 : Nat → ℝ) (i : Nat) (s : HH ℝ) : Prop where
  block : ∀ y b, b < i → ∑ a ∈ range i, s.V a b * y a = forDown 1 (i + 1) (refl V1 d1) y b
  right : ∀ a b, i < b → s.V a b = V1 a b
  col : ∀ a, i ≤ a → s.V a i = V1 a i
  col0 : ∀ a, a < i → s.V a i = 0
  rows : ∀ a b, b < i → i ≤ a → a < n - 1 → s.V a b = 0
  saved : ∀ b, b < i → s.V (n - 1) b = V1 b b
  d_hi : ∀ j, i < j → s.d j = d1 j
  e_eq : s.e = e1

theorem forDown_refl_high {V : Nat → Nat → ℝ} {d : Nat → ℝ} {m a : Nat} (h : m ≤ a + 1) (hm : 1 ≤ m) (y : Nat → ℝ) : forDown 1 m (refl V d) y a = y a := by
  refine forDown_inv (fun _ (z : Nat → ℝ) => z a = y a) hm rfl ?_
  intro j z h1 h2 hz
  rw [refl_high _ _ (by omega), hz]

theorem acc_step {n i : Nat} {V1 : Nat → Nat → ℝ} {d1 e1 : Nat → ℝ} (hi : i < n - 1) (hz : ∀ a b, 1 ≤ a → a < n → b < a → V1 a b = 0) {s : HH ℝ}
    (h : HH.Acc n V1 d1 e1 i s) : HH.Acc n V1 d1 e1 (i + 1) (s.accum n i) := by
  obtain ⟨D, hD, heq⟩ := accum_eq n i s
  set V := set2 (set2 s.V (n - 1) i (s.V i i)) i i 1 with hV
  have hVii : V i i = 1 := by rw [hV, set2_same]
  have hVsave : V (n - 1) i = s.V i i := by rw [hV, set2_ne _ _ (by omega), set2_same]
  have hVne : ∀ a b, b ≠ i → V a b = s.V a b := by
    intro a b hb
    rw [hV, set2_ne _ _ (by omega), set2_ne _ _ (by omega)]
  have hVi : ∀ a, a ≠ i → a ≠ n - 1 → V a i = s.V a i := by
    intro a h1 h2
    rw [hV, set2_ne _ _ (by omega), set2_ne _ _ (by omega)]
  rw [heq]
  dsimp only
  constructor
  · intro y b hb
    show ∑ a ∈ range (i + 1), _ = _
    -- the vector of the reflection
    have hu : ∀ a, a < i + 1 → V a (i + 1) = V1 a (i + 1) := fun a _ => by rw [hVne _ _ (by omega), h.right a _ (by omega)]
    have hd : s.d (i + 1) = d1 (i + 1) := h.d_hi _ (by omega)
    set z := refl V1 d1 (i + 1) y with hzd
    have h1 : ∀ w : Nat → ℝ, ∀ b, b < i + 1 → ∑ a ∈ range (i + 1), V a b * w a = forDown 1 (i + 1) (refl V1 d1) w b := by
      intro w b hb
      rw [sum_range_succ]
      by_cases hbi : b = i
      · rw [hbi, hVii, one_mul, forDown_refl_high le_rfl (by omega), sum_eq_zero, zero_add]
        intro a ha
        rw [mem_range] at ha
        rw [hVi _ (by omega) (by omega), h.col0 a ha, zero_mul]
      · rw [hVne i b hbi, h.rows i b (by omega) le_rfl hi, zero_mul, add_zero, ← h.block w b (by omega)]
        exact sum_congr rfl fun a _ => by rw [hVne a b hbi]
    rw [forDown_snoc (by omega), ← hzd, ← h1 z b hb]
    have h2 : ∀ a ∈ range (i + 1), (if b = i + 1 ∧ a < i + 1 then 0 else
        if b < i + 1 ∧ a < i + 1 then V a b - (∑ k ∈ range (i + 1), V k (i + 1) * V k b) / s.d (i + 1) * V a (i + 1) else V a b) * y a =
        V a b * y a - (∑ k ∈ range (i + 1), V1 k (i + 1) * V k b) / d1 (i + 1) * (V1 a (i + 1) * y a) := by
      intro a ha
      rw [mem_range] at ha
      rw [if_neg (by omega), if_pos ⟨hb, ha⟩, hu a ha, hd, sum_congr rfl fun k hk => by rw [hu k (mem_range.1 hk)]]
      ring
    rw [sum_congr rfl h2]
    have h3 : ∀ a ∈ range (i + 1), V a b * z a = V a b * y a - (∑ k ∈ range (i + 1), V1 k (i + 1) * y k) / d1 (i + 1) * (V1 a (i + 1) * V a b) := by
      intro a ha
      rw [mem_range] at ha
      rw [hzd]
      unfold refl
      rw [if_pos ha]
      ring
    rw [sum_congr rfl h3, sum_sub_distrib, sum_sub_distrib, ← mul_sum, ← mul_sum]
    ring
  · intro a b hb
    show (if _ then _ else _) = _
    rw [if_neg (by omega), if_neg (by omega), hVne _ _ (by omega), h.right a b (by omega)]
  · intro a ha
    show (if _ then _ else _) = _
    rw [if_neg (by omega), if_neg (by omega), hVne _ _ (by omega), h.right a _ (by omega)]
  · intro a ha
    show (if _ then _ else _) = _
    rw [if_pos ⟨rfl, ha⟩]
  · intro a b hb h1 h2
    show (if _ then _ else _) = _
    rw [if_neg (by omega), if_neg (by omega)]
    by_cases hbi : b = i
    · rw [hbi, hVi a (by omega) (by omega), h.col a (by omega), hz a i (by omega) (by omega) (by omega)]
    · rw [hVne a b hbi, h.rows a b (by omega) (by omega) h2]
  · intro b hb
    show (if _ then _ else _) = _
    rw [if_neg (by omega), if_neg (by omega)]
    by_cases hbi : b = i
    · rw [hbi, hVsave, h.col i le_rfl]
    · rw [hVne _ b hbi, h.saved b (by omega)]
  · intro j hj
    show D j = _
    rw [hD j (by omega), h.d_hi j (by omega)]
  · exact h.e_eq

/-- `Householder2`: for a symmetric matrix, orthogonal coordinates in which its form is tridiagonal. -/
theorem householder_spec {n : Nat} (hn : 1 ≤ n) (s : HH ℝ) :
    (∀ x, sqNorm n (coord n (householder2 n s).V x) = sqNorm n x) ∧
    ∀ x, dot n x (mv n (sym s.V) x) =
      triForm n (householder2 n s).d (fun j => if j + 1 < n then (householder2 n s).e (j + 1) else 0) (coord n (householder2 n s).V x) := by
  -- the reduction
  set s0 : HH ℝ := { s with d := forUp 0 n (fun j d => set1 d j (s.V (n - 1) j)) s.d } with hs0
  have hred0 : HH.Red n (fun x => dot n x (mv n (sym s.V) x)) n s0 := by
    constructor
    · intro x
      dsimp only
      rw [forDown_of_le le_rfl, sum_eq_zero, add_zero]
      intro a ha
      rw [mem_range] at ha
      rw [if_neg (by omega)]
    · intro j hj
      show forUp 0 n (fun j d => set1 d j (s.V (n - 1) j)) s.d j = s.V (n - 1) j
      rw [forUp_set1 0 n (fun j _ => s.V (n - 1) j)]
      dsimp only
      rw [if_pos ⟨Nat.zero_le _, hj⟩]
    · intro j h1 h2; omega
    · intro a b h1 h2; omega
  have hred : HH.Red n (fun x => dot n x (mv n (sym s.V) x)) 1 (forDown 1 n HH.step s0) :=
    forDown_inv (fun m t => HH.Red n (fun x => dot n x (mv n (sym s.V) x)) m t) hn hred0 fun i t h1 h2 h => red_step h1 h2 h
  set s1 := forDown 1 n HH.step s0 with hs1
  -- the accumulation
  have hacc0 : HH.Acc n s1.V s1.d s1.e 0 s1 :=
    ⟨fun y b hb => by omega, fun _ _ _ => rfl, fun _ _ => rfl, fun a ha => by omega, fun a b hb => by omega, fun b hb => by omega, fun _ _ => rfl, rfl⟩
  have hacc : HH.Acc n s1.V s1.d s1.e (n - 1) (forUp 0 (n - 1) (HH.accum n) s1) :=
    forUp_inv (fun i t => HH.Acc n s1.V s1.d s1.e i t) (Nat.zero_le _) hacc0 fun i t _ h2 h => acc_step h2 hred.zero h
  set s2 := forUp 0 (n - 1) (HH.accum n) s1 with hs2
  -- the end
  have hend : forUp 0 n (fun j (s : HH ℝ) => { s with d := set1 s.d j (s.V (n - 1) j), V := set2 s.V (n - 1) j (lit 0) }) s2 =
      { s2 with d := fun j => if j < n then s2.V (n - 1) j else s2.d j, V := fun a b => if a = n - 1 ∧ b < n then 0 else s2.V a b } := by
    refine forUp_inv (fun m (t : HH ℝ) => t = { s2 with d := fun j => if j < m then s2.V (n - 1) j else s2.d j, V := fun a b => if a = n - 1 ∧ b < m then 0 else s2.V a b })
      (Nat.zero_le n) ?_ ?_
    · simp
    · rintro m _ - - rfl
      dsimp only
      congr 1
      · funext a b
        unfold set2
        by_cases h : a = n - 1 ∧ b = m
        · rw [if_pos h, if_pos (by omega)]; simp
        · rw [if_neg h]
          have : (a = n - 1 ∧ b < m + 1) ↔ (a = n - 1 ∧ b < m) := by omega
          simp only [this]
      · funext j
        by_cases h : j = m
        · subst h
          rw [set1_same, if_neg (by omega), if_pos (by omega)]
        · rw [set1_ne _ _ h]
          have : j < m + 1 ↔ j < m := by omega
          simp only [this]
  have hres : householder2 n s = { V := set2 (fun a b => if a = n - 1 ∧ b < n then 0 else s2.V a b) (n - 1) (n - 1) 1
                                   d := fun j => if j < n then s2.V (n - 1) j else s2.d j
                                   e := set1 s2.e 0 0 } := by
    unfold householder2
    dsimp only
    rw [← hs0, ← hs1, ← hs2, hend]
    simp only [lit_real, Rat.cast_zero, Rat.cast_one]
  set V' := set2 (fun a b => if a = n - 1 ∧ b < n then 0 else s2.V a b) (n - 1) (n - 1) 1 with hV'
  have hsum : ∀ F : Nat → ℝ, ∑ k ∈ range n, F k = ∑ k ∈ range (n - 1), F k + F (n - 1) := by
    intro F
    conv_lhs => rw [show n = (n - 1) + 1 by omega]
    rw [sum_range_succ]
  have hcoord : ∀ x b, b < n → coord n V' x b = forDown 1 n (refl s1.V s1.d) x b := by
    intro x b hb
    unfold coord
    rw [hsum]
    by_cases hbn : b = n - 1
    · rw [hbn, forDown_refl_high (by omega) hn]
      rw [hV', set2_same, one_mul, sum_eq_zero, zero_add]
      intro a ha
      rw [mem_range] at ha
      rw [set2_ne _ _ (by omega)]
      rw [if_neg (by omega), hacc.col0 a ha, zero_mul]
    · have h1 := hacc.block x b (by omega)
      rw [show n - 1 + 1 = n by omega] at h1
      rw [← h1, hV', set2_ne _ _ (by omega)]
      rw [if_pos ⟨rfl, hb⟩, zero_mul, add_zero]
      refine sum_congr rfl fun a ha => ?_
      rw [mem_range] at ha
      rw [set2_ne _ _ (by omega)]
      rw [if_neg (by omega)]
  have hnorm : ∀ x, sqNorm n (forDown 1 n (refl s1.V s1.d) x) = sqNorm n x := by
    intro x
    refine forDown_inv (fun _ (z : Nat → ℝ) => sqNorm n z = sqNorm n x) hn rfl ?_
    intro j z h1 h2 hz
    rw [refl_norm h2.le (hred.norm j h1 h2), hz]
  have hd : ∀ j, j < n → (householder2 n s).d j = s1.V j j := by
    intro j hj
    rw [hres]
    dsimp only
    rw [if_pos hj]
    by_cases h : j = n - 1
    · rw [h, hacc.col _ le_rfl]
    · exact hacc.saved j (by omega)
  have he : ∀ j, 1 ≤ j → (householder2 n s).e j = s1.e j := by
    intro j hj
    rw [hres]
    dsimp only
    rw [set1_ne _ _ (by omega), hacc.e_eq]
  have hVV : (householder2 n s).V = V' := by rw [hres]
  constructor
  · intro x
    rw [hVV, ← hnorm x]
    unfold sqNorm
    exact sum_congr rfl fun b hb => by rw [hcoord x b (mem_range.1 hb)]
  · intro x
    have h1 := hred.form x
    dsimp only at h1
    rw [h1]
    set y := forDown 1 n (refl s1.V s1.d) x with hy
    unfold triForm
    rw [hVV]
    obtain ⟨k, rfl⟩ : ∃ k, n = k + 1 := ⟨n - 1, by omega⟩
    rw [sum_range_succ' _ k, if_neg (by omega), add_zero, sum_add_distrib]
    have h2 : dot 1 y (mv 1 (sym s1.V) y) = s1.V 0 0 * y 0 ^ 2 := by
      unfold dot mv sym
      simp
      ring
    rw [h2]
    have h3 : ∑ j ∈ range (k + 1), (householder2 (k + 1) s).d j * coord (k + 1) V' x j ^ 2 = ∑ j ∈ range k, s1.V (j + 1) (j + 1) * y (j + 1) ^ 2 + s1.V 0 0 * y 0 ^ 2 := by
      rw [sum_range_succ', hd 0 (by omega), hcoord x 0 (by omega)]
      congr 1
      refine sum_congr rfl fun j hj => ?_
      rw [mem_range] at hj
      rw [hd _ (by omega), hcoord x _ (by omega)]
    have h4 : ∑ j ∈ range (k + 1), 2 * (if j + 1 < k + 1 then (householder2 (k + 1) s).e (j + 1) else 0) * coord (k + 1) V' x j * coord (k + 1) V' x (j + 1) =
        ∑ j ∈ range k, 2 * s1.e (j + 1) * y (j + 1) * y j := by
      rw [sum_range_succ, if_neg (by omega)]
      simp only [mul_zero, zero_mul, add_zero]
      refine sum_congr rfl fun j hj => ?_
      rw [mem_range] at hj
      rw [if_pos (by omega), he _ (by omega), hcoord x _ (by omega), hcoord x _ (by omega)]
      ring
    rw [h3, h4]
    have h5 : (∑ j ∈ range k, if 1 ≤ j + 1 then s1.V (j + 1) (j + 1) * y (j + 1) ^ 2 + 2 * s1.e (j + 1) * y (j + 1) * y (j + 1 - 1) else 0) =
        ∑ j ∈ range k, s1.V (j + 1) (j + 1) * y (j + 1) ^ 2 + ∑ j ∈ range k, 2 * s1.e (j + 1) * y (j + 1) * y j := by
      rw [← sum_add_distrib]
      refine sum_congr rfl fun j _ => ?_
      rw [if_pos (by omega)]
      rfl
    rw [h5]
    ring

end Spot
