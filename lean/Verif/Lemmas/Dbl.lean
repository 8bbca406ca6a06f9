import Verif.Num.Dbl
import Verif.Lemmas.Rounded

namespace Spot.Dbl

@[simp] theorem lt_fin (a b : ℚ) : lt (fin a) (fin b) = decide (a < b) := rfl
@[simp] theorem le_fin (a b : ℚ) : le (fin a) (fin b) = decide (a ≤ b) := rfl
@[simp] theorem eq_fin (a b : ℚ) : eq (fin a) (fin b) = decide (a = b) := rfl
@[simp] theorem nan_lt (a : Dbl) : lt nan a = false := rfl
@[simp] theorem lt_nan (a : Dbl) : lt a nan = false := by cases a <;> rfl
@[simp] theorem nan_le (a : Dbl) : le nan a = false := rfl
@[simp] theorem le_nan (a : Dbl) : le a nan = false := by cases a <;> rfl
@[simp] theorem nan_eq (a : Dbl) : eq nan a = false := rfl
@[simp] theorem eq_nan (a : Dbl) : eq a nan = false := by cases a <;> rfl

theorem isNaN_iff (a : Dbl) : a.isNaN = true ↔ a = nan := by cases a <;> simp [isNaN]
theorem isNaN_false_iff (a : Dbl) : a.isNaN = false ↔ a ≠ nan := by cases a <;> simp [isNaN]

theorem eq_iff (a b : Dbl) : eq a b = true ↔ a = b ∧ a ≠ nan := by
  cases a <;> cases b <;> simp [eq]

theorem eq_self_iff (a : Dbl) : eq a a = true ↔ a ≠ nan := by simp [eq_iff]

theorem lt_irrefl (a : Dbl) : lt a a = false := by cases a <;> simp [lt]

theorem lt_trans {a b c : Dbl} (h : lt a b = true) (h' : lt b c = true) : lt a c = true := by
  cases a <;> cases b <;> cases c <;> simp_all [lt]
  exact h.trans h'

theorem le_trans {a b c : Dbl} (h : le a b = true) (h' : le b c = true) : le a c = true := by
  cases a <;> cases b <;> cases c <;> simp_all [le]
  exact h.trans h'

theorem lt_asymm {a b : Dbl} (h : lt a b = true) : lt b a = false := by
  cases a <;> cases b <;> simp_all [lt]
  exact h.le

theorem le_of_lt {a b : Dbl} (h : lt a b = true) : le a b = true := by
  cases a <;> cases b <;> simp_all [lt, le]
  exact h.le

theorem le_antisymm {a b : Dbl} (h : le a b = true) (h' : le b a = true) : a = b := by
  cases a <;> cases b <;> simp_all [le]
  exact _root_.le_antisymm h h'

theorem lt_of_lt_of_le {a b c : Dbl} (h : lt a b = true) (h' : le b c = true) : lt a c = true := by
  cases a <;> cases b <;> cases c <;> simp_all [lt, le]
  exact h.trans_le h'

theorem lt_of_le_of_lt {a b c : Dbl} (h : le a b = true) (h' : lt b c = true) : lt a c = true := by
  cases a <;> cases b <;> cases c <;> simp_all [lt, le]
  exact h.trans_lt h'

theorem not_lt {a b : Dbl} (ha : a ≠ nan) (hb : b ≠ nan) : lt a b = false ↔ le b a = true := by
  cases a <;> cases b <;> simp_all [lt, le]

theorem not_le {a b : Dbl} (ha : a ≠ nan) (hb : b ≠ nan) : le a b = false ↔ lt b a = true := by
  cases a <;> cases b <;> simp_all [lt, le]

theorem le_iff {a b : Dbl} : le a b = true ↔ (a ≠ nan ∧ b ≠ nan) ∧ lt b a = false := by
  cases a <;> cases b <;> simp [lt, le]

theorem le_refl {a : Dbl} (h : a ≠ nan) : le a a = true := by cases a <;> simp_all [le]

theorem le_total {a b : Dbl} (ha : a ≠ nan) (hb : b ≠ nan) : le a b = true ∨ le b a = true := by
  cases a <;> cases b <;> simp_all [le]
  exact _root_.le_total _ _

theorem ne_nan_of_le_left {a b : Dbl} (h : le a b = true) : a ≠ nan := by rintro rfl; simp at h
theorem ne_nan_of_le_right {a b : Dbl} (h : le a b = true) : b ≠ nan := by rintro rfl; simp at h
theorem ne_nan_of_lt_left {a b : Dbl} (h : lt a b = true) : a ≠ nan := by rintro rfl; simp at h
theorem ne_nan_of_lt_right {a b : Dbl} (h : lt a b = true) : b ≠ nan := by rintro rfl; simp at h

theorem le_max_left {a b : Dbl} (ha : a ≠ nan) : le a (max a b) = true := by
  unfold max; split
  · exact le_of_lt ‹_›
  · exact le_refl ha

theorem le_max_right {a b : Dbl} (ha : a ≠ nan) (hb : b ≠ nan) : le b (max a b) = true := by
  unfold max; split
  · exact le_refl hb
  · rename_i h; exact (not_lt ha hb).1 (by simpa using h)

end Spot.Dbl
