import Verif.Model.Boundary
import Verif.Lemmas.Arith
import Verif.Lemmas.Dbl
import Verif.Lemmas.Cma
import Mathlib.Tactic.FieldSimp

/-!
# Boundary transformers (C57, C58)

Exact arithmetic, except where it says floating point.
-/

namespace Spot

/-- The transformation of one parameter that is meant: reflect between `lb - al` and `ub + au`, then bend the ends. -/
structure Reflected (a b x y : ℝ) : Prop where
  within : a ≤ y ∧ y ≤ b
  /-- `y` is a mirror image of `x`, or `x` itself, up to a multiple of twice the width. -/
  image : ∃ k : ℤ, y = x + k * (2 * (b - a)) ∨ y = 2 * a - x + k * (2 * (b - a))

/-- Exact arithmetic: the parameters of the transformation for the bounds `lb < ub`. -/
structure BtPar.Good (p : BtPar ℝ) : Prop where
  lt : p.lb < p.ub
  al : p.al = min ((p.ub - p.lb) / 2) ((1 + |p.lb|) / 20)
  au : p.au = min ((p.ub - p.lb) / 2) ((1 + |p.ub|) / 20)

theorem fmin_real (a b : ℝ) : fmin a b = min a b := by
  unfold fmin
  simp only [eq_real, decide_true, Bool.not_true, Bool.false_eq_true, if_false, lt_real, decide_eq_true_eq]
  split
  · next h => rw [min_eq_right h.le]
  · next h => rw [min_eq_left (not_lt.mp h)]

theorem BtPar.make_good {lb ub : ℝ} {p : BtPar ℝ} (h : BtPar.make lb ub = .ok p) : p.Good ∧ p.lb = lb ∧ p.ub = ub := by
  unfold BtPar.make at h
  split at h
  · cases h
  · next hc =>
    simp only [eq_real, lt_real, Bool.or_eq_true, decide_eq_true_eq, not_or, not_lt] at hc
    simp only [Res.ok.injEq] at h
    subst h
    refine ⟨⟨lt_of_le_of_ne hc.2 hc.1, ?_, ?_⟩, rfl, rfl⟩
    · simp [fmin_real]
    · simp [fmin_real]

namespace BtPar
variable {p : BtPar ℝ}

theorem Good.al_pos (h : p.Good) : 0 < p.al := by
  rw [h.al]; have := h.lt
  exact lt_min (by linarith) (by positivity)
theorem Good.au_pos (h : p.Good) : 0 < p.au := by
  rw [h.au]; have := h.lt
  exact lt_min (by linarith) (by positivity)
theorem Good.al_le (h : p.Good) : p.al ≤ (p.ub - p.lb) / 2 := by rw [h.al]; exact min_le_left _ _
theorem Good.au_le (h : p.Good) : p.au ≤ (p.ub - p.lb) / 2 := by rw [h.au]; exact min_le_left _ _

theorem period_eq (p : BtPar ℝ) : p.period = 2 * (p.ub + p.au - (p.lb - p.al)) := by
  unfold period; simp only [lit_real]; push_cast; ring
theorem xlow_eq (p : BtPar ℝ) : p.xlow = p.lb - 2 * p.al - (p.ub - p.lb) / 2 := by
  unfold xlow; simp only [lit_real]; push_cast; ring
theorem xup_eq (p : BtPar ℝ) : p.xup = p.ub + 2 * p.au + (p.ub - p.lb) / 2 := by
  unfold xup; simp only [lit_real]; push_cast; ring
theorem period_eq' (p : BtPar ℝ) : p.period = p.xup - p.xlow := by rw [period_eq, xlow_eq, xup_eq]; ring
theorem Good.period_pos (h : p.Good) : 0 < p.period := by
  rw [period_eq]; have := h.al_pos; have := h.au_pos; have := h.lt; linarith

end BtPar

/-- `1 + (int)v` of a non-negative real number. -/
theorem onePlusInt_real (v : ℝ) (hv : 0 ≤ v) :
    onePlusInt v = if v < 2147483647 then .ok (1 + ⌊v⌋) else .ub := by
  have hf : (0 : ℤ) ≤ ⌊v⌋ := Int.floor_nonneg.mpr hv
  unfold onePlusInt
  have ht : (Arith.trunc v : Option Int) = if fitsInt ⌊v⌋ then some ⌊v⌋ else none := by
    show (let z := if 0 ≤ v then ⌊v⌋ else ⌈v⌉; if fitsInt z then some z else none) = _
    simp [hv]
  rw [ht]
  by_cases hlt : v < 2147483647
  · have h1 : ⌊v⌋ < 2147483647 := by
      rw [Int.floor_lt]; exact_mod_cast hlt
    rw [if_pos (show fitsInt ⌊v⌋ by unfold fitsInt; omega), if_pos hlt]
    dsimp only
    rw [if_pos (show fitsInt (1 + ⌊v⌋) by unfold fitsInt; omega)]
  · have h1 : 2147483647 ≤ ⌊v⌋ := by
      rw [Int.le_floor]; push_cast; exact not_lt.mp hlt
    rw [if_neg hlt]
    by_cases h2 : fitsInt ⌊v⌋
    · rw [if_pos h2]
      dsimp only
      rw [if_neg (show ¬ fitsInt (1 + ⌊v⌋) by unfold fitsInt; omega)]
    · rw [if_neg h2]

namespace BtPar
variable {p : BtPar ℝ}

/-- The arguments for which the conversions to `int` are defined. -/
def InRange (p : BtPar ℝ) (x : ℝ) : Prop := p.xlow - 2147483647 * p.period < x ∧ x < p.xup + 2147483647 * p.period

theorem mirror_reflected (h : p.Good) {y : ℝ} (hy : p.xlow ≤ y ∧ y ≤ p.xup) : Reflected (p.lb - p.al) (p.ub + p.au) y (p.mirror y) := by
  have h1 := h.al_pos; have h2 := h.au_pos; have h3 := h.lt; have h4 := h.al_le; have h5 := h.au_le
  rw [xlow_eq, xup_eq] at hy
  unfold mirror
  simp only [lt_real, lit_real, decide_eq_true_eq]
  push_cast
  by_cases c1 : y < p.lb - p.al
  · rw [if_pos c1]
    rw [if_neg (by linarith [hy.1])]
    exact ⟨⟨by linarith, by linarith [hy.1]⟩, 0, Or.inr (by push_cast; ring)⟩
  · rw [if_neg c1]
    by_cases c2 : p.ub + p.au < y
    · rw [if_pos c2]
      exact ⟨⟨by linarith [hy.2], by linarith⟩, 1, Or.inr (by push_cast; ring)⟩
    · rw [if_neg c2]
      exact ⟨⟨by linarith, by linarith⟩, 0, Or.inl (by push_cast; ring)⟩

theorem _root_.Spot.Reflected.shifted {a b x y z : ℝ} (h : Reflected a b y z) {k : ℤ} (hk : y = x + k * (2 * (b - a))) : Reflected a b x z := by
  refine ⟨h.within, ?_⟩
  obtain ⟨m, hm | hm⟩ := h.image
  · exact ⟨m + k, Or.inl (by rw [hm, hk]; push_cast; ring)⟩
  · exact ⟨m - k, Or.inr (by rw [hm, hk]; push_cast; ring)⟩

theorem up_down (h : p.Good) (x : ℝ) :
    (p.InRange x → ∃ y, (BtPar.up p.xlow p.period x >>= fun y => BtPar.down p.xup p.period y) = .ok y ∧ p.xlow ≤ y ∧ y ≤ p.xup ∧
      ∃ k : ℤ, y = x + k * p.period) ∧
    (¬ p.InRange x → (BtPar.up p.xlow p.period x >>= fun y => BtPar.down p.xup p.period y) = .ub) := by
  have hr := h.period_pos
  have hp := p.period_eq'
  unfold up
  simp only [lt_real, decide_eq_true_eq, lit_real]
  by_cases c1 : x < p.xlow
  · rw [if_pos c1]
    have hv : 0 ≤ (p.xlow - x) / p.period := div_nonneg (by linarith) hr.le
    rw [onePlusInt_real _ hv]
    have hiff : (p.xlow - x) / p.period < 2147483647 ↔ p.InRange x := by
      rw [div_lt_iff₀ hr]; unfold InRange
      constructor
      · intro h1; exact ⟨by linarith, by nlinarith⟩
      · intro h1; linarith [h1.1]
    by_cases c2 : (p.xlow - x) / p.period < 2147483647
    · rw [if_pos c2]
      simp only [Res.ok_bind]
      have f1 := Int.floor_le ((p.xlow - x) / p.period)
      have f2 := Int.lt_floor_add_one ((p.xlow - x) / p.period)
      set f := ⌊(p.xlow - x) / p.period⌋ with hf
      rw [le_div_iff₀ hr] at f1
      rw [div_lt_iff₀ hr] at f2
      have e1 : p.xlow ≤ x + p.period * ((1 + f : ℤ) : ℚ) := by push_cast; nlinarith
      have e2 : x + p.period * ((1 + f : ℤ) : ℚ) ≤ p.xup := by push_cast; nlinarith
      refine ⟨fun _ => ?_, fun hn => absurd (hiff.mp c2) hn⟩
      unfold down
      simp only [lt_real, decide_eq_true_eq, lit_real]
      rw [if_neg (not_lt.mpr e2)]
      exact ⟨_, rfl, e1, e2, 1 + f, by push_cast; ring⟩
    · rw [if_neg c2]
      exact ⟨fun hi => absurd (hiff.mpr hi) c2, fun _ => rfl⟩
  · rw [if_neg c1]
    simp only [Res.ok_bind]
    unfold down
    simp only [lt_real, decide_eq_true_eq, lit_real]
    by_cases c3 : p.xup < x
    · rw [if_pos c3]
      have hv : 0 ≤ (x - p.xup) / p.period := div_nonneg (by linarith) hr.le
      rw [onePlusInt_real _ hv]
      have hiff : (x - p.xup) / p.period < 2147483647 ↔ p.InRange x := by
        rw [div_lt_iff₀ hr]; unfold InRange
        constructor
        · intro h1; exact ⟨by nlinarith, by linarith⟩
        · intro h1; linarith [h1.2]
      by_cases c2 : (x - p.xup) / p.period < 2147483647
      · rw [if_pos c2]
        simp only [Res.ok_bind]
        have f1 := Int.floor_le ((x - p.xup) / p.period)
        have f2 := Int.lt_floor_add_one ((x - p.xup) / p.period)
        set f := ⌊(x - p.xup) / p.period⌋ with hf
        rw [le_div_iff₀ hr] at f1
        rw [div_lt_iff₀ hr] at f2
        refine ⟨fun _ => ⟨_, rfl, ?_, ?_, -(1 + f), ?_⟩, fun hn => absurd (hiff.mp c2) hn⟩
        · push_cast; nlinarith
        · push_cast; nlinarith
        · push_cast; ring
      · rw [if_neg c2]
        exact ⟨fun hi => absurd (hiff.mpr hi) c2, fun _ => rfl⟩
    · rw [if_neg c3]
      refine ⟨fun _ => ⟨x, rfl, not_lt.mp c1, not_lt.mp c3, 0, by simp⟩, fun hn => absurd ?_ hn⟩
      exact ⟨by nlinarith [not_lt.mp c1], by nlinarith [not_lt.mp c3]⟩

theorem shift_eq (p : BtPar ℝ) (x : ℝ) :
    p.shift x = ((BtPar.up p.xlow p.period x >>= fun y => BtPar.down p.xup p.period y) >>= fun y => .ok (p.mirror y)) := by
  unfold shift
  cases BtPar.up p.xlow p.period x <;> rfl

theorem shift_spec (h : p.Good) (x : ℝ) :
    (p.InRange x → ∃ y, p.shift x = .ok y ∧ Reflected (p.lb - p.al) (p.ub + p.au) x y) ∧ (¬ p.InRange x → p.shift x = .ub) := by
  obtain ⟨h1, h2⟩ := up_down h x
  rw [shift_eq]
  refine ⟨fun hi => ?_, fun hi => by rw [h2 hi]; rfl⟩
  obtain ⟨y, hy, l1, l2, k, hk⟩ := h1 hi
  rw [hy]
  exact ⟨_, rfl, (mirror_reflected h ⟨l1, l2⟩).shifted (k := k) (by rw [hk, period_eq])⟩

theorem bug_false (y : ℝ) (h : p.lb - p.al ≤ y ∧ y ≤ p.ub + p.au) : p.bug y = false := by
  unfold bug
  simp only [lt_real, lit_real, Bool.or_eq_false_iff, decide_eq_false_iff_not, not_lt]
  push_cast
  constructor <;> linarith [h.1, h.2]

/-- The bent ends. -/
noncomputable def bend (lb ub al au u : ℝ) : ℝ :=
  if u < lb + al then lb + (u - (lb - al)) ^ 2 / (4 * al) else if ub - au < u then ub - (ub + au - u) ^ 2 / (4 * au) else u

theorem squash_eq (y : ℝ) : p.squash y = bend p.lb p.ub p.al p.au y := by
  unfold squash bend
  simp only [lt_real, lit_real, decide_eq_true_eq]
  split
  · rw [div_div]; push_cast; ring
  · split
    · rw [div_div]; push_cast; ring
    · rfl

theorem preimage_spec (h : p.Good) (x : ℝ) :
    (p.InRange x → ∃ y, p.preimage x = .ok (y, false) ∧ Reflected (p.lb - p.al) (p.ub + p.au) x y) ∧ (¬ p.InRange x → p.preimage x = .ub) := by
  obtain ⟨h1, h2⟩ := shift_spec h x
  unfold preimage
  refine ⟨fun hi => ?_, fun hi => by rw [h2 hi]; rfl⟩
  obtain ⟨y, hy, hr⟩ := h1 hi
  refine ⟨y, ?_, hr⟩
  rw [hy, Res.ok_bind, bug_false y hr.within]
  rfl

/-- The bent ends stay between the bounds. -/
theorem bend_within (h : p.Good) {y : ℝ} (hy : p.lb - p.al ≤ y ∧ y ≤ p.ub + p.au) : p.lb ≤ bend p.lb p.ub p.al p.au y ∧ bend p.lb p.ub p.al p.au y ≤ p.ub := by
  have h1 := h.al_pos; have h2 := h.au_pos; have h3 := h.lt; have h4 := h.al_le; have h5 := h.au_le
  unfold bend
  split
  · next c =>
    have e : (y - (p.lb - p.al)) ^ 2 / (4 * p.al) ≤ p.al := by
      rw [div_le_iff₀ (by linarith)]; nlinarith [hy.1]
    have e2 : 0 ≤ (y - (p.lb - p.al)) ^ 2 / (4 * p.al) := by positivity
    constructor <;> linarith
  · next c =>
    split
    · next c2 =>
      have e : (p.ub + p.au - y) ^ 2 / (4 * p.au) ≤ p.au := by
        rw [div_le_iff₀ (by linarith)]; nlinarith [hy.2]
      have e2 : 0 ≤ (p.ub + p.au - y) ^ 2 / (4 * p.au) := by positivity
      constructor <;> linarith
    · constructor <;> linarith

/-- Three pieces of an increasing function. -/
theorem bend_strictMono (h : p.Good) {x y : ℝ} (hx : p.lb - p.al ≤ x) (hxy : x < y) (hy : y ≤ p.ub + p.au) :
    bend p.lb p.ub p.al p.au x < bend p.lb p.ub p.al p.au y ∧ bend p.lb p.ub p.al p.au y - bend p.lb p.ub p.al p.au x ≤ y - x := by
  have h1 := h.al_pos; have h2 := h.au_pos; have h3 := h.lt; have h4 := h.al_le; have h5 := h.au_le
  obtain ⟨al, au, lb, ub⟩ : ∃ al au lb ub, al = p.al ∧ au = p.au ∧ lb = p.lb ∧ ub = p.ub := ⟨_, _, _, _, rfl, rfl, rfl, rfl⟩
  have lowv : ∀ u, (u - (p.lb - p.al)) ^ 2 / (4 * p.al) = u - p.lb + (p.lb + p.al - u) ^ 2 / (4 * p.al) := by
    intro u; field_simp; ring
  have upv : ∀ u, (p.ub + p.au - u) ^ 2 / (4 * p.au) = p.ub - u + (u - (p.ub - p.au)) ^ 2 / (4 * p.au) := by
    intro u; field_simp; ring
  -- bend u = u + (positive part of the distance to the lower bend)^2/(4 al) - (the same at the upper bend)
  have key : ∀ u, bend p.lb p.ub p.al p.au u = u + (max (p.lb + p.al - u) 0) ^ 2 / (4 * p.al) - (max (u - (p.ub - p.au)) 0) ^ 2 / (4 * p.au) := by
    intro u
    unfold bend
    split
    · next c => rw [lowv, max_eq_left (by linarith), max_eq_right (by linarith)]; ring
    · next c =>
      split
      · next c2 => rw [upv, max_eq_right (by linarith), max_eq_left (by linarith)]; ring
      · next c2 => rw [max_eq_right (by linarith), max_eq_right (by linarith)]; ring
  rw [key, key]
  have hA : ∀ {c a b A B : ℝ}, 0 < c → 0 ≤ B → B ≤ A → A ≤ 2 * c → A - B ≤ y - x → (A ^ 2 / (4 * c) - B ^ 2 / (4 * c) ≤ y - x) ∧ 0 ≤ A ^ 2 / (4 * c) - B ^ 2 / (4 * c) := by
    intro c a b A B hc hB hAB hA2 hd
    rw [← sub_div]
    constructor
    · rw [div_le_iff₀ (by linarith)]
      nlinarith
    · apply div_nonneg _ (by linarith)
      nlinarith
  have la : max (p.lb + p.al - y) 0 ≤ max (p.lb + p.al - x) 0 := max_le_max (by linarith) le_rfl
  have ua : max (x - (p.ub - p.au)) 0 ≤ max (y - (p.ub - p.au)) 0 := max_le_max (by linarith) le_rfl
  have la2 : max (p.lb + p.al - x) 0 ≤ 2 * p.al := max_le (by linarith) (by linarith)
  have ua2 : max (y - (p.ub - p.au)) 0 ≤ 2 * p.au := max_le (by linarith) (by linarith)
  have ld : max (p.lb + p.al - x) 0 - max (p.lb + p.al - y) 0 ≤ y - x := by
    have : max (p.lb + p.al - x) 0 ≤ max (p.lb + p.al - y) 0 + (y - x) :=
      max_le (by linarith [le_max_left (p.lb + p.al - y) 0]) (by linarith [le_max_right (p.lb + p.al - y) 0])
    linarith
  have ud : max (y - (p.ub - p.au)) 0 - max (x - (p.ub - p.au)) 0 ≤ y - x := by
    have : max (y - (p.ub - p.au)) 0 ≤ max (x - (p.ub - p.au)) 0 + (y - x) :=
      max_le (by linarith [le_max_left (x - (p.ub - p.au)) 0]) (by linarith [le_max_right (x - (p.ub - p.au)) 0])
    linarith
  obtain ⟨l1, l2⟩ := hA (a := 0) (b := 0) h1 (le_max_right _ _) la la2 ld
  obtain ⟨u1, u2⟩ := hA (a := 0) (b := 0) h2 (le_max_right _ _) ua ua2 ud
  refine ⟨?_, by linarith⟩
  have hsum : (max (p.lb + p.al - x) 0 - max (p.lb + p.al - y) 0) + (max (y - (p.ub - p.au)) 0 - max (x - (p.ub - p.au)) 0) ≤ y - x := by
    rcases le_total (p.lb + p.al - x) 0 with a1 | a1 <;> rcases le_total (p.lb + p.al - y) 0 with a2 | a2 <;>
    rcases le_total (y - (p.ub - p.au)) 0 with a3 | a3 <;> rcases le_total (x - (p.ub - p.au)) 0 with a4 | a4 <;>
    simp only [max_eq_left, max_eq_right, a1, a2, a3, a4] <;> linarith
  have hS : ∀ {c A B : ℝ}, 0 < c → 0 ≤ B → B ≤ A → A ≤ 2 * c → A ^ 2 / (4 * c) - B ^ 2 / (4 * c) ≤ A - B ∧
      (B < A → A ^ 2 / (4 * c) - B ^ 2 / (4 * c) < A - B) := by
    intro c A B hc hB hAB hA2
    rw [← sub_div, div_le_iff₀ (by linarith), div_lt_iff₀ (by linarith)]
    exact ⟨by nlinarith, fun h => by nlinarith⟩
  obtain ⟨m1, m2⟩ := hS h1 (le_max_right (p.lb + p.al - y) 0) la la2
  obtain ⟨n1, n2⟩ := hS h2 (le_max_right (x - (p.ub - p.au)) 0) ua ua2
  rcases lt_or_eq_of_le la with q | q
  · linarith [m2 q]
  · rw [q] at hsum m1 ⊢
    rcases lt_or_eq_of_le ua with r | r
    · linarith [n2 r]
    · rw [r]; linarith

/-- **C57.** Exact arithmetic: the constructor computes these parameters, and throws unless each lower bound is less than the upper bound. -/
theorem _root_.Spot.btMake_spec : ∀ (bs : List (ℝ × ℝ)),
    (∀ ps, btMake bs = .ok ps → List.Forall₂ (fun b (p : BtPar ℝ) => p.Good ∧ p.lb = b.1 ∧ p.ub = b.2) bs ps) ∧ ((∃ ps, btMake bs = .ok ps) ↔ ∀ b ∈ bs, b.1 < b.2)
  | [] => ⟨fun ps h => by cases h; exact .nil, ⟨fun _ => by simp, fun _ => ⟨[], rfl⟩⟩⟩
  | b :: bs => by
    obtain ⟨h1, h2⟩ := btMake_spec bs
    constructor
    · intro ps h
      unfold btMake at h
      rw [Res.bind_eq_ok] at h
      obtain ⟨p, hp, h⟩ := h
      rw [Res.bind_eq_ok] at h
      obtain ⟨qs, hq, h⟩ := h
      cases h
      exact .cons (make_good hp) (h1 _ hq)
    · constructor
      · rintro ⟨ps, h⟩
        unfold btMake at h
        rw [Res.bind_eq_ok] at h
        obtain ⟨p, hp, h⟩ := h
        rw [Res.bind_eq_ok] at h
        obtain ⟨qs, hq, h⟩ := h
        obtain ⟨g, e1, e2⟩ := make_good hp
        intro c hc
        rcases List.mem_cons.mp hc with rfl | hc
        · rw [← e1, ← e2]; exact g.lt
        · exact h2.mp ⟨qs, hq⟩ c hc
      · intro h
        obtain ⟨qs, hq⟩ := h2.mpr fun c hc => h c (List.mem_cons_of_mem _ hc)
        have hb := h b List.mem_cons_self
        unfold btMake BtPar.make
        rw [if_neg (by simp only [eq_real, lt_real, Bool.or_eq_true, decide_eq_true_eq, not_or, not_lt]; exact ⟨hb.ne, hb.le⟩)]
        rw [Res.ok_bind, hq]
        exact ⟨_, rfl⟩
end BtPar

/-- The value `x` of a parameter with bounds `b` is transformed into `y`: reflected between `lb - al` and `ub + au`, then bent. -/
def Transformed (b : ℝ × ℝ) (x y : ℝ) : Prop :=
  let al := min ((b.2 - b.1) / 2) ((1 + |b.1|) / 20)
  let au := min ((b.2 - b.1) / 2) ((1 + |b.2|) / 20)
  ∃ u, Reflected (b.1 - al) (b.2 + au) x u ∧
    y = if u < b.1 + al then b.1 + (u - (b.1 - al)) ^ 2 / (4 * al) else if b.2 - au < u then b.2 - (b.2 + au - u) ^ 2 / (4 * au) else u

/-- The values whose number of periods fits an `int`. -/
def CountFits (b : ℝ × ℝ) (x : ℝ) : Prop :=
  let al := min ((b.2 - b.1) / 2) ((1 + |b.1|) / 20)
  let au := min ((b.2 - b.1) / 2) ((1 + |b.2|) / 20)
  let period := 2 * (b.2 - b.1 + al + au)
  b.1 - 2 * al - (b.2 - b.1) / 2 - (2 ^ 31 - 1) * period < x ∧ x < b.2 + 2 * au + (b.2 - b.1) / 2 + (2 ^ 31 - 1) * period

theorem Reflected.unique {a b x y z : ℝ} (hab : a < b) (h1 : Reflected a b x y) (h2 : Reflected a b x z) : y = z := by
  have small : ∀ m : ℤ, |(m : ℝ) * (2 * (b - a))| ≤ b - a → m = 0 := by
    intro m hm
    by_contra hne
    have h1 : (1 : ℝ) ≤ |(m : ℝ)| := by exact_mod_cast Int.one_le_abs hne
    rw [abs_mul, abs_of_pos (by linarith : 0 < 2 * (b - a))] at hm
    nlinarith
  have mixed : ∀ (u v : ℝ) (m : ℤ), a ≤ u → u ≤ b → a ≤ v → v ≤ b → u + v = 2 * a + m * (2 * (b - a)) → u = v := by
    intro u v m a1 a2 a3 a4 hm
    have hm0 : 0 ≤ m := by
      by_contra hc
      have : (m : ℝ) ≤ -1 := by exact_mod_cast (by omega : m ≤ -1)
      nlinarith
    have hm1 : m ≤ 1 := by
      by_contra hc
      have : (2 : ℝ) ≤ m := by exact_mod_cast (by omega : 2 ≤ m)
      nlinarith
    obtain rfl | rfl : m = 0 ∨ m = 1 := by omega
    · push_cast at hm; linarith
    · push_cast at hm; linarith
  obtain ⟨k, hk⟩ := h1.image
  obtain ⟨l, hl⟩ := h2.image
  obtain ⟨a1, a2⟩ := h1.within
  obtain ⟨a3, a4⟩ := h2.within
  rcases hk with hk | hk <;> rcases hl with hl | hl
  · have := small (k - l) (by rw [abs_le]; push_cast; constructor <;> nlinarith)
    have : k = l := by omega
    rw [hk, hl, this]
  · exact mixed y z (k + l) a1 a2 a3 a4 (by rw [hk, hl]; push_cast; ring)
  · exact mixed y z (k + l) a1 a2 a3 a4 (by rw [hk, hl]; push_cast; ring)
  · have := small (k - l) (by rw [abs_le]; push_cast; constructor <;> nlinarith)
    have : k = l := by omega
    rw [hk, hl, this]

/-- Reflection brings points closer together. -/
theorem Reflected.lipschitz {a b x x' y y' : ℝ} (h1 : Reflected a b x y) (h2 : Reflected a b x' y') : |y - y'| ≤ |x - x'| := by
  obtain ⟨a1, a2⟩ := h1.within
  obtain ⟨a3, a4⟩ := h2.within
  have hab : a ≤ b := a1.trans a2
  -- the images of `x'` are at least as far from `y` as `y'`
  have far : ∀ (w : ℝ), (∃ m : ℤ, w = y' + m * (2 * (b - a)) ∨ w = 2 * a - y' + m * (2 * (b - a))) → |y - y'| ≤ |y - w| := by
    rintro w ⟨m, hw⟩
    have hd : |y - y'| ≤ b - a := by rw [abs_le]; constructor <;> linarith
    rcases lt_trichotomy m 0 with hm | rfl | hm
    · have hm' : (m : ℝ) ≤ -1 := by exact_mod_cast (by omega : m ≤ -1)
      refine hd.trans (le_trans ?_ (le_abs_self _))
      rcases hw with rfl | rfl <;> nlinarith
    · rcases hw with rfl | rfl
      · simp
      · refine le_trans ?_ (le_abs_self _)
        rw [abs_le]; push_cast; constructor <;> linarith
    · have hm' : (1 : ℝ) ≤ m := by exact_mod_cast hm
      rcases hw with rfl | rfl
      · refine hd.trans (le_trans ?_ (neg_le_abs _))
        nlinarith
      · refine le_trans ?_ (neg_le_abs _)
        have : b ≤ y' + 0 ∨ True := Or.inr trivial
        rw [abs_le]
        constructor <;> nlinarith
  obtain ⟨k, hk⟩ := h1.image
  obtain ⟨l, hl⟩ := h2.image
  rcases hk with hk | hk
  · have := far (x' + k * (2 * (b - a))) (by
      rcases hl with hl | hl
      · exact ⟨k - l, Or.inl (by rw [hl]; push_cast; ring)⟩
      · exact ⟨k + l, Or.inr (by rw [hl]; push_cast; ring)⟩)
    rw [hk] at this ⊢
    refine this.trans (le_of_eq ?_)
    congr 1; ring
  · have := far (2 * a - x' + k * (2 * (b - a))) (by
      rcases hl with hl | hl
      · exact ⟨k + l, Or.inr (by rw [hl]; push_cast; ring)⟩
      · exact ⟨k - l, Or.inl (by rw [hl]; push_cast; ring)⟩)
    rw [hk] at this ⊢
    refine this.trans (le_of_eq ?_)
    rw [abs_sub_comm x x']
    congr 1; ring

theorem transformed_iff {p : BtPar ℝ} (hg : p.Good) (x y : ℝ) :
    Transformed (p.lb, p.ub) x y ↔ ∃ u, Reflected (p.lb - p.al) (p.ub + p.au) x u ∧ y = BtPar.bend p.lb p.ub p.al p.au u := by
  unfold Transformed BtPar.bend
  dsimp only
  rw [← hg.al, ← hg.au]

theorem countFits_iff {p : BtPar ℝ} (hg : p.Good) (x : ℝ) : CountFits (p.lb, p.ub) x ↔ p.InRange x := by
  unfold CountFits BtPar.InRange
  dsimp only
  rw [← hg.al, ← hg.au, p.xlow_eq, p.xup_eq, p.period_eq]
  norm_num
  constructor <;> rintro ⟨h1, h2⟩ <;> constructor <;> linarith

theorem btApply_cons (p : BtPar ℝ) (ps : List (BtPar ℝ)) (x : ℝ) (xs : List ℝ) :
    btApply (p :: ps) (x :: xs) = (p.preimage x >>= fun y => btPreimages ps xs >>= fun ys => btSquash ps ys.1 >>= fun zs =>
      .ok (p.squash y.1 :: zs, (if y.2 then 1 else 0) + ys.2)) := by
  have e : btPreimages (p :: ps) (x :: xs) = (p.preimage x >>= fun y => btPreimages ps xs >>= fun ys =>
    .ok (y.1 :: ys.1, (if y.2 then 1 else 0) + ys.2)) := rfl
  unfold btApply
  rw [e]
  cases p.preimage x with
  | ok y =>
    simp only [Res.ok_bind]
    cases btPreimages ps xs with
    | ok ys =>
      simp only [Res.ok_bind]
      rw [btSquash]
      cases btSquash ps ys.1 <;> rfl
    | err => rfl
    | ub => rfl
  | err => rfl
  | ub => rfl

/-- **C57.** Exact arithmetic: a boundary transformer for bounds `lb < ub` transforms each parameter as specified and never reports a bug,
if each number of periods fits an `int`; otherwise the conversion to `int` is undefined. -/
theorem C57_apply : ∀ (bs : List (ℝ × ℝ)) (ps : List (BtPar ℝ)) (xs : List ℝ), btMake bs = .ok ps → xs.length = bs.length →
    ((∀ (i : Nat) (b : ℝ × ℝ) x, bs[i]? = some b → xs[i]? = some x → CountFits b x) →
      ∃ ys, btApply ps xs = .ok (ys, 0) ∧ ys.length = xs.length ∧
        ∀ (i : Nat) (b : ℝ × ℝ) x y, bs[i]? = some b → xs[i]? = some x → ys[i]? = some y → Transformed b x y ∧ b.1 ≤ y ∧ y ≤ b.2) ∧
    ((∃ (i : Nat) (b : ℝ × ℝ) (x : ℝ), bs[i]? = some b ∧ xs[i]? = some x ∧ ¬ CountFits b x) → btApply ps xs = .ub) := by
  intro bs ps xs hm hl
  have hf := (btMake_spec bs).1 ps hm
  clear hm
  induction hf generalizing xs with
  | nil =>
    obtain rfl : xs = [] := by cases xs with | nil => rfl | cons => simp at hl
    exact ⟨fun _ => ⟨[], rfl, rfl, fun i b x y h => by simp at h⟩, fun ⟨i, b, x, h, _⟩ => by simp at h⟩
  | @cons b p bs ps hb hf ih =>
    cases xs with
    | nil => simp at hl
    | cons x xs =>
      obtain ⟨hg, e1, e2⟩ := hb
      have hb : b = (p.lb, p.ub) := by rw [e1, e2]
      obtain ⟨i1, i2⟩ := ih xs (by simpa using hl)
      obtain ⟨p1, p2⟩ := BtPar.preimage_spec hg x
      rw [btApply_cons]
      constructor
      · intro h
        have hx := h 0 b x rfl rfl
        rw [hb, countFits_iff hg] at hx
        obtain ⟨u, hu, hr⟩ := p1 hx
        obtain ⟨ys, hys, hyl, hy⟩ := i1 fun i c v hc hv => h (i + 1) c v (by simpa using hc) (by simpa using hv)
        rw [hu]
        unfold btApply at hys
        rw [Res.bind_eq_ok] at hys
        obtain ⟨⟨us, k⟩, hus, hys⟩ := hys
        rw [Res.bind_eq_ok] at hys
        obtain ⟨zs, hzs, hys⟩ := hys
        simp only [Res.ok.injEq, Prod.mk.injEq] at hys
        obtain ⟨rfl, rfl⟩ := hys
        simp only [Res.ok_bind, hus, hzs]
        refine ⟨_, rfl, by simp [hyl], fun i c v y hc hv hy' => ?_⟩
        cases i with
        | zero =>
          simp only [List.getElem?_cons_zero, Option.some.injEq] at hc hv hy'
          subst hc hv hy'
          rw [BtPar.squash_eq]
          refine ⟨?_, ?_⟩
          · rw [hb, transformed_iff hg]; exact ⟨u, hr, rfl⟩
          · rw [← e1, ← e2]; exact BtPar.bend_within hg hr.within
        | succ i => exact hy i c v y (by simpa using hc) (by simpa using hv) (by simpa using hy')
      · rintro ⟨i, c, v, hc, hv, hn⟩
        cases i with
        | zero =>
          simp only [List.getElem?_cons_zero, Option.some.injEq] at hc hv
          subst hc hv
          rw [hb, countFits_iff hg] at hn
          rw [p2 hn]; rfl
        | succ i =>
          have := i2 ⟨i, c, v, by simpa using hc, by simpa using hv, hn⟩
          by_cases hx : p.InRange x
          · obtain ⟨u, hu, hr⟩ := p1 hx
            rw [hu, Res.ok_bind]
            unfold btApply at this
            cases hq : btPreimages ps xs with
            | ok ys =>
              rw [hq, Res.ok_bind] at this
              rw [Res.ok_bind]
              cases hz : btSquash ps ys.1 with
              | ok zs => rw [hz] at this; cases this
              | err => rw [hz] at this; cases this
              | ub => rfl
            | err => rw [hq] at this; cases this
            | ub => rfl
          · rw [p2 hx]; rfl

theorem exists_par {b : ℝ × ℝ} (hb : b.1 < b.2) : ∃ p : BtPar ℝ, p.Good ∧ b = (p.lb, p.ub) :=
  ⟨⟨b.1, b.2, min ((b.2 - b.1) / 2) ((1 + |b.1|) / 20), min ((b.2 - b.1) / 2) ((1 + |b.2|) / 20)⟩, ⟨hb, rfl, rfl⟩, rfl⟩

/-- **C57.** The specified transformation is a function: there is only one transformed value. -/
theorem C57_unique {b : ℝ × ℝ} (hb : b.1 < b.2) {x y z : ℝ} (h1 : Transformed b x y) (h2 : Transformed b x z) : y = z := by
  obtain ⟨p, hg, rfl⟩ := exists_par hb
  rw [transformed_iff hg] at h1 h2
  obtain ⟨u, hu, rfl⟩ := h1
  obtain ⟨v, hv, rfl⟩ := h2
  have := hg.al_pos; have := hg.au_pos; have := hg.lt
  rw [hu.unique (by linarith) hv]

/-- **C57.** It leaves the values alone that are not close to a bound. -/
theorem C57_identity {b : ℝ × ℝ} (hb : b.1 < b.2) {x : ℝ} (h1 : b.1 + min ((b.2 - b.1) / 2) ((1 + |b.1|) / 20) ≤ x)
    (h2 : x ≤ b.2 - min ((b.2 - b.1) / 2) ((1 + |b.2|) / 20)) : Transformed b x x ∧ CountFits b x := by
  obtain ⟨p, hg, rfl⟩ := exists_par hb
  dsimp only at h1 h2
  rw [← hg.al] at h1
  rw [← hg.au] at h2
  rw [transformed_iff hg, countFits_iff hg]
  have e1 := hg.al_pos; have e2 := hg.au_pos; have e3 := hg.lt
  refine ⟨⟨x, ⟨⟨by linarith, by linarith⟩, 0, Or.inl (by simp)⟩, ?_⟩, ?_⟩
  · unfold BtPar.bend
    rw [if_neg (not_lt.mpr h1), if_neg (not_lt.mpr h2)]
  · unfold BtPar.InRange
    rw [p.xlow_eq, p.xup_eq, p.period_eq]
    constructor <;> nlinarith

/-- **C57.** A value within the bounds always has a transformed value, and the transformation preserves the order of such values. -/
theorem C57_order {b : ℝ × ℝ} {x x' y y' : ℝ} (h1 : b.1 ≤ x) (h2 : x < x') (h3 : x' ≤ b.2)
    (hy : Transformed b x y) (hy' : Transformed b x' y') : CountFits b x ∧ CountFits b x' ∧ y < y' := by
  have hb : b.1 < b.2 := by linarith
  obtain ⟨p, hg, rfl⟩ := exists_par hb
  rw [transformed_iff hg] at hy hy'
  rw [countFits_iff hg, countFits_iff hg]
  dsimp only at h1 h2 h3 hb
  have e1 := hg.al_pos; have e2 := hg.au_pos
  have hr : ∀ v, p.lb ≤ v → v ≤ p.ub → Reflected (p.lb - p.al) (p.ub + p.au) v v := fun v a1 a2 => ⟨⟨by linarith, by linarith⟩, 0, Or.inl (by simp)⟩
  have hi : ∀ v, p.lb ≤ v → v ≤ p.ub → p.InRange v := by
    intro v a1 a2
    unfold BtPar.InRange
    rw [p.xlow_eq, p.xup_eq, p.period_eq]
    constructor <;> nlinarith
  refine ⟨hi x h1 (by linarith), hi x' (by linarith) h3, ?_⟩
  obtain ⟨u, hu, rfl⟩ := hy
  obtain ⟨v, hv, rfl⟩ := hy'
  rw [hu.unique (by linarith) (hr x h1 (by linarith)), hv.unique (by linarith) (hr x' (by linarith) h3)]
  exact (BtPar.bend_strictMono hg (by linarith) h2 (by linarith)).1

/-- **C57.** The transformation is continuous: it does not increase distances. -/
theorem C57_continuous {b : ℝ × ℝ} (hb : b.1 < b.2) {x x' y y' : ℝ} (hy : Transformed b x y) (hy' : Transformed b x' y') : |y - y'| ≤ |x - x'| := by
  obtain ⟨p, hg, rfl⟩ := exists_par hb
  rw [transformed_iff hg] at hy hy'
  obtain ⟨u, hu, rfl⟩ := hy
  obtain ⟨v, hv, rfl⟩ := hy'
  refine le_trans ?_ (hu.lipschitz hv)
  rcases lt_trichotomy u v with h | rfl | h
  · obtain ⟨h1, h2⟩ := BtPar.bend_strictMono hg hu.within.1 h hv.within.2
    rw [abs_sub_comm, abs_of_pos (by linarith), abs_sub_comm, abs_of_pos (by linarith)]; exact h2
  · simp
  · obtain ⟨h1, h2⟩ := BtPar.bend_strictMono hg hv.within.1 h hu.within.2
    rw [abs_of_pos (by linarith), abs_of_pos (by linarith)]; exact h2

/-- **C57.** Floating point: the constructor throws exactly if some upper bound is equal to or less than its lower bound. -/
theorem C57_constructor [Libm] : ∀ bs : List (Dbl × Dbl),
    (btMake bs = .err ↔ ∃ b ∈ bs, Dbl.eq b.1 b.2 = true ∨ Dbl.lt b.2 b.1 = true) ∧ (btMake bs ≠ .err → ∃ ps, btMake bs = .ok ps ∧ ps.length = bs.length)
  | [] => by simp [btMake]
  | b :: bs => by
    obtain ⟨h1, h2⟩ := C57_constructor bs
    unfold btMake BtPar.make
    by_cases hc : (Arith.eq b.1 b.2 || Arith.lt b.2 b.1) = true
    · rw [if_pos hc]
      refine ⟨⟨fun _ => ⟨b, List.mem_cons_self, (Bool.or_eq_true _ _).mp hc⟩, fun _ => rfl⟩, fun h => absurd rfl h⟩
    · rw [if_neg hc, Res.ok_bind]
      have hc' : ¬ (Dbl.eq b.1 b.2 = true ∨ Dbl.lt b.2 b.1 = true) := fun h => hc ((Bool.or_eq_true _ _).mpr h)
      by_cases he : btMake bs = .err
      · rw [he]
        obtain ⟨c, hm, hcc⟩ := h1.mp he
        exact ⟨⟨fun _ => ⟨c, List.mem_cons_of_mem _ hm, hcc⟩, fun _ => rfl⟩, fun h => absurd rfl h⟩
      · obtain ⟨ps, hp, hl⟩ := h2 he
        rw [hp, Res.ok_bind]
        refine ⟨⟨fun h => (by cases h), ?_⟩, fun _ => ⟨_, rfl, by simp [hl]⟩⟩
        rintro ⟨c, hm, hcc⟩
        rcases List.mem_cons.mp hm with rfl | hm
        · exact absurd hcc hc'
        · exact absurd (h1.mpr ⟨c, hm, hcc⟩) he

/-- **C57.** Floating point: a parameter without bounds (both infinite) is left alone. -/
theorem C57_unbounded [Libm] (x : ℚ) : ∃ p : BtPar Dbl, BtPar.make .ninf .pinf = .ok p ∧ p.preimage (.fin x) = .ok (.fin x, false) ∧ p.squash (.fin x) = .fin x := by
  have h2 : (lit 2 : Dbl) = .fin 2 := by show Dbl.ofQ 2 = _; decide +kernel
  have hd : ((Dbl.pinf - Dbl.ninf) / Dbl.fin 2 : Dbl) = .pinf := by
    show Dbl.div (Dbl.sub .pinf .ninf) (.fin 2) = _
    decide +kernel
  have hd' : ((Dbl.pinf - Dbl.ninf) / lit 2 : Dbl) = .pinf := by rw [h2]; exact hd
  refine ⟨⟨.ninf, .pinf, .pinf, .pinf⟩, ?_, ?_, ?_⟩
  · have h1 : (lit 1 : Dbl) = .fin 1 := by show Dbl.ofQ 1 = _; decide +kernel
    have h20 : (lit 20 : Dbl) = .fin 20 := by show Dbl.ofQ 20 = _; decide +kernel
    have h0 : (lit 0 : Dbl) = .fin 0 := by show Dbl.ofQ 0 = _; decide +kernel
    unfold BtPar.make
    have ea : (Arith.abs Dbl.ninf : Dbl) = .pinf := by unfold Arith.abs; rw [h0]; rfl
    have eb : (Arith.abs Dbl.pinf : Dbl) = .pinf := by unfold Arith.abs; rw [h0]; rfl
    have ec : ((Dbl.fin 1 + Dbl.pinf) / Dbl.fin 20 : Dbl) = .pinf := by
      show Dbl.div (Dbl.add (.fin 1) .pinf) (.fin 20) = _
      decide +kernel
    rw [h1, h2, h20, ea, eb, hd, ec]
    rfl
  · have hx : (BtPar.mk Dbl.ninf .pinf .pinf .pinf).xlow = .ninf := by
      unfold BtPar.xlow
      dsimp only
      rw [hd', h2]
      show Dbl.sub (Dbl.sub .ninf (Dbl.mul (.fin 2) .pinf)) .pinf = _
      decide +kernel
    have hu : (BtPar.mk Dbl.ninf .pinf .pinf .pinf).xup = .pinf := by
      unfold BtPar.xup
      dsimp only
      rw [hd', h2]
      show Dbl.add (Dbl.add .pinf (Dbl.mul (.fin 2) .pinf)) .pinf = _
      decide +kernel
    have hs : (BtPar.mk Dbl.ninf .pinf .pinf .pinf).shift (.fin x) = .ok (.fin x) := by
      unfold BtPar.shift
      rw [hx, hu]
      rfl
    unfold BtPar.preimage
    rw [hs, Res.ok_bind]
    have hb : (BtPar.mk Dbl.ninf .pinf .pinf .pinf).bug (.fin x) = false := by
      unfold BtPar.bug
      generalize (lit (1 / 10 ^ 15) : Dbl) = e
      cases e <;> rfl
    rw [hb]
    rfl
  · rfl

/-- **C57.** The reflective transformer leaves feasible values alone; if the triangle wave stays between its limits, so does every value. -/
theorem C57_reflective (wave : ℝ → ℝ → ℝ → ℝ) : ∀ (bs : List (ℝ × ℝ)) (xs : List ℝ), xs.length = bs.length →
    ∃ ys, reflectApply wave bs xs = .ok ys ∧ ys.length = xs.length ∧ ∀ (i : Nat) (b : ℝ × ℝ) (x y : ℝ), bs[i]? = some b → xs[i]? = some x → ys[i]? = some y →
      (b.1 ≤ x ∧ x ≤ b.2 → y = x) ∧ (b.1 ≤ wave x b.1 b.2 ∧ wave x b.1 b.2 ≤ b.2 → b.1 ≤ y ∧ y ≤ b.2) ∧ (x < b.1 ∨ b.2 < x → y = wave x b.1 b.2)
  | [], [], _ => ⟨[], rfl, rfl, fun i b x y h => by simp at h⟩
  | [], _ :: _, h => by simp at h
  | _ :: _, [], h => by simp at h
  | c :: bs, v :: xs, h => by
    obtain ⟨ys, h1, h2, h3⟩ := C57_reflective wave bs xs (by simpa using h)
    unfold reflectApply
    rw [h1]
    refine ⟨_, rfl, by simp [h2], fun i b x y hb hx hy => ?_⟩
    cases i with
    | succ i => exact h3 i b x y (by simpa using hb) (by simpa using hx) (by simpa using hy)
    | zero =>
      simp only [List.getElem?_cons_zero, Option.some.injEq, lt_real, Bool.or_eq_true, decide_eq_true_eq] at hb hx hy
      subst hb hx hy
      by_cases hq : v < c.1 ∨ c.2 < v
      · rw [if_pos hq]
        refine ⟨fun h => ?_, fun h => h, fun _ => rfl⟩
        rcases hq with hq | hq
        · linarith [h.1]
        · linarith [h.2]
      · rw [if_neg hq]
        push Not at hq
        exact ⟨fun _ => rfl, fun _ => hq, fun h => by rcases h with h | h <;> linarith [hq.1, hq.2]⟩

/-- **C57.** The soft-limit transformer applies the soft clamp with the bounds of that parameter and the threshold; if the soft clamp stays between the
bounds it is given, so does every value. -/
theorem C57_soft (soft : ℝ → ℝ → ℝ → ℝ → ℝ) (th : ℝ) : ∀ (bs : List (ℝ × ℝ)) (xs : List ℝ), xs.length = bs.length →
    ∃ ys, softApply soft th bs xs = .ok ys ∧ ys.length = xs.length ∧ ∀ (i : Nat) (b : ℝ × ℝ) (x y : ℝ), bs[i]? = some b → xs[i]? = some x → ys[i]? = some y →
      y = soft x b.1 b.2 th ∧ ((∀ v l u t, l ≤ u → l ≤ soft v l u t ∧ soft v l u t ≤ u) → b.1 ≤ b.2 → b.1 ≤ y ∧ y ≤ b.2)
  | [], [], _ => ⟨[], rfl, rfl, fun i b x y h => by simp at h⟩
  | [], _ :: _, h => by simp at h
  | _ :: _, [], h => by simp at h
  | c :: bs, v :: xs, h => by
    obtain ⟨ys, h1, h2, h3⟩ := C57_soft soft th bs xs (by simpa using h)
    unfold softApply
    rw [h1]
    refine ⟨_, rfl, by simp [h2], fun i b x y hb hx hy => ?_⟩
    cases i with
    | succ i => exact h3 i b x y (by simpa using hb) (by simpa using hx) (by simpa using hy)
    | zero =>
      simp only [List.getElem?_cons_zero, Option.some.injEq] at hb hx hy
      subst hb hx hy
      exact ⟨rfl, fun hs hb => hs _ _ _ _ hb⟩

/-- **C57.** A vector of the wrong size violates the assertion of both transformers. -/
theorem C57_wrong_size {K : Type} [Arith K] (f : K → K → K → K) (g : K → K → K → K → K) (th : K) : ∀ (bs : List (K × K)) (xs : List K), xs.length ≠ bs.length →
    reflectApply f bs xs = .ub ∧ softApply g th bs xs = .ub
  | [], [], h => absurd rfl h
  | [], _ :: _, _ => ⟨rfl, rfl⟩
  | _ :: _, [], _ => ⟨rfl, rfl⟩
  | c :: bs, v :: xs, h => by
    obtain ⟨h1, h2⟩ := C57_wrong_size f g th bs xs (by simpa using h)
    unfold reflectApply softApply
    rw [h1, h2]
    exact ⟨rfl, rfl⟩

/-- `std::clamp` is such a soft clamp. -/
example : ∀ v l u t : ℝ, l ≤ u → l ≤ (fun v l u (_ : ℝ) => max l (min v u)) v l u t ∧ (fun v l u (_ : ℝ) => max l (min v u)) v l u t ≤ u :=
  fun v l u _ h => ⟨le_max_left _ _, max_le h (min_le_right _ _)⟩

/-- **C58.** Exact arithmetic: `cmaes_boundary_trans` maps the inverse of a feasible value to that value. -/
theorem C58_inverse {p : BtPar ℝ} {lb ub : ℝ} (hp : BtPar.make lb ub = .ok p) {x : ℝ} (h1 : lb ≤ x) (h2 : x ≤ ub) : p.trans (p.inverse x) = .ok x := by
  obtain ⟨hg, rfl, rfl⟩ := BtPar.make_good hp
  have e1 := hg.al_pos; have e2 := hg.au_pos; have e3 := hg.lt; have e4 := hg.al_le; have e5 := hg.au_le
  have hw : (p.lb - p.al ≤ p.inverse x ∧ p.inverse x ≤ p.ub + p.au) ∧ BtPar.bend p.lb p.ub p.al p.au (p.inverse x) = x := by
    unfold BtPar.inverse
    simp only [lt_real, sqrt_real, lit_real, decide_eq_true_eq]
    push_cast
    split
    · next c =>
      have s0 := Real.sqrt_nonneg (p.al * (x - p.lb))
      have s2 : Real.sqrt (p.al * (x - p.lb)) ^ 2 = p.al * (x - p.lb) := Real.sq_sqrt (mul_nonneg e1.le (by linarith))
      have s3 : Real.sqrt (p.al * (x - p.lb)) < p.al := by
        rw [Real.sqrt_lt' e1]; nlinarith
      refine ⟨⟨by linarith, by linarith⟩, ?_⟩
      unfold BtPar.bend
      rw [if_pos (by linarith), show p.lb - p.al + 2 * Real.sqrt (p.al * (x - p.lb)) - (p.lb - p.al) = 2 * Real.sqrt (p.al * (x - p.lb)) by ring, mul_pow, s2]
      field_simp
      ring
    · next c =>
      split
      · next c2 =>
        have s0 := Real.sqrt_nonneg (p.au * (p.ub - x))
        have s2 : Real.sqrt (p.au * (p.ub - x)) ^ 2 = p.au * (p.ub - x) := Real.sq_sqrt (mul_nonneg e2.le (by linarith))
        have s3 : Real.sqrt (p.au * (p.ub - x)) < p.au := by
          rw [Real.sqrt_lt' e2]; nlinarith
        refine ⟨⟨by linarith, by linarith⟩, ?_⟩
        unfold BtPar.bend
        rw [if_neg (by linarith), if_pos (by linarith), show p.ub + p.au - (p.ub + p.au - 2 * Real.sqrt (p.au * (p.ub - x))) = 2 * Real.sqrt (p.au * (p.ub - x)) by ring, mul_pow, s2]
        field_simp
        ring
      · next c2 =>
        refine ⟨⟨by linarith, by linarith⟩, ?_⟩
        unfold BtPar.bend
        rw [if_neg c, if_neg c2]
  have hi : p.InRange (p.inverse x) := by
    unfold BtPar.InRange
    rw [p.xlow_eq, p.xup_eq, p.period_eq]
    constructor <;> nlinarith [hw.1.1, hw.1.2]
  obtain ⟨y, hy, hr⟩ := (BtPar.shift_spec hg _).1 hi
  have : y = p.inverse x := hr.unique (by linarith) ⟨hw.1, 0, Or.inl (by simp)⟩
  unfold BtPar.trans
  rw [hy, Res.ok_bind, BtPar.bug_false y hr.within, this, BtPar.squash_eq, hw.2]
  simp

/-- **C58.** The inverse of the transformed value of a value within the bounds (or at most `al`, `au` outside) is that value. -/
theorem C58_inverse_of_trans {p : BtPar ℝ} {lb ub : ℝ} (hp : BtPar.make lb ub = .ok p) {x : ℝ} (h1 : lb - p.al ≤ x) (h2 : x ≤ ub + p.au) :
    ∃ y, p.trans x = .ok y ∧ lb ≤ y ∧ y ≤ ub ∧ p.inverse y = x := by
  obtain ⟨hg, rfl, rfl⟩ := BtPar.make_good hp
  have e1 := hg.al_pos; have e2 := hg.au_pos; have e3 := hg.lt
  have hi : p.InRange x := by
    unfold BtPar.InRange
    rw [p.xlow_eq, p.xup_eq, p.period_eq]
    constructor <;> nlinarith
  obtain ⟨u, hu, hr⟩ := (BtPar.shift_spec hg _).1 hi
  have hux : u = x := hr.unique (by linarith) ⟨⟨h1, h2⟩, 0, Or.inl (by simp)⟩
  subst hux
  have hw := BtPar.bend_within hg hr.within
  have ht : p.trans u = .ok (BtPar.bend p.lb p.ub p.al p.au u) := by
    unfold BtPar.trans
    rw [hu, Res.ok_bind, BtPar.bug_false u hr.within, BtPar.squash_eq]; simp
  refine ⟨_, ht, hw.1, hw.2, ?_⟩
  unfold BtPar.inverse
  simp only [lt_real, sqrt_real, lit_real, decide_eq_true_eq]
  push_cast
  have e4 := hg.al_le; have e5 := hg.au_le
  unfold BtPar.bend
  by_cases c1 : u < p.lb + p.al
  · rw [if_pos c1]
    have q : (u - (p.lb - p.al)) ^ 2 / (4 * p.al) < p.al := by rw [div_lt_iff₀ (by linarith)]; nlinarith
    rw [if_pos (by linarith)]
    have : p.al * (p.lb + (u - (p.lb - p.al)) ^ 2 / (4 * p.al) - p.lb) = ((u - (p.lb - p.al)) / 2) ^ 2 := by field_simp; ring
    rw [this, Real.sqrt_sq (by linarith)]; ring
  · rw [if_neg c1]
    by_cases c2 : p.ub - p.au < u
    · rw [if_pos c2]
      have q : (p.ub + p.au - u) ^ 2 / (4 * p.au) < p.au := by rw [div_lt_iff₀ (by linarith)]; nlinarith
      rw [if_neg (by linarith), if_pos (by linarith)]
      have : p.au * (p.ub - (p.ub - (p.ub + p.au - u) ^ 2 / (4 * p.au))) = ((p.ub + p.au - u) / 2) ^ 2 := by field_simp; ring
      rw [this, Real.sqrt_sq (by linarith)]; ring
    · rw [if_neg c2, if_neg c1, if_neg c2]

section
variable {n : Nat} {G : GaussSrc ℝ}

theorem boundedLoop_feasible (tr : (Fin n → ℝ) → Fin n → ℝ) (b : Bounds ℝ n) (s : Cma G n) : ∀ ks : List Nat,
    (∀ k ∈ ks, b.feasible (tr (s.pop.getD k fun _ => lit 0)) = true) → Cma.boundedLoop tr b ks s = (s, ks.map fun k => tr (s.pop.getD k fun _ => lit 0))
  | [], _ => rfl
  | k :: ks, h => by
    have e : s.bounded tr b k = (s, tr (s.pop.getD k fun _ => lit 0)) := by
      unfold Cma.bounded Cma.attempts
      rw [if_pos (h k List.mem_cons_self)]
    have ih := boundedLoop_feasible tr b s ks fun k hk => h k (List.mem_cons_of_mem _ hk)
    unfold Cma.boundedLoop
    rw [e]
    dsimp only
    rw [ih]
    rfl

/-- **C57.** Exact arithmetic: with this transformer CMA never draws an individual again and never clamps: the evaluated points are the transformed
individuals, if the numbers of periods fit an `int`. -/
theorem C57_cma (b : Bounds ℝ n) (ps : List (BtPar ℝ)) (hps : btMake (List.ofFn fun i => (b.lo i, b.hi i)) = .ok ps) (tr : (Fin n → ℝ) → Fin n → ℝ)
    (htr : ∀ x ys k, btApply ps (List.ofFn x) = .ok (ys, k) → ys = List.ofFn (tr x)) (eig : Eig ℝ n) (p : CmaPar ℝ) (s : Cma G n)
    (hx : ∀ x ∈ (s.samplePopulation eig p).pop, ∀ i, CountFits (b.lo i, b.hi i) (x i)) :
    s.sample tr b eig p = (s.samplePopulation eig p, (s.samplePopulation eig p).pop.map tr) ∧
    ∀ x ∈ (s.samplePopulation eig p).pop, ∀ i, Transformed (b.lo i, b.hi i) (x i) (tr x i) := by
  have hT : ∀ x ∈ (s.samplePopulation eig p).pop, ∀ i, Transformed (b.lo i, b.hi i) (x i) (tr x i) ∧ b.lo i ≤ tr x i ∧ tr x i ≤ b.hi i := by
    intro x hm i
    obtain ⟨ys, h1, h2, h3⟩ := (C57_apply _ ps (List.ofFn x) hps (by simp)).1 (by
      intro j c v hc hv
      rw [List.getElem?_ofFn] at hc hv
      split at hc
      · next hj =>
        rw [dif_pos hj] at hv
        simp only [Option.some.injEq] at hc hv
        rw [← hc, ← hv]
        exact hx x hm ⟨j, hj⟩
      · cases hc)
    have := htr x ys 0 h1
    exact h3 i (b.lo i, b.hi i) (x i) (tr x i) (by simp) (by simp) (by rw [this]; simp)
  refine ⟨?_, fun x hm i => (hT x hm i).1⟩
  have hl : (s.samplePopulation eig p).pop.length = p.lambda := Cma.sampleLoop_length _ _ _ _
  unfold Cma.sample
  rw [boundedLoop_feasible]
  · congr 1
    apply List.ext_getElem
    · simp [hl]
    · intro k h1 h2
      simp only [List.length_map, List.length_range] at h1
      simp [List.getElem_range, hl, h1, List.getD_eq_getElem?_getD]
  · intro k hk
    rw [List.mem_range, ← hl] at hk
    have hm : (s.samplePopulation eig p).pop.getD k (fun _ => lit 0) ∈ (s.samplePopulation eig p).pop := by
      rw [List.getD_eq_getElem?_getD, List.getElem?_eq_getElem hk]; exact List.getElem_mem hk
    unfold Bounds.feasible
    rw [List.all_eq_true]
    intro i _
    have := hT _ hm i
    simp only [lt_real, Bool.not_eq_true', Bool.or_eq_false_iff, decide_eq_false_iff_not, not_lt]
    exact this.2

end

/-! The hypotheses are met: between the bounds 0 and 1, the value 2 is reflected to 1/5. -/

theorem example_lo : min (((1 : ℝ) - 0) / 2) ((1 + |(0 : ℝ)|) / 20) = 1 / 20 := by
  rw [abs_zero, min_eq_right (by norm_num)]; norm_num
theorem example_hi : min (((1 : ℝ) - 0) / 2) ((1 + |(1 : ℝ)|) / 20) = 1 / 10 := by
  rw [abs_one, min_eq_right (by norm_num)]; norm_num

example : Transformed (0, 1) 2 (1 / 5) ∧ CountFits (0, 1) 2 ∧ ∃ ps, btMake [((0 : ℝ), (1 : ℝ))] = .ok ps ∧ btApply ps [2] = .ok ([1 / 5], 0) := by
  have h1 : Transformed (0, 1) 2 (1 / 5) := by
    unfold Transformed
    dsimp only
    rw [example_lo, example_hi]
    exact ⟨1 / 5, ⟨by norm_num, 1, Or.inr (by norm_num)⟩, by norm_num⟩
  have h2 : CountFits (0, 1) 2 := by
    unfold CountFits
    dsimp only
    rw [example_lo, example_hi]
    norm_num
  obtain ⟨ps, hps⟩ := (btMake_spec [((0 : ℝ), (1 : ℝ))]).2.mpr (by simp)
  obtain ⟨ys, h3, h4, h5⟩ := (C57_apply _ ps [2] hps rfl).1 (by
    intro i b x hb hx
    cases i with
    | zero => simp only [List.getElem?_cons_zero, Option.some.injEq] at hb hx; rw [← hb, ← hx]; exact h2
    | succ i => simp at hb)
  refine ⟨h1, h2, ps, hps, ?_⟩
  match ys, h4 with
  | [y], _ =>
    have := (h5 0 _ _ y rfl rfl rfl).1
    rw [h3, C57_unique (by norm_num) this h1]

end Spot
