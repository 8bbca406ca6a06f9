import Verif.Props.Boundary
import Verif.Lemmas.Float

/-! # C57 in floating point: parameters with one bound -/

namespace Spot
open Dbl

section
variable [Libm]

theorem lit_fin {q : ℚ} (h : IsDouble q) : (lit q : Dbl) = .fin q := Dbl.ofQ_double h

theorem abs_fin (q : ℚ) : (Arith.abs (.fin q) : Dbl) = .fin |q| := by
  unfold Arith.abs
  rw [lit_fin (q := 0) (by decide +kernel)]
  show (if Dbl.lt (.fin q) (.fin 0) = true then Dbl.neg (.fin q) else .fin q) = _
  simp only [Dbl.lt, decide_eq_true_eq, Dbl.neg]
  split
  · next h => rw [abs_of_neg h]
  · next h => rw [abs_of_nonneg (_root_.not_lt.1 h)]

/-- The width of the layer at a finite bound, if the other bound is infinite. -/
theorem layer_pos {b : ℚ} (hb : IsDouble b) : ∃ a : ℚ, ((lit 1 + Arith.abs (.fin b)) / lit 20 : Dbl) = .fin a ∧ 0 < a ∧ IsDouble a := by
  rw [abs_fin, lit_fin (q := 1) (by decide +kernel), lit_fin (q := 20) (by decide +kernel)]
  have hm := isDouble_max hb
  have h0 := abs_nonneg b
  have e : (Dbl.fin 1 + Dbl.fin |b| : Dbl) = Dbl.ofQ (1 + |b|) := rfl
  obtain ⟨c, hc, hc1, hc2⟩ : ∃ c, Dbl.ofQ (1 + |b|) = .fin c ∧ 1 ≤ c ∧ IsDouble c := by
    have h1 : Dbl.le (.fin 1) (Dbl.ofQ (1 + |b|)) = true := le_ofQ (by decide +kernel) (by linarith)
    have h2 : Dbl.le (Dbl.ofQ (1 + |b|)) (Dbl.ofQ (1 + Dbl.maxQ)) = true := ofQ_mono (by linarith)
    rw [show Dbl.ofQ (1 + Dbl.maxQ) = .fin Dbl.maxQ by decide +kernel] at h2
    cases hx : Dbl.ofQ (1 + |b|) with
    | fin c => rw [hx] at h1; exact ⟨c, rfl, by simpa [Dbl.le] using h1, isDouble_ofQ hx⟩
    | nan => rw [hx] at h1; simp at h1
    | ninf => rw [hx] at h1; simp [Dbl.le] at h1
    | pinf => rw [hx] at h2; simp [Dbl.le] at h2
  rw [e, hc]
  have e2 : (Dbl.fin c / Dbl.fin 20 : Dbl) = Dbl.ofQ (c / 20) := by
    show Dbl.div (.fin c) (.fin 20) = _
    simp only [Dbl.div]
    rw [if_neg (by norm_num)]
  rw [e2]
  have hcm := isDouble_max hc2
  rw [abs_of_pos (by linarith)] at hcm
  have h1 : Dbl.le (Dbl.ofQ (1 / 20)) (Dbl.ofQ (c / 20)) = true := ofQ_mono (by linarith)
  have h2 : Dbl.le (Dbl.ofQ (c / 20)) (Dbl.ofQ Dbl.maxQ) = true := ofQ_mono (by
    have : (0:ℚ) < Dbl.maxQ := by decide +kernel
    linarith)
  rw [show Dbl.ofQ Dbl.maxQ = .fin Dbl.maxQ by decide +kernel] at h2
  rw [show Dbl.ofQ (1 / 20) = .fin (bin64 (1 / 20)) by decide +kernel] at h1
  cases hx : Dbl.ofQ (c / 20) with
  | fin a =>
    rw [hx] at h1
    refine ⟨a, rfl, ?_, isDouble_ofQ hx⟩
    have h3 : bin64 (1 / 20) ≤ a := by simpa [Dbl.le] using h1
    exact lt_of_lt_of_le (by decide +kernel) h3
  | nan => rw [hx] at h1; simp at h1
  | ninf => rw [hx] at h1; simp [Dbl.le] at h1
  | pinf => rw [hx] at h2; simp [Dbl.le] at h2

/-- Mirroring a value below a limit in floating point never ends below it. -/
theorem mirror_ge {l y : ℚ} (hl : IsDouble l) (hy : IsDouble y) (h : y < l) :
    Dbl.le (.fin l) (Dbl.add (.fin y) (Dbl.mul (.fin 2) (Dbl.sub (.fin l) (.fin y)))) = true := by
  obtain ⟨m, hm⟩ := double_mult hl.1
  obtain ⟨k, hk⟩ := double_mult hy.1
  have hd : l + -y = ((m - k : ℤ) : ℚ) * (2:ℚ) ^ (-1074:ℤ) := by rw [hm, hk]; push_cast; ring
  have hh := half_le_bin64 hd (by linarith)
  have e : Dbl.sub (.fin l) (.fin y) = Dbl.ofQ (l + -y) := rfl
  rw [e]
  cases hx : Dbl.ofQ (l + -y) with
  | fin d =>
    have hdd : d = bin64 (l + -y) := by
      simp only [ofQ] at hx; split_ifs at hx; exact (Dbl.fin.inj hx).symm
    have e2 : Dbl.mul (.fin 2) (.fin d) = Dbl.ofQ (2 * d) := rfl
    rw [e2]
    have h2 : l - y ≤ 2 * d := by rw [hdd]; linarith
    cases hz : Dbl.ofQ (2 * d) with
    | fin t =>
      show Dbl.le (.fin l) (Dbl.ofQ (y + t)) = true
      apply le_ofQ hl
      -- `l - y` need not be a double, but twice the rounded difference is
      have ht : t = bin64 (2 * d) := by
        simp only [ofQ] at hz; split_ifs at hz; exact (Dbl.fin.inj hz).symm
      have h3 : bin64 (2 * d) = 2 * d := by
        have hdb : bin64 d = d := by rw [hdd]; exact bin64_idem _
        by_cases hd0 : d = 0
        · rw [hd0]; simp
        have hdp : 0 < d := by
          have : 0 < l - y := by linarith
          have : 0 < 2 * d := by linarith
          linarith
        have hlog : Int.log 2 |2 * d| = Int.log 2 |d| + 1 := by
          rw [abs_of_pos hdp, abs_of_pos (by linarith)]
          apply log_eq_of (b := 2) one_lt_two'
          · have := Int.zpow_log_le_self (b := 2) (by norm_num) hdp
            push_cast at this ⊢
            rw [zpow_add₀ (by norm_num)]; linarith
          · have := Int.lt_zpow_succ_log_self (b := 2) (by norm_num) d
            push_cast at this ⊢
            rw [zpow_add₀ (by norm_num) _ 1]; linarith
        have hg : rhe (d / (2:ℚ) ^ fexp64 (Int.log 2 |d|)) * (2:ℚ) ^ fexp64 (Int.log 2 |d|) = d := by
          unfold bin64 rnd at hdb; push_cast at hdb; exact hdb
        obtain ⟨n, hn⟩ : ∃ n : ℤ, 2 * d = n * (2:ℚ) ^ fexp64 (Int.log 2 |d| + 1) := by
          unfold fexp64 at hg ⊢
          rcases (by omega : Int.log 2 |d| - 52 ≤ -1075 ∨ -1074 ≤ Int.log 2 |d| - 52) with hc | hc
          · rw [max_eq_right (by omega)] at hg
            rw [max_eq_right (by omega)]
            exact ⟨2 * rhe (d / (2:ℚ) ^ (-1074:ℤ)), by push_cast; linarith⟩
          · rw [max_eq_left (by omega)] at hg
            rw [max_eq_left (by omega)]
            refine ⟨rhe (d / (2:ℚ) ^ (Int.log 2 |d| - 52)), ?_⟩
            rw [show Int.log 2 |d| + 1 - 52 = (Int.log 2 |d| - 52) + 1 by ring, zpow_add₀ (by norm_num)]
            linarith
        have := rnd_of_grid (b := 2) one_lt_two' (fexp := fexp64) (q := 2 * d) (n := n)
        rw [hlog] at this
        exact this validExp_64 (by exact_mod_cast hn)
      rw [ht, h3]; linarith
    | pinf => rfl
    | nan => exact absurd hz (ofQ_ne_nan _)
    | ninf =>
      have := notNeg_ofQ (q := 2 * d) (by linarith)
      rw [hz] at this; exact absurd this not_notNeg_ninf
  | pinf => rfl
  | nan => exact absurd hx (ofQ_ne_nan _)
  | ninf =>
    have := notNeg_ofQ (q := l + -y) (by linarith)
    rw [hx] at this; exact absurd this not_notNeg_ninf

theorem lit_small : ∃ c : ℚ, (lit (1 / 10 ^ 15) : Dbl) = .fin c ∧ 0 ≤ c :=
  ⟨bin64 (1 / 10 ^ 15), by show Dbl.ofQ _ = _; decide +kernel, by decide +kernel⟩

/-- The parameters of a parameter without an upper bound. -/
theorem make_lower {lb a : ℚ} (ha : ((lit 1 + Arith.abs (.fin lb)) / lit 20 : Dbl) = .fin a) :
    BtPar.make (Dbl.fin lb) .pinf = .ok ⟨.fin lb, .pinf, .fin a, .pinf⟩ := by
  have h2 : (lit 2 : Dbl) = .fin 2 := lit_fin (by decide +kernel)
  have h1 : (lit 1 : Dbl) = .fin 1 := lit_fin (by decide +kernel)
  have h20 : (lit 20 : Dbl) = .fin 20 := lit_fin (by decide +kernel)
  have h0 : (lit 0 : Dbl) = .fin 0 := lit_fin (by decide +kernel)
  unfold BtPar.make
  have eb : (Arith.abs Dbl.pinf : Dbl) = .pinf := by unfold Arith.abs; rw [h0]; rfl
  have ec : ((Dbl.fin 1 + Dbl.pinf) / Dbl.fin 20 : Dbl) = .pinf := by
    show Dbl.div (Dbl.add (.fin 1) .pinf) (.fin 20) = _
    decide +kernel
  have hd : ((Dbl.pinf - Dbl.fin lb) / Dbl.fin 2 : Dbl) = .pinf := by
    show Dbl.div (Dbl.sub .pinf (.fin lb)) (.fin 2) = _
    show Dbl.div .pinf (.fin 2) = _
    decide +kernel
  rw [ha, h1, h2, h20, eb, hd, ec]
  have hf : (fmin Dbl.pinf (Dbl.fin a) : Dbl) = .fin a := by
    show (if !Dbl.eq .pinf .pinf then _ else if !Dbl.eq (.fin a) (.fin a) then _ else if Dbl.lt (.fin a) .pinf then _ else _) = _
    simp [Dbl.eq, Dbl.lt]
  rw [hf]
  rfl

theorem not_lt_of_le {a b : Dbl} (h : Dbl.le a b = true) : Dbl.lt b a = false := by
  cases a <;> cases b <;> simp [Dbl.le, Dbl.lt] at * <;> linarith

theorem le_of_not_dlt {a b : Dbl} (h : ¬ Dbl.lt a b = true) (ha : b ≠ .nan) (hb : a ≠ .nan) : Dbl.le b a = true := by
  cases a <;> cases b <;> simp [Dbl.le, Dbl.lt] at * <;> linarith

/-- A value that is not negative and not NaN. -/
theorem nonneg_cases {t : Dbl} (h : Dbl.le (.fin 0) t = true) : t = .pinf ∨ ∃ q, t = .fin q ∧ 0 ≤ q := by
  cases t with
  | fin q => exact Or.inr ⟨q, rfl, by simpa [Dbl.le] using h⟩
  | pinf => exact Or.inl rfl
  | nan => simp [Dbl.le] at h
  | ninf => simp [Dbl.le] at h

theorem sub_nonneg_le {b : ℚ} (hb : IsDouble b) {t : Dbl} (h : Dbl.le (.fin 0) t = true) : Dbl.le (Dbl.sub (.fin b) t) (.fin b) = true := by
  rcases nonneg_cases h with rfl | ⟨q, rfl, hq⟩
  · rfl
  · exact ofQ_le hb (by linarith)

theorem add_nonneg_ge {b : ℚ} (hb : IsDouble b) {t : Dbl} (h : Dbl.le (.fin 0) t = true) : Dbl.le (.fin b) (Dbl.add (.fin b) t) = true := by
  rcases nonneg_cases h with rfl | ⟨q, rfl, hq⟩
  · rfl
  · exact le_ofQ hb (by linarith)

theorem zero_le_ofQ {q : ℚ} (h : 0 ≤ q) : Dbl.le (.fin 0) (Dbl.ofQ q) = true := le_ofQ (by decide +kernel) h

theorem shift_lower {lb a : ℚ} (hlb : IsDouble lb) (ha : 0 < a) (x : ℚ) : (BtPar.mk (Dbl.fin lb) .pinf (.fin a) .pinf).shift (.fin x) =
    .ok (if Dbl.lt (.fin x) (Dbl.sub (.fin lb) (.fin a)) then Dbl.add (.fin x) (Dbl.mul (.fin 2) (Dbl.sub (Dbl.sub (.fin lb) (.fin a)) (.fin x))) else .fin x) := by
  have h2 : (lit 2 : Dbl) = .fin 2 := lit_fin (by decide +kernel)
  have hd : ((Dbl.pinf - Dbl.fin lb) / Dbl.fin 2 : Dbl) = .pinf := by
    show Dbl.div .pinf (.fin 2) = _
    decide +kernel
  have hx : (BtPar.mk (Dbl.fin lb) .pinf (.fin a) .pinf).xlow = .ninf := by
    unfold BtPar.xlow
    dsimp only
    rw [h2, hd]
    show Dbl.sub (Dbl.sub (.fin lb) (Dbl.ofQ (2 * a))) .pinf = _
    have h3 := sub_nonneg_le hlb (zero_le_ofQ (q := 2 * a) (by linarith))
    generalize Dbl.sub (Dbl.fin lb) (Dbl.ofQ (2 * a)) = t at h3
    cases t <;> simp [Dbl.le] at h3 <;> rfl
  have hu : (BtPar.mk (Dbl.fin lb) .pinf (.fin a) .pinf).xup = .pinf := by
    unfold BtPar.xup
    dsimp only
    rw [h2, hd]
    show Dbl.add (Dbl.add .pinf (Dbl.mul (.fin 2) .pinf)) .pinf = _
    decide +kernel
  unfold BtPar.shift
  rw [hx, hu]
  unfold BtPar.up
  rw [if_neg (show ¬ Arith.lt (Dbl.fin x) .ninf = true from by show ¬ Dbl.lt (.fin x) .ninf = true; simp [Dbl.lt]), Res.ok_bind]
  unfold BtPar.down
  rw [if_neg (show ¬ Arith.lt Dbl.pinf (.fin x) = true from by show ¬ Dbl.lt .pinf (.fin x) = true; simp [Dbl.lt]), Res.ok_bind]
  unfold BtPar.mirror
  dsimp only
  have hpp : ∀ y : Dbl, ¬ (Arith.lt (Dbl.pinf + Dbl.pinf : Dbl) y = true) := by
    intro y
    show ¬ Dbl.lt .pinf y = true
    cases y <;> simp [Dbl.lt]
  rw [if_neg (hpp _), h2]
  rfl

/-- **C57.** Floating point: a parameter with a lower bound only. No value is undefined, reported as a bug or brought below the bound, and the values
above the layer are left alone. The transformed value may be infinite (the mirror of a value very far below the bound). -/
theorem C57_lower_bounded {lb x : ℚ} (hlb : IsDouble lb) (hx : IsDouble x) : ∃ p : BtPar Dbl, BtPar.make (.fin lb) .pinf = .ok p ∧
    (∃ y, p.preimage (.fin x) = .ok (y, false) ∧ Dbl.le (.fin lb) (p.squash y) = true) ∧
    (Dbl.le (.fin lb + p.al) (.fin x) = true → p.preimage (.fin x) = .ok (.fin x, false) ∧ p.squash (.fin x) = .fin x) := by
  obtain ⟨a, ha, ha0, had⟩ := layer_pos hlb
  refine ⟨_, make_lower ha, ?_⟩
  have hz : Dbl.le (.fin 0) (.fin a) = true := by simp only [Dbl.le, decide_eq_true_eq]; exact ha0.le
  have hL : Dbl.le (Dbl.sub (.fin lb) (.fin a)) (.fin lb) = true := sub_nonneg_le hlb hz
  have hU : Dbl.le (.fin lb) (Dbl.add (.fin lb) (.fin a)) = true := add_nonneg_ge hlb hz
  obtain ⟨c, hc, hc0⟩ := lit_small
  -- the lower end of the layer, if it is finite, is a double
  have hLd : ∀ l, Dbl.sub (.fin lb) (.fin a) = .fin l → IsDouble l := fun l h => isDouble_ofQ (q := lb + -a) h
  set y := (if Dbl.lt (.fin x) (Dbl.sub (.fin lb) (.fin a)) then
      Dbl.add (.fin x) (Dbl.mul (.fin 2) (Dbl.sub (Dbl.sub (.fin lb) (.fin a)) (.fin x))) else .fin x) with hy
  have hge : Dbl.le (Dbl.sub (.fin lb) (.fin a)) y = true := by
    rw [hy]
    generalize hLg : Dbl.sub (.fin lb) (.fin a) = L at hL hLd
    cases L with
    | nan => simp [Dbl.le] at hL
    | pinf => simp [Dbl.le] at hL
    | ninf => rw [if_neg (by simp [Dbl.lt])]; rfl
    | fin l =>
      by_cases hlt : x < l
      · rw [if_pos (by simpa [Dbl.lt] using hlt)]
        exact mirror_ge (hLd l rfl) hx hlt
      · rw [if_neg (by simpa [Dbl.lt] using hlt)]
        simpa [Dbl.le] using hlt
  have hyn : y ≠ .ninf := by
    intro hn
    rw [hn] at hge
    have hl : Dbl.sub (.fin lb) (.fin a) = .ninf := by
      generalize Dbl.sub (.fin lb) (.fin a) = L at hge
      cases L <;> simp [Dbl.le] at hge
      rfl
    rw [hy, hl, if_neg (by simp [Dbl.lt])] at hn
    cases hn
  have hynan : y ≠ .nan := by
    intro h; rw [h] at hge; simp at hge
  clear_value y
  have hpre : (BtPar.mk (Dbl.fin lb) .pinf (.fin a) .pinf).preimage (.fin x) = .ok (y, false) := by
    unfold BtPar.preimage
    rw [shift_lower hlb ha0, Res.ok_bind]
    have hb : (BtPar.mk (Dbl.fin lb) .pinf (.fin a) .pinf).bug y = false := by
      unfold BtPar.bug
      dsimp only
      rw [hc]
      rw [Bool.or_eq_false_iff]
      constructor
      · show Dbl.lt y (Dbl.sub (Dbl.sub (.fin lb) (.fin a)) (.fin c)) = false
        generalize Dbl.sub (.fin lb) (.fin a) = L at hge hLd hL
        cases L with
        | nan => simp [Dbl.le] at hL
        | pinf => simp [Dbl.le] at hL
        | ninf => show Dbl.lt y .ninf = false; cases y <;> rfl
        | fin l =>
          have h1 : Dbl.le (Dbl.sub (.fin l) (.fin c)) (.fin l) = true :=
            sub_nonneg_le (hLd l rfl) (by simp only [Dbl.le, decide_eq_true_eq]; exact hc0)
          generalize Dbl.sub (.fin l) (.fin c) = m at h1
          exact not_lt_of_le (Dbl.le_trans h1 hge)
      · show Dbl.lt (Dbl.add (Dbl.add .pinf .pinf) (.fin c)) y = false
        show Dbl.lt .pinf y = false
        cases y <;> rfl
    rw [← hy, hb]
    rfl
  have hsq : ∀ z : Dbl, (BtPar.mk (Dbl.fin lb) .pinf (.fin a) .pinf).squash z = if Dbl.lt z (Dbl.add (.fin lb) (.fin a)) then
      Dbl.add (.fin lb) (Dbl.div (Dbl.div (Dbl.mul (Dbl.sub z (Dbl.sub (.fin lb) (.fin a))) (Dbl.sub z (Dbl.sub (.fin lb) (.fin a)))) (.fin 4)) (.fin a)) else z := by
    intro z
    unfold BtPar.squash
    dsimp only
    rw [show (lit 4 : Dbl) = .fin 4 from lit_fin (by decide +kernel)]
    rw [if_neg (show ¬ (Arith.lt (Dbl.pinf - Dbl.pinf : Dbl) z = true) from by show ¬ Dbl.lt .nan z = true; cases z <;> simp [Dbl.lt])]
    rfl
  refine ⟨⟨y, hpre, ?_⟩, ?_⟩
  · rw [hsq]
    by_cases hlt : Dbl.lt y (Dbl.add (.fin lb) (.fin a)) = true
    · rw [if_pos hlt]
      apply add_nonneg_ge hlb
      have hnn : ∀ t : Dbl, t ≠ .nan → Dbl.le (.fin 0) (Dbl.div (Dbl.div (Dbl.mul t t) (.fin 4)) (.fin a)) = true := by
        intro t ht
        have h1 : Dbl.le (.fin 0) (Dbl.mul t t) = true := by
          cases t with
          | fin q => exact zero_le_ofQ (mul_self_nonneg q)
          | pinf => rfl
          | ninf => rfl
          | nan => exact absurd rfl ht
        have hdiv : ∀ (u : Dbl) (k : ℚ), 0 < k → Dbl.le (.fin 0) u = true → Dbl.le (.fin 0) (Dbl.div u (.fin k)) = true := by
          intro u k hk hu
          rcases nonneg_cases hu with rfl | ⟨q, rfl, hq⟩
          · simp only [Dbl.div]
            rw [if_neg (_root_.not_lt.2 hk.le)]; rfl
          · simp only [Dbl.div]
            rw [if_neg hk.ne']
            exact zero_le_ofQ (by positivity)
        exact hdiv _ _ ha0 (hdiv _ _ (by norm_num) h1)
      apply hnn
      have hsub : ∀ L w : Dbl, Dbl.le L (.fin lb) = true → w ≠ .nan → w ≠ .ninf → Dbl.sub w L ≠ .nan := by
        intro L w h1 h2 h3
        cases L with
        | nan => simp [Dbl.le] at h1
        | pinf => simp [Dbl.le] at h1
        | ninf => cases w <;> simp [Dbl.sub, Dbl.neg, Dbl.add] at *
        | fin l =>
          cases w with
          | nan => exact absurd rfl h2
          | ninf => exact absurd rfl h3
          | fin q => exact ofQ_ne_nan _
          | pinf => simp [Dbl.sub, Dbl.neg, Dbl.add]
      exact hsub _ _ hL hynan hyn
    · rw [if_neg hlt]
      exact Dbl.le_trans hU (le_of_not_dlt hlt (by intro h; rw [h] at hU; simp [Dbl.le] at hU) (by intro h; rw [h] at hge; simp at hge))
  · intro hab
    have hab : Dbl.le (Dbl.add (.fin lb) (.fin a)) (.fin x) = true := hab
    have hnl : ¬ Dbl.lt (.fin x) (Dbl.add (.fin lb) (.fin a)) = true := by
      rw [not_lt_of_le hab]; simp
    have hnL : ¬ Dbl.lt (.fin x) (Dbl.sub (.fin lb) (.fin a)) = true := by
      rw [not_lt_of_le (Dbl.le_trans hL (Dbl.le_trans hU hab))]; simp
    refine ⟨?_, by rw [hsq, if_neg hnl]⟩
    rw [hpre, hy, if_neg hnL]

theorem make_upper {ub a : ℚ} (ha : ((lit 1 + Arith.abs (.fin ub)) / lit 20 : Dbl) = .fin a) :
    BtPar.make .ninf (Dbl.fin ub) = .ok ⟨.ninf, .fin ub, .pinf, .fin a⟩ := by
  have h2 : (lit 2 : Dbl) = .fin 2 := lit_fin (by decide +kernel)
  have h1 : (lit 1 : Dbl) = .fin 1 := lit_fin (by decide +kernel)
  have h20 : (lit 20 : Dbl) = .fin 20 := lit_fin (by decide +kernel)
  have h0 : (lit 0 : Dbl) = .fin 0 := lit_fin (by decide +kernel)
  unfold BtPar.make
  have eb : (Arith.abs Dbl.ninf : Dbl) = .pinf := by unfold Arith.abs; rw [h0]; rfl
  have ec : ((Dbl.fin 1 + Dbl.pinf) / Dbl.fin 20 : Dbl) = .pinf := by
    show Dbl.div (Dbl.add (.fin 1) .pinf) (.fin 20) = _
    decide +kernel
  have hd : ((Dbl.fin ub - Dbl.ninf) / Dbl.fin 2 : Dbl) = .pinf := by
    show Dbl.div .pinf (.fin 2) = _
    decide +kernel
  rw [ha, h1, h2, h20, eb, hd, ec]
  have hf : (fmin Dbl.pinf (Dbl.fin a) : Dbl) = .fin a := by
    show (if !Dbl.eq .pinf .pinf then _ else if !Dbl.eq (.fin a) (.fin a) then _ else if Dbl.lt (.fin a) .pinf then _ else _) = _
    simp [Dbl.eq, Dbl.lt]
  rw [hf]
  rfl

theorem shift_upper {ub a : ℚ} (hub : IsDouble ub) (ha : 0 < a) (x : ℚ) : (BtPar.mk Dbl.ninf (.fin ub) .pinf (.fin a)).shift (.fin x) =
    .ok (if Dbl.lt (Dbl.add (.fin ub) (.fin a)) (.fin x) then Dbl.sub (.fin x) (Dbl.mul (.fin 2) (Dbl.sub (Dbl.sub (.fin x) (.fin ub)) (.fin a))) else .fin x) := by
  have h2 : (lit 2 : Dbl) = .fin 2 := lit_fin (by decide +kernel)
  have hd : ((Dbl.fin ub - Dbl.ninf) / Dbl.fin 2 : Dbl) = .pinf := by
    show Dbl.div .pinf (.fin 2) = _
    decide +kernel
  have hu : (BtPar.mk Dbl.ninf (.fin ub) .pinf (.fin a)).xup = .pinf := by
    unfold BtPar.xup
    dsimp only
    rw [h2, hd]
    show Dbl.add (Dbl.add (.fin ub) (Dbl.ofQ (2 * a))) .pinf = _
    have h3 := add_nonneg_ge hub (zero_le_ofQ (q := 2 * a) (by linarith))
    generalize Dbl.add (Dbl.fin ub) (Dbl.ofQ (2 * a)) = t at h3
    cases t <;> simp [Dbl.le] at h3 <;> rfl
  have hx : (BtPar.mk Dbl.ninf (.fin ub) .pinf (.fin a)).xlow = .ninf := by
    unfold BtPar.xlow
    dsimp only
    rw [h2, hd]
    show Dbl.sub (Dbl.sub .ninf (Dbl.mul (.fin 2) .pinf)) .pinf = _
    decide +kernel
  unfold BtPar.shift
  rw [hx, hu]
  unfold BtPar.up
  rw [if_neg (show ¬ Arith.lt (Dbl.fin x) .ninf = true from by show ¬ Dbl.lt (.fin x) .ninf = true; simp [Dbl.lt]), Res.ok_bind]
  unfold BtPar.down
  rw [if_neg (show ¬ Arith.lt Dbl.pinf (.fin x) = true from by show ¬ Dbl.lt .pinf (.fin x) = true; simp [Dbl.lt]), Res.ok_bind]
  unfold BtPar.mirror
  dsimp only
  rw [if_neg (show ¬ (Arith.lt (Dbl.fin x) (Dbl.ninf - Dbl.pinf : Dbl) = true) from by show ¬ Dbl.lt (.fin x) .ninf = true; simp [Dbl.lt]), h2]
  rfl

/-- **C57.** Floating point: a parameter with an upper bound only. No value is undefined or brought above the bound, and the values below the layer are
left alone. -/
theorem C57_upper_bounded {ub x : ℚ} (hub : IsDouble ub) (hx : IsDouble x) : ∃ p : BtPar Dbl, BtPar.make .ninf (.fin ub) = .ok p ∧
    (∃ y b, p.preimage (.fin x) = .ok (y, b) ∧ Dbl.le (p.squash y) (.fin ub) = true) ∧
    (Dbl.le (.fin x) (.fin ub - p.au) = true → p.preimage (.fin x) = .ok (.fin x, false) ∧ p.squash (.fin x) = .fin x) := by
  obtain ⟨a, ha, ha0, had⟩ := layer_pos hub
  refine ⟨_, make_upper ha, ?_⟩
  have hz : Dbl.le (.fin 0) (.fin a) = true := by simp only [Dbl.le, decide_eq_true_eq]; exact ha0.le
  have hL : Dbl.le (Dbl.sub (.fin ub) (.fin a)) (.fin ub) = true := sub_nonneg_le hub hz
  have hU : Dbl.le (.fin ub) (Dbl.add (.fin ub) (.fin a)) = true := add_nonneg_ge hub hz
  obtain ⟨c, hc, hc0⟩ := lit_small
  have hUd : ∀ l, Dbl.add (.fin ub) (.fin a) = .fin l → IsDouble l := fun l h => isDouble_ofQ (q := ub + a) h
  have hsq : ∀ z : Dbl, (BtPar.mk Dbl.ninf (.fin ub) .pinf (.fin a)).squash z = if Dbl.lt (Dbl.sub (.fin ub) (.fin a)) z then
      Dbl.sub (.fin ub) (Dbl.div (Dbl.div (Dbl.mul (Dbl.sub z (Dbl.add (.fin ub) (.fin a))) (Dbl.sub z (Dbl.add (.fin ub) (.fin a)))) (.fin 4)) (.fin a)) else z := by
    intro z
    unfold BtPar.squash
    dsimp only
    rw [show (lit 4 : Dbl) = .fin 4 from lit_fin (by decide +kernel)]
    rw [if_neg (show ¬ (Arith.lt z (Dbl.ninf + Dbl.pinf : Dbl) = true) from by show ¬ Dbl.lt z .nan = true; cases z <;> simp [Dbl.lt])]
    rfl
  have hnn : ∀ t : Dbl, t ≠ .nan → Dbl.le (.fin 0) (Dbl.div (Dbl.div (Dbl.mul t t) (.fin 4)) (.fin a)) = true := by
    intro t ht
    have h1 : Dbl.le (.fin 0) (Dbl.mul t t) = true := by
      cases t with
      | fin q => exact zero_le_ofQ (mul_self_nonneg q)
      | pinf => rfl
      | ninf => rfl
      | nan => exact absurd rfl ht
    have hdiv : ∀ (u : Dbl) (k : ℚ), 0 < k → Dbl.le (.fin 0) u = true → Dbl.le (.fin 0) (Dbl.div u (.fin k)) = true := by
      intro u k hk hu
      rcases nonneg_cases hu with rfl | ⟨q, rfl, hq⟩
      · simp only [Dbl.div]
        rw [if_neg (_root_.not_lt.2 hk.le)]; rfl
      · simp only [Dbl.div]
        rw [if_neg hk.ne']
        exact zero_le_ofQ (by positivity)
    exact hdiv _ _ ha0 (hdiv _ _ (by norm_num) h1)
  have hsub : ∀ L w : Dbl, Dbl.le (.fin ub) L = true → w ≠ .nan → w ≠ .pinf → Dbl.sub w L ≠ .nan := by
    intro L w h1 h2 h3
    cases L with
    | nan => simp [Dbl.le] at h1
    | ninf => simp [Dbl.le] at h1
    | pinf => cases w <;> simp [Dbl.sub, Dbl.neg, Dbl.add] at *
    | fin l =>
      cases w with
      | nan => exact absurd rfl h2
      | pinf => exact absurd rfl h3
      | fin q => exact ofQ_ne_nan _
      | ninf => simp [Dbl.sub, Dbl.neg, Dbl.add]
  have hbound : ∀ z : Dbl, z ≠ .nan → z ≠ .pinf → Dbl.le ((BtPar.mk Dbl.ninf (.fin ub) .pinf (.fin a)).squash z) (.fin ub) = true := by
    intro z hz1 hz2
    rw [hsq]
    by_cases hlt : Dbl.lt (Dbl.sub (.fin ub) (.fin a)) z = true
    · rw [if_pos hlt]
      exact sub_nonneg_le hub (hnn _ (hsub _ _ hU hz1 hz2))
    · rw [if_neg hlt]
      exact Dbl.le_trans (le_of_not_dlt hlt hz1 (by intro h; rw [h] at hL; simp [Dbl.le] at hL)) hL
  constructor
  · unfold BtPar.preimage
    rw [shift_upper hub ha0, Res.ok_bind]
    generalize hy : (if Dbl.lt (Dbl.add (.fin ub) (.fin a)) (.fin x) then Dbl.sub (.fin x) (Dbl.mul (.fin 2) (Dbl.sub (Dbl.sub (.fin x) (.fin ub)) (.fin a))) else .fin x) = y
    have hyx : Dbl.le y (.fin x) = true := by
      by_cases hlt : Dbl.lt (Dbl.add (.fin ub) (.fin a)) (.fin x) = true
      · rw [if_pos hlt] at hy
        -- the distance from the upper end of the layer is not negative
        have hge : ub + a ≤ x := by
          by_contra hcon
          have h1 : Dbl.le (.fin x) (Dbl.ofQ (ub + a)) = true := le_ofQ hx (by linarith)
          rw [not_lt_of_le (show Dbl.le (.fin x) (Dbl.add (.fin ub) (.fin a)) = true from h1)] at hlt
          cases hlt
        rw [← hy]
        apply sub_nonneg_le hx
        have h1 : Dbl.le (.fin a) (Dbl.sub (.fin x) (.fin ub)) = true := le_ofQ had (by linarith)
        have h2 : Dbl.le (.fin 0) (Dbl.sub (Dbl.sub (.fin x) (.fin ub)) (.fin a)) = true := by
          generalize Dbl.sub (.fin x) (.fin ub) = t at h1
          cases t with
          | nan => simp [Dbl.le] at h1
          | ninf => simp [Dbl.le] at h1
          | pinf => rfl
          | fin q => exact zero_le_ofQ (by have : a ≤ q := by simpa [Dbl.le] using h1
                                           linarith)
        rcases nonneg_cases h2 with h3 | ⟨q, h3, hq⟩
        · rw [h3]; simp [Dbl.mul, Dbl.infSign, Dbl.le]
        · rw [h3]; exact zero_le_ofQ (by linarith)
      · rw [if_neg hlt] at hy
        rw [← hy]; simp [Dbl.le]
    have hy1 : y ≠ .nan := by intro h; rw [h] at hyx; simp [Dbl.le] at hyx
    have hy2 : y ≠ .pinf := by intro h; rw [h] at hyx; simp [Dbl.le] at hyx
    split
    · exact ⟨.fin x, true, rfl, hbound _ (by simp) (by simp)⟩
    · exact ⟨y, false, rfl, hbound _ hy1 hy2⟩
  · intro hab
    have hab : Dbl.le (.fin x) (Dbl.sub (.fin ub) (.fin a)) = true := hab
    have hnU : ¬ Dbl.lt (Dbl.add (.fin ub) (.fin a)) (.fin x) = true := by
      rw [not_lt_of_le (Dbl.le_trans hab (Dbl.le_trans hL hU))]; simp
    refine ⟨?_, by rw [hsq, if_neg (by rw [not_lt_of_le hab]; simp)]⟩
    unfold BtPar.preimage
    rw [shift_upper hub ha0, Res.ok_bind, if_neg hnU]
    have hb : (BtPar.mk Dbl.ninf (.fin ub) .pinf (.fin a)).bug (.fin x) = false := by
      unfold BtPar.bug
      dsimp only
      rw [hc, Bool.or_eq_false_iff]
      constructor
      · rfl
      · show Dbl.lt (Dbl.add (Dbl.add (.fin ub) (.fin a)) (.fin c)) (.fin x) = false
        apply not_lt_of_le
        refine Dbl.le_trans (Dbl.le_trans hab (Dbl.le_trans hL hU)) ?_
        generalize Dbl.add (.fin ub) (.fin a) = U at hU hUd
        cases U with
        | nan => simp [Dbl.le] at hU
        | ninf => simp [Dbl.le] at hU
        | pinf => rfl
        | fin l => exact add_nonneg_ge (hUd l rfl) (by simp only [Dbl.le, decide_eq_true_eq]; exact hc0)
    rw [hb]
    rfl

/-- **C57.** Floating point, a limit of the code: with very large bounds the square overflows, and a value equal to its bound becomes infinite. -/
theorem C57_overflow : ∃ p : BtPar Dbl, BtPar.make (.fin 0) (.fin (2 ^ 600)) = .ok p ∧ p.preimage (.fin (2 ^ 600)) = .ok (.fin (2 ^ 600), false) ∧
    p.squash (.fin (2 ^ 600)) = .ninf := by
  have h2 : (lit 2 : Dbl) = .fin 2 := lit_fin (by decide +kernel)
  have h4 : (lit 4 : Dbl) = .fin 4 := lit_fin (by decide +kernel)
  have h1 : (lit 1 : Dbl) = .fin 1 := lit_fin (by decide +kernel)
  have h20 : (lit 20 : Dbl) = .fin 20 := lit_fin (by decide +kernel)
  have hc : (lit (1 / 10 ^ 15) : Dbl) = .fin (bin64 (1 / 10 ^ 15)) := by show Dbl.ofQ _ = _; decide +kernel
  refine ⟨⟨.fin 0, .fin (2 ^ 600), .fin (bin64 (1 / 20)), .fin (bin64 (2 ^ 600 / 20))⟩, ?_, ?_, ?_⟩
  · unfold BtPar.make
    have e1 : (Arith.abs (Dbl.fin 0) : Dbl) = .fin 0 := by rw [abs_fin]; simp
    have e2 : (Arith.abs (Dbl.fin (2 ^ 600)) : Dbl) = .fin (2 ^ 600) := by rw [abs_fin]; decide +kernel
    rw [h1, h2, h20, e1, e2]
    have f1 : (fmin ((Dbl.fin (2 ^ 600) - Dbl.fin 0) / Dbl.fin 2) ((Dbl.fin 1 + Dbl.fin 0) / Dbl.fin 20) : Dbl) = .fin (bin64 (1 / 20)) := by
      show (if !Dbl.eq (Dbl.div (Dbl.sub (.fin (2 ^ 600)) (.fin 0)) (.fin 2)) (Dbl.div (Dbl.sub (.fin (2 ^ 600)) (.fin 0)) (.fin 2)) then _ else
        if !Dbl.eq (Dbl.div (Dbl.add (.fin 1) (.fin 0)) (.fin 20)) (Dbl.div (Dbl.add (.fin 1) (.fin 0)) (.fin 20)) then _ else
        if Dbl.lt (Dbl.div (Dbl.add (.fin 1) (.fin 0)) (.fin 20)) (Dbl.div (Dbl.sub (.fin (2 ^ 600)) (.fin 0)) (.fin 2)) then
          Dbl.div (Dbl.add (.fin 1) (.fin 0)) (.fin 20) else Dbl.div (Dbl.sub (.fin (2 ^ 600)) (.fin 0)) (.fin 2)) = _
      rw [show Dbl.div (Dbl.sub (.fin (2 ^ 600)) (.fin 0)) (.fin 2) = .fin (2 ^ 599) by decide +kernel,
        show Dbl.div (Dbl.add (.fin 1) (.fin 0)) (.fin 20) = .fin (bin64 (1 / 20)) by decide +kernel]
      rw [if_neg (by decide +kernel), if_neg (by decide +kernel), if_pos (by decide +kernel)]
    have f2 : (fmin ((Dbl.fin (2 ^ 600) - Dbl.fin 0) / Dbl.fin 2) ((Dbl.fin 1 + Dbl.fin (2 ^ 600)) / Dbl.fin 20) : Dbl) = .fin (bin64 (2 ^ 600 / 20)) := by
      show (if !Dbl.eq (Dbl.div (Dbl.sub (.fin (2 ^ 600)) (.fin 0)) (.fin 2)) (Dbl.div (Dbl.sub (.fin (2 ^ 600)) (.fin 0)) (.fin 2)) then _ else
        if !Dbl.eq (Dbl.div (Dbl.add (.fin 1) (.fin (2 ^ 600))) (.fin 20)) (Dbl.div (Dbl.add (.fin 1) (.fin (2 ^ 600))) (.fin 20)) then _ else
        if Dbl.lt (Dbl.div (Dbl.add (.fin 1) (.fin (2 ^ 600))) (.fin 20)) (Dbl.div (Dbl.sub (.fin (2 ^ 600)) (.fin 0)) (.fin 2)) then
          Dbl.div (Dbl.add (.fin 1) (.fin (2 ^ 600))) (.fin 20) else Dbl.div (Dbl.sub (.fin (2 ^ 600)) (.fin 0)) (.fin 2)) = _
      rw [show Dbl.div (Dbl.sub (.fin (2 ^ 600)) (.fin 0)) (.fin 2) = .fin (2 ^ 599) by decide +kernel,
        show Dbl.div (Dbl.add (.fin 1) (.fin (2 ^ 600))) (.fin 20) = .fin (bin64 (2 ^ 600 / 20)) by decide +kernel]
      rw [if_neg (by decide +kernel), if_neg (by decide +kernel), if_pos (by decide +kernel)]
    rw [f1, f2]
    have hcond : (Arith.eq (Dbl.fin 0) (Dbl.fin (2 ^ 600)) || Arith.lt (Dbl.fin (2 ^ 600)) (Dbl.fin 0)) = false := by
      show (Dbl.eq (Dbl.fin 0) (Dbl.fin (2 ^ 600)) || Dbl.lt (Dbl.fin (2 ^ 600)) (Dbl.fin 0)) = false
      decide +kernel
    rw [hcond]
    rfl
  · unfold BtPar.preimage BtPar.shift BtPar.up BtPar.down BtPar.mirror BtPar.bug BtPar.xlow BtPar.xup
    dsimp only
    rw [h2, hc]
    have g1 : (Arith.lt (Dbl.fin (2 ^ 600)) (Dbl.fin 0 - Dbl.fin 2 * Dbl.fin (bin64 (1 / 20)) - (Dbl.fin (2 ^ 600) - Dbl.fin 0) / Dbl.fin 2 : Dbl)) = false := by
      show Dbl.lt (Dbl.fin (2 ^ 600)) (Dbl.sub (Dbl.sub (.fin 0) (Dbl.mul (.fin 2) (.fin (bin64 (1 / 20))))) (Dbl.div (Dbl.sub (.fin (2 ^ 600)) (.fin 0)) (.fin 2))) = false
      decide +kernel
    have g2 : (Arith.lt (Dbl.fin (2 ^ 600) + Dbl.fin 2 * Dbl.fin (bin64 (2 ^ 600 / 20)) + (Dbl.fin (2 ^ 600) - Dbl.fin 0) / Dbl.fin 2 : Dbl) (Dbl.fin (2 ^ 600))) = false := by
      show Dbl.lt (Dbl.add (Dbl.add (.fin (2 ^ 600)) (Dbl.mul (.fin 2) (.fin (bin64 (2 ^ 600 / 20))))) (Dbl.div (Dbl.sub (.fin (2 ^ 600)) (.fin 0)) (.fin 2))) (Dbl.fin (2 ^ 600)) = false
      decide +kernel
    have g3 : Arith.lt (Dbl.fin (2 ^ 600)) (Dbl.fin 0 - Dbl.fin (bin64 (1 / 20)) : Dbl) = false := by
      show Dbl.lt (Dbl.fin (2 ^ 600)) (Dbl.sub (Dbl.fin 0) (Dbl.fin (bin64 (1 / 20)))) = false
      decide +kernel
    have g4 : Arith.lt (Dbl.fin (2 ^ 600) + Dbl.fin (bin64 (2 ^ 600 / 20)) : Dbl) (Dbl.fin (2 ^ 600)) = false := by
      show Dbl.lt (Dbl.add (Dbl.fin (2 ^ 600)) (Dbl.fin (bin64 (2 ^ 600 / 20)))) (Dbl.fin (2 ^ 600)) = false
      decide +kernel
    have g5 : (Arith.lt (Dbl.fin (2 ^ 600)) (Dbl.fin 0 - Dbl.fin (bin64 (1 / 20)) - Dbl.fin (bin64 (1 / 10 ^ 15)) : Dbl) ||
        Arith.lt (Dbl.fin (2 ^ 600) + Dbl.fin (bin64 (2 ^ 600 / 20)) + Dbl.fin (bin64 (1 / 10 ^ 15)) : Dbl) (Dbl.fin (2 ^ 600))) = false := by
      show (Dbl.lt (Dbl.fin (2 ^ 600)) (Dbl.sub (Dbl.sub (Dbl.fin 0) (Dbl.fin (bin64 (1 / 20)))) (Dbl.fin (bin64 (1 / 10 ^ 15)))) ||
        Dbl.lt (Dbl.add (Dbl.add (Dbl.fin (2 ^ 600)) (Dbl.fin (bin64 (2 ^ 600 / 20)))) (Dbl.fin (bin64 (1 / 10 ^ 15)))) (Dbl.fin (2 ^ 600))) = false
      decide +kernel
    rw [g1, if_neg Bool.false_ne_true, Res.ok_bind, g2, if_neg Bool.false_ne_true, Res.ok_bind, Res.ok_bind, g3]
    simp only [Bool.false_eq_true, if_false]
    rw [g4]
    simp only [Bool.false_eq_true, if_false]
    rw [g5]
    rfl
  · unfold BtPar.squash
    dsimp only
    rw [h4]
    have g1 : Arith.lt (Dbl.fin (2 ^ 600)) (Dbl.fin 0 + Dbl.fin (bin64 (1 / 20)) : Dbl) = false := by
      show Dbl.lt (Dbl.fin (2 ^ 600)) (Dbl.add (Dbl.fin 0) (Dbl.fin (bin64 (1 / 20)))) = false
      decide +kernel
    have g2 : Arith.lt (Dbl.fin (2 ^ 600) - Dbl.fin (bin64 (2 ^ 600 / 20)) : Dbl) (Dbl.fin (2 ^ 600)) = true := by
      show Dbl.lt (Dbl.sub (Dbl.fin (2 ^ 600)) (Dbl.fin (bin64 (2 ^ 600 / 20)))) (Dbl.fin (2 ^ 600)) = true
      decide +kernel
    rw [g1, if_neg (by simp), g2, if_pos rfl]
    show Dbl.sub (.fin (2 ^ 600)) (Dbl.div (Dbl.div (Dbl.mul (Dbl.sub (.fin (2 ^ 600)) (Dbl.add (.fin (2 ^ 600)) (.fin (bin64 (2 ^ 600 / 20)))))
      (Dbl.sub (.fin (2 ^ 600)) (Dbl.add (.fin (2 ^ 600)) (.fin (bin64 (2 ^ 600 / 20)))))) (.fin 4)) (.fin (bin64 (2 ^ 600 / 20)))) = _
    decide +kernel

/-- The hypotheses of `C57_lower_bounded` and `C57_upper_bounded` are met by 1 and -3. -/
example : IsDouble 1 ∧ IsDouble (-3) := by decide +kernel

end
end Spot
