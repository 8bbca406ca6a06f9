import Verif.Lemmas.Cma
import Verif.Lemmas.FloatSum
import Mathlib.Analysis.Complex.ExponentialBounds

/-! # Signs in CMA-ES in floating point (C103) -/

namespace Spot

namespace Dbl

theorem NotNeg.sub_of_not_lt {x y : Dbl} (h : Dbl.lt x y = false) : NotNeg (Dbl.sub x y) := by
  cases x <;> cases y <;> simp only [Dbl.sub, Dbl.neg, Dbl.add] <;> first
    | exact notNeg_nan
    | exact notNeg_pinf
    | (simp [Dbl.lt] at h; done)
    | (simp only [Dbl.lt, decide_eq_false_iff_not, _root_.not_lt] at h; exact notNeg_ofQ (by linarith))

theorem ofQ_neg' (q : ℚ) : ofQ (-q) = neg (ofQ q) := by
  have hb : bin64 (-q) = - bin64 q := rnd_neg (b := 2) (fexp := fexp64) q
  have hm : (0:ℚ) < maxQ := by unfold maxQ; norm_num
  simp only [ofQ, hb]
  by_cases h1 : maxQ < bin64 q
  · rw [if_neg (by linarith : ¬ maxQ < -bin64 q), if_pos (by linarith), if_pos h1]; rfl
  · by_cases h2 : bin64 q < -maxQ
    · rw [if_pos (by linarith), if_neg h1, if_pos h2]; rfl
    · rw [if_neg (by linarith), if_neg (by linarith), if_neg h1, if_neg h2]; rfl

theorem infSign_neg (q : ℚ) : infSign (-q) = neg (infSign q) := by
  unfold infSign
  rcases lt_trichotomy q 0 with h | rfl | h
  · rw [if_pos (by linarith), if_neg (by linarith), if_pos h]; rfl
  · simp [neg]
  · rw [if_neg (by linarith), if_pos (by linarith), if_pos h]; rfl

theorem neg_neg' (a : Dbl) : neg (neg a) = a := by cases a <;> simp [neg]

theorem mul_neg_right (a b : Dbl) : Dbl.mul a (neg b) = neg (Dbl.mul a b) := by
  have h2 : ∀ q, infSign q = neg (infSign (-q)) := fun q => by rw [infSign_neg, neg_neg']
  cases a <;> cases b <;> first
    | rfl
    | exact (congrArg ofQ (mul_neg _ _)).trans (ofQ_neg' _)
    | exact infSign_neg _
    | exact h2 _

theorem mul_neg_left (a b : Dbl) : Dbl.mul (neg a) b = neg (Dbl.mul a b) := by
  have h2 : ∀ q, infSign q = neg (infSign (-q)) := fun q => by rw [infSign_neg, neg_neg']
  cases a <;> cases b <;> first
    | rfl
    | exact (congrArg ofQ (neg_mul _ _)).trans (ofQ_neg' _)
    | exact infSign_neg _
    | exact h2 _

/-- A factor that occurs twice does not matter for the sign. -/
theorem NotNeg.mul_twice {a : Dbl} (ha : NotNeg a) (d : Dbl) : NotNeg (Dbl.mul (Dbl.mul a d) d) := by
  have h : NotNeg d ∨ NotNeg (neg d) := by
    cases d with
    | nan => exact .inl notNeg_nan
    | pinf => exact .inl notNeg_pinf
    | ninf => exact .inr notNeg_pinf
    | fin q =>
      rcases _root_.le_total 0 q with h | h
      · exact .inl (notNeg_fin.2 h)
      · exact .inr (notNeg_fin.2 (by linarith))
  rcases h with h | h
  · exact (ha.mul h).mul h
  · have e : Dbl.mul (Dbl.mul a d) d = Dbl.mul (Dbl.mul a (neg d)) (neg d) := by
      rw [mul_neg_right, mul_neg_right, mul_neg_left, neg_neg']
    rw [e]
    exact (ha.mul h).mul h

theorem NotNeg.min [Libm] {a b : Dbl} (ha : NotNeg a) (hb : NotNeg b) : NotNeg (Arith.min a b) := by
  unfold Arith.min; split <;> assumption

theorem not_lt_min [Libm] (a b : Dbl) : Dbl.lt b (Arith.min a b) = false := by
  unfold Arith.min
  split
  · exact lt_irrefl b
  · rename_i h
    exact Bool.eq_false_iff.2 h

end Dbl

section
variable {n : Nat} [Libm] {G : GaussSrc Dbl}

/-- What the strategy parameters have to satisfy. -/
structure CmaPar.Signs (p : CmaPar Dbl) : Prop where
  weights : ∀ w ∈ p.weights, Dbl.NotNeg w
  ccov : Dbl.NotNeg p.ccov
  mucov : Dbl.le (.fin 1) p.mucov = true
  ccumcov : Dbl.NotNeg p.ccumcov
  ccumcov2 : Dbl.le p.ccumcov (.fin 2) = true

/-- What is used of `exp` and `sqrt`: `exp` is never negative, and `sqrt` is not if its argument is not. -/
structure Libm.Signs : Prop where
  exp : ∀ x, Dbl.NotNeg (Libm.exp x)
  sqrt : ∀ x, Dbl.NotNeg x → Dbl.NotNeg (Libm.sqrt x)

theorem lit_notNeg {q : ℚ} (h : 0 ≤ q) : Dbl.NotNeg (lit q : Dbl) := Dbl.notNeg_ofQ h

theorem one_div_le_one {m : Dbl} (h : Dbl.le (.fin 1) m = true) : Dbl.le (Dbl.div (.fin 1) m) (.fin 1) = true ∧ Dbl.NotNeg (Dbl.div (.fin 1) m) := by
  cases m with
  | nan => simp at h
  | ninf => simp [Dbl.le] at h
  | pinf => exact ⟨by decide +kernel, Dbl.notNeg_fin.2 (le_refl 0)⟩
  | fin q =>
    simp only [Dbl.le, decide_eq_true_eq] at h
    have h1 : 1 / q ≤ 1 := by rw [div_le_one (by linarith)]; exact h
    simp only [Dbl.div, if_neg (show ¬ q = 0 by linarith)]
    exact ⟨Dbl.ofQ_le ⟨by decide +kernel, by decide +kernel⟩ h1, Dbl.notNeg_ofQ (by positivity)⟩

variable {p : CmaPar Dbl}

theorem ccov1_notNeg (hp : p.Signs) (diag : Bool) : Dbl.NotNeg (Cma.ccov1 p n diag) := by
  unfold Cma.ccov1
  refine Dbl.NotNeg.min ?_ (lit_notNeg (by norm_num))
  have e : (lit 1 : Dbl) = .fin 1 := Dbl.ofQ_one
  refine Dbl.NotNeg.mul (Dbl.NotNeg.mul hp.ccov ?_) ?_
  · show Dbl.NotNeg (Dbl.div (lit 1) p.mucov)
    rw [e]; exact (one_div_le_one hp.mucov).2
  · split
    · refine Dbl.NotNeg.div (Dbl.NotNeg.add (lit_notNeg (by positivity)) (lit_notNeg (by norm_num))) (lit_notNeg (by norm_num))
    · exact lit_notNeg (by norm_num)

theorem ccovmu_notNeg (hp : p.Signs) (diag : Bool) : Dbl.NotNeg (Cma.ccovmu p n diag) ∧
    Dbl.NotNeg (lit 1 - Cma.ccov1 p n diag - Cma.ccovmu p n diag) := by
  have e : (lit 1 : Dbl) = .fin 1 := Dbl.ofQ_one
  refine ⟨?_, Dbl.NotNeg.sub_of_not_lt (Dbl.not_lt_min _ _)⟩
  unfold Cma.ccovmu
  refine Dbl.NotNeg.min ?_ ?_
  · refine Dbl.NotNeg.mul (Dbl.NotNeg.mul hp.ccov ?_) ?_
    · show Dbl.NotNeg (Dbl.sub (lit 1) (Dbl.div (lit 1) p.mucov))
      rw [e]; exact Dbl.NotNeg.one_sub (one_div_le_one hp.mucov).1
    · split
      · refine Dbl.NotNeg.div (Dbl.NotNeg.add (lit_notNeg (by positivity)) (lit_notNeg (by norm_num))) (lit_notNeg (by norm_num))
      · exact lit_notNeg (by norm_num)
  · exact Dbl.NotNeg.sub_of_not_lt (Dbl.not_lt_min _ _)

theorem weight_notNeg (hp : p.Signs) (k : Nat) : Dbl.NotNeg (p.weights.getD k (lit 0)) := by
  rw [List.getD_eq_getElem?_getD]
  cases hk : p.weights[k]? with
  | none => exact lit_notNeg (le_refl 0)
  | some v => exact hp.weights v (List.mem_of_getElem? hk)

theorem newC_notNeg (hp : p.Signs) (s : Cma G n) (hs : Bool) (i : Fin n) (hC : Dbl.NotNeg (s.C i i)) : Dbl.NotNeg (s.newC p hs i i) := by
  unfold Cma.newC
  dsimp only
  obtain ⟨h1, h2⟩ := ccovmu_notNeg (n := n) hp (s.flgdiag p)
  refine Dbl.NotNeg.foldl (fun k => Cma.ccovmu p n (s.flgdiag p) * p.weights.getD k (lit 0) * (s.ranked k i - s.xold i) * (s.ranked k i - s.xold i) / (s.sigma * s.sigma))
    (fun k => ?_) _ _ ?_
  · exact Dbl.NotNeg.div (Dbl.NotNeg.mul_twice (h1.mul (weight_notNeg hp k)) _) (Dbl.notNeg_squared _)
  · refine Dbl.NotNeg.add (h2.mul hC) (Dbl.NotNeg.mul (ccov1_notNeg hp _) (Dbl.NotNeg.add (Dbl.notNeg_squared _) (Dbl.NotNeg.mul (Dbl.NotNeg.mul (Dbl.NotNeg.mul ?_ hp.ccumcov) ?_) hC)))
    · split <;> exact lit_notNeg (by norm_num)
    · have e : (lit 2 : Dbl) = .fin 2 := by show Dbl.ofQ 2 = _; decide +kernel
      rw [e]
      exact Dbl.NotNeg.sub_of_not_lt (Dbl.le_iff.1 hp.ccumcov2).2

/-- What holds between the calls. -/
structure Cma.Signs (s : Cma G n) : Prop where
  sigma : Dbl.NotNeg s.sigma
  diag : ∀ i, Dbl.NotNeg (s.C i i)

theorem adapt_signs (hl : Libm.Signs) (hp : p.Signs) {s : Cma G n} (h : s.Signs) (fs : List Dbl) : ((s.rank p fs).adapt p).Signs := by
  obtain ⟨-, -, -, -, -, -, -, -, h3, h4⟩ := Cma.adapt_fields p (s.rank p fs)
  have hr : Dbl.NotNeg (s.rank p fs).sigma := by
    unfold Cma.rank
    dsimp only
    split
    · exact h.sigma.mul (hl.exp _)
    · exact h.sigma
  refine ⟨?_, fun i => ?_⟩
  · rw [h4]
    exact hr.mul (hl.exp _)
  · rw [h3]
    unfold Cma.adaptC
    split
    · exact h.diag i
    · dsimp only
      rw [if_pos (by split <;> simp)]
      exact newC_notNeg hp _ _ i (h.diag i)

theorem init_signs (hl : Libm.Signs) (m std : Fin n → Dbl) (e : G.St) : (Cma.init p m std e : Cma G n).Signs := by
  refine ⟨hl.sqrt _ (Dbl.NotNeg.div ?_ (lit_notNeg (by positivity))), fun i => ?_⟩
  · exact Dbl.NotNeg.foldl (fun i => std i * std i) (fun i => Dbl.notNeg_squared _) _ _ (lit_notNeg (le_refl 0))
  · unfold Cma.init
    dsimp only
    rw [if_pos rfl]
    exact Dbl.notNeg_squared _

theorem calls_signs (hl : Libm.Signs) (hp : p.Signs) (b : Bounds Dbl n) (mn : Bool) (eig : Eig Dbl n) {s0 s : Cma G n} (h0 : s0.Signs)
    {cs : List (CmaCall Dbl n × Res Unit)} (h : Cma.Calls b mn eig p s0 cs s) : s.Signs := by
  induction h with
  | nil => exact h0
  | @snoc cs s h c ih =>
    cases c with
    | sample tr =>
      obtain ⟨h1, -, -, -⟩ := s.sample_same tr b eig p
      refine ⟨?_, fun i => ?_⟩
      · show Dbl.NotNeg (s.sample tr b eig p).1.sigma
        rw [h1.sigma]; exact ih.sigma
      · show Dbl.NotNeg ((s.sample tr b eig p).1.C i i)
        rw [h1.C]; exact ih.diag i
    | update fs =>
      show (s.update p mn fs).1.Signs
      rcases s.update_cases p mn fs with ⟨hst, -, he⟩ | ⟨-, he⟩
      · rw [he]; exact adapt_signs hl hp ih _
      · rw [he]; exact ih

/-! ## The strategy parameters -/

/-- What is used of `log`: `log( 1 )` is 0, `log( 2 )` and `log( 3 )` are right to two digits, and it does not decrease, and no value is beyond 1000 (that of `DBL_MAX` is 709.8). -/
structure Libm.LogOk : Prop where
  one : Libm.log (.fin 1) = .fin 0
  two : Dbl.le (.fin (69 / 100)) (Libm.log (.fin 2)) = true ∧ Dbl.le (Libm.log (.fin 2)) (.fin (7 / 10)) = true
  three : Dbl.le (.fin (109 / 100)) (Libm.log (.fin 3)) = true
  mono : ∀ a b, 1 ≤ a → a ≤ b → b ≤ Dbl.maxQ → Dbl.le (Libm.log (.fin a)) (Libm.log (.fin b)) = true
  big : ∀ a, 1 ≤ a → a ≤ Dbl.maxQ → Dbl.le (Libm.log (.fin a)) (.fin 1000) = true

theorem nat_le_max {k : ℕ} (h : k < 2 ^ 53) : (k : ℚ) ≤ Dbl.maxQ := by
  have h1 : (k : ℚ) < 2 ^ 53 := by exact_mod_cast h
  have h2 : (2:ℚ) ^ 53 ≤ Dbl.maxQ := by decide +kernel
  linarith

theorem log_nat (hl : Libm.LogOk) {k : ℕ} (h1 : 1 ≤ k) (h : k < 2 ^ 53) : ∃ q : ℚ, Libm.log (.fin k) = .fin q ∧ 0 ≤ q ∧ q ≤ 1000 := by
  have h2 := hl.mono 1 k (le_refl 1) (by exact_mod_cast h1) (nat_le_max h)
  have h3 := hl.big k (by exact_mod_cast h1) (nat_le_max h)
  rw [hl.one] at h2
  cases hk : Libm.log (.fin k) with
  | fin q =>
    rw [hk] at h2 h3
    simp only [Dbl.le, decide_eq_true_eq] at h2 h3
    exact ⟨q, rfl, h2, h3⟩
  | nan => rw [hk] at h2; simp at h2
  | ninf => rw [hk] at h2; simp [Dbl.le] at h2
  | pinf => rw [hk] at h3; simp [Dbl.le] at h3

theorem lit_nat_succ {k : ℕ} (h : k + 1 < 2 ^ 53) : (lit ((k : ℚ) + 1) : Dbl) = .fin ((k + 1 : ℕ) : ℚ) := by
  have e : ((k : ℚ) + 1) = ((k + 1 : ℕ) : ℚ) := by push_cast; ring
  rw [e]
  refine Dbl.ofQ_double ⟨bin64_nat _ h, ?_⟩
  rw [abs_of_nonneg (by positivity)]
  have h1 : ((k + 1 : ℕ) : ℚ) < 2 ^ 53 := by exact_mod_cast h
  have h2 : (2:ℚ) ^ 53 ≤ 2 ^ 1024 := by decide +kernel
  exact lt_of_lt_of_le h1 h2

/-- The weights before normalization. -/
theorem raw_log (hl : Libm.LogOk) {mu : ℕ} (hmu : 1 ≤ mu) (hmax : mu < 2 ^ 31) : ∃ w : ℕ → ℚ, (∀ k < mu, (CmaWeights.log.raw mu k : Dbl) = .fin (w k)) ∧
    (∀ k, 0 ≤ w k) ∧ (∀ k, w k ≤ w 0) ∧ (∀ k, w (k + 1) ≤ w k) ∧ (∀ k, w k ≤ (1024 : ℕ)) ∧ 3 / 5 ≤ w 0 ∧ bin64 (w 0) = w 0 ∧ (2 ≤ mu → 3 / 10 * w 0 ≤ w 1) := by
  have hlog : ∀ k : ℕ, ∃ q : ℚ, k ≤ mu → Libm.log (.fin ((k + 1 : ℕ) : ℚ)) = .fin q ∧ 0 ≤ q ∧ q ≤ 1000 := by
    intro k
    by_cases hk : k ≤ mu
    · obtain ⟨q, hq⟩ := log_nat hl (k := k + 1) (by omega) (by omega)
      exact ⟨q, fun _ => hq⟩
    · exact ⟨0, fun h => absurd h hk⟩
  choose l hl' using hlog
  have lmono : ∀ j k, j ≤ k → k ≤ mu → l j ≤ l k := by
    intro j k hjk hk
    have := hl.mono ((j + 1 : ℕ) : ℚ) ((k + 1 : ℕ) : ℚ) (by push_cast; linarith [(Nat.cast_nonneg j : (0:ℚ) ≤ j)]) (by exact_mod_cast Nat.succ_le_succ hjk)
      (nat_le_max (by omega))
    rw [(hl' j (by omega)).1, (hl' k hk).1] at this
    simpa only [Dbl.le, decide_eq_true_eq] using this
  have l0 : l 0 = 0 := by
    have h1 := (hl' 0 (by omega)).1
    have e : ((0 + 1 : ℕ) : ℚ) = 1 := by norm_num
    rw [e, hl.one] at h1
    exact (Dbl.fin.inj h1).symm
  have l1 : 69 / 100 ≤ l 1 ∧ l 1 ≤ 7 / 10 := by
    have h1 := (hl' 1 (by omega)).1
    have e : ((1 + 1 : ℕ) : ℚ) = 2 := by norm_num
    rw [e] at h1
    have := hl.two
    rw [h1] at this
    simpa only [Dbl.le, decide_eq_true_eq] using this
  have l2 : 2 ≤ mu → 109 / 100 ≤ l 2 := by
    intro h
    have h1 := (hl' 2 h).1
    have e : ((2 + 1 : ℕ) : ℚ) = 3 := by norm_num
    rw [e] at h1
    have := hl.three
    rw [h1] at this
    simpa only [Dbl.le, decide_eq_true_eq] using this
  set L := l mu with hL
  have hL1 : 69 / 100 ≤ L := l1.1.trans (lmono 1 mu hmu (le_refl _))
  have hLm : L ≤ 1000 := (hl' mu (le_refl _)).2.2
  let w : ℕ → ℚ := fun k => if k < mu then bin64 (L - l k) else 0
  have hw : ∀ k, k < mu → w k = bin64 (L - l k) := fun k hk => if_pos hk
  have hsub : ∀ k, k < mu → 0 ≤ L - l k ∧ L - l k ≤ L := fun k hk => ⟨sub_nonneg.2 (lmono k mu hk.le (le_refl _)), by linarith [(hl' k hk.le).2.1]⟩
  have w0 : w 0 = bin64 L := by rw [hw 0 (by omega), l0, sub_zero]
  have hnn : ∀ k, 0 ≤ w k := by
    intro k
    by_cases hk : k < mu
    · rw [hw k hk]; exact bin64_nonneg (hsub k hk).1
    · exact (if_neg hk).ge
  have hrel := bin64_rel (q := L) (by linarith)
  have hdec : ∀ k, w (k + 1) ≤ w k := by
    intro k
    by_cases hk : k + 1 < mu
    · rw [hw _ hk, hw k (by omega)]
      exact bin64_mono (by linarith [lmono k (k + 1) (by omega) (by omega)])
    · rw [show w (k + 1) = 0 from if_neg hk]; exact hnn k
  have hle : ∀ k, w k ≤ w 0 := by
    intro k
    induction k with
    | zero => exact le_refl _
    | succ k ih => exact (hdec k).trans ih
  have hw0M : w 0 ≤ 1024 := by
    rw [w0]
    have : (1000:ℚ) * (1 + 1 / 2 ^ 52) ≤ 1024 := by norm_num
    have h2 : L * (1 + 1 / 2 ^ 52) ≤ 1000 * (1 + 1 / 2 ^ 52) := by gcongr
    linarith
  refine ⟨w, fun k hk => ?_, hnn, hle, hdec, fun k => (hle k).trans (by exact_mod_cast hw0M), ?_, by rw [w0]; exact bin64_idem _, fun h2 => ?_⟩
  · show Dbl.sub (Libm.log (lit ((mu : ℚ) + 1))) (Libm.log (lit ((k : ℚ) + 1))) = _
    rw [lit_nat_succ (by omega), lit_nat_succ (by omega), (hl' mu (le_refl _)).1, (hl' k hk.le).1, hw k hk]
    show Dbl.ofQ (L + -(l k)) = _
    rw [← sub_eq_add_neg]
    exact Dbl.ofQ_fin (hsub k hk).1 (by have := (hsub k hk).2; have : (1000:ℚ) ≤ 2 ^ 100 := by norm_num
                                        linarith)
  · rw [w0]
    have : (3:ℚ) / 5 ≤ 69 / 100 * (1 - 1 / 2 ^ 52) := by norm_num
    have h2 : (69:ℚ) / 100 * (1 - 1 / 2 ^ 52) ≤ L * (1 - 1 / 2 ^ 52) := mul_le_mul_of_nonneg_right hL1 (by norm_num)
    linarith
  · have hL2 : 109 / 100 ≤ L := (l2 h2).trans (lmono 2 mu h2 (le_refl _))
    rw [w0, hw 1 (by omega)]
    have h3 := (bin64_rel (q := L - l 1) (by linarith)).1
    have h4 : 7 / 20 * L ≤ L - l 1 := by linarith [l1.2]
    have h5 : 7 / 20 * L * (1 - 1 / 2 ^ 52) ≤ (L - l 1) * (1 - 1 / 2 ^ 52) := mul_le_mul_of_nonneg_right h4 (by norm_num)
    have h6 : (3:ℚ) / 10 * (1 + 1 / 2 ^ 52) ≤ 7 / 20 * (1 - 1 / 2 ^ 52) := by norm_num
    have h7 := mul_le_mul_of_nonneg_left h6 (show 0 ≤ L by linarith)
    linarith

/-- **C103.** The weights in floating point. -/
theorem C103_weights (hl : Libm.LogOk) (lambda : ℕ) (h2 : 2 ≤ lambda) (hmax : lambda < 2 ^ 31) : ∃ (w : List Dbl) (mueff : ℚ),
    cmaSetWeights .log (lambda / 2) lambda = .ok (w, .fin mueff) ∧ w.length = lambda / 2 ∧ 1 ≤ mueff ∧
    (∀ x ∈ w, Dbl.le (.fin 0) x = true ∧ Dbl.le x (.fin 1) = true) ∧ w.Pairwise (fun a b => Dbl.le b a = true) := by
  set mu := lambda / 2 with hmu
  have hmu1 : 1 ≤ mu := by omega
  obtain ⟨w, hr, h0, h1, hdec, hM, hw, hd, h3⟩ := raw_log hl hmu1 (by omega : mu < 2 ^ 31)
  have hN : 1024 * mu < 2 ^ 53 := by omega
  have hS := foldl_fsum hN h0 hM _ hr mu (le_refl _)
  have hsq0 : ∀ k, 0 ≤ bin64 (w k * w k) := fun k => bin64_nonneg (mul_self_nonneg _)
  have hsqM : ∀ k, w k * w k ≤ 1048576 := fun k => by have a := h0 k; have b := hM k; push_cast at b; nlinarith
  have hsqM' : ∀ k, bin64 (w k * w k) ≤ (1048576 : ℕ) := fun k => by
    have := bin64_mono (hsqM k)
    rw [show bin64 (1048576 : ℚ) = 1048576 by decide +kernel] at this
    exact_mod_cast this
  have hT := foldl_fsum (M := 1048576) (N := mu) (by omega) hsq0 hsqM' (fun k => Dbl.mul (CmaWeights.log.raw mu k) (CmaWeights.log.raw mu k))
    (fun k hk => by
      rw [hr k hk]
      exact Dbl.ofQ_fin (mul_self_nonneg _) ((hsqM k).trans (by norm_num))) mu (le_refl _)
  obtain ⟨g1, g2⟩ := sq_sum_ge hmu1 (by omega) h0 h1 hw hd h3
  set S := fsum w mu with hSd
  set T := fsum (fun i => bin64 (w i * w i)) mu with hTd
  have hSM : S ≤ 2 ^ 41 := by
    have := fsum_le hN hM mu (le_refl _)
    have h4 : ((1024 * mu : ℕ) : ℚ) ≤ 2 ^ 41 := by exact_mod_cast (by omega : 1024 * mu ≤ 2 ^ 41)
    push_cast at h4 this
    linarith
  have hwS : w 0 ≤ S := by
    have := fsum_mono h0 hmu1
    have e : fsum w 1 = w 0 := by simp only [fsum, zero_add]; exact hd
    rwa [e] at this
  have hS0 : 0 < S := by linarith
  have hSS : S * S ≤ 2 ^ 82 := by
    have : S * S ≤ 2 ^ 41 * 2 ^ 41 := mul_le_mul hSM hSM hS0.le (by norm_num)
    calc S * S ≤ 2 ^ 41 * 2 ^ 41 := this
      _ = 2 ^ 82 := by norm_num
  have hT3 : 3 / 10 ≤ T := by
    have h5 : bin64 (w 0 * w 0) ≤ T := by
      have := fsum_mono hsq0 hmu1
      have e : fsum (fun i => bin64 (w i * w i)) 1 = bin64 (w 0 * w 0) := by simp only [fsum, zero_add]; exact bin64_idem _
      rwa [e] at this
    have h6 := (bin64_rel (q := w 0 * w 0) (by nlinarith)).1
    have h7 : (9:ℚ) / 25 ≤ w 0 * w 0 := by nlinarith
    have h8 : (9:ℚ) / 25 * (1 - 1 / 2 ^ 52) ≤ w 0 * w 0 * (1 - 1 / 2 ^ 52) := mul_le_mul_of_nonneg_right h7 (by norm_num)
    have h9 : (3:ℚ) / 10 ≤ 9 / 25 * (1 - 1 / 2 ^ 52) := by norm_num
    linarith
  have hSSb : bin64 (S * S) ≤ 2 ^ 82 := by
    have := bin64_mono hSS
    rwa [show bin64 ((2:ℚ) ^ 82) = 2 ^ 82 by decide +kernel] at this
  have hquo : 1 ≤ bin64 (S * S) / T := by rw [le_div_iff₀ g1, one_mul]; exact g2
  have hquo2 : bin64 (S * S) / T ≤ 2 ^ 100 := by
    rw [div_le_iff₀ g1]
    have : (2:ℚ) ^ 82 ≤ 2 ^ 100 * (3 / 10) := by norm_num
    have h5 : (2:ℚ) ^ 100 * (3 / 10) ≤ 2 ^ 100 * T := by gcongr
    linarith
  refine ⟨((List.range mu).map (CmaWeights.log.raw mu)).map fun x => Dbl.div x (.fin S), bin64 (bin64 (S * S) / T), ?_, by simp, ?_, ?_, ?_⟩
  · unfold cmaSetWeights
    dsimp only
    have c1 : ¬ mu < 1 := by omega
    have c2 : ¬ lambda < mu := by omega
    have c3 : ¬ mu = lambda := by omega
    simp only [c1, c2, c3, decide_false, Bool.or_self, Bool.false_and, Bool.false_eq_true, if_false]
    have z : (lit 0 : Dbl) = .fin 0 := Dbl.ofQ_zero
    rw [List.foldl_map, List.foldl_map, z]
    have hS' : (List.range mu).foldl (fun s i => s + (CmaWeights.log.raw mu i : Dbl)) (.fin 0) = .fin S := hS
    have hT' : (List.range mu).foldl (fun s i => s + (CmaWeights.log.raw mu i : Dbl) * CmaWeights.log.raw mu i) (.fin 0) = .fin T := hT
    rw [hS', hT']
    have e1 : (Dbl.fin S * Dbl.fin S : Dbl) = .fin (bin64 (S * S)) := Dbl.ofQ_fin (mul_self_nonneg _) (hSS.trans (by norm_num))
    have e2 : (Dbl.fin (bin64 (S * S)) / Dbl.fin T : Dbl) = .fin (bin64 (bin64 (S * S) / T)) := by
      show (if T = 0 then _ else Dbl.ofQ _) = _
      rw [if_neg g1.ne']
      exact Dbl.ofQ_fin (by linarith) hquo2
    rw [e1, e2]
    rfl
  · have := bin64_mono hquo
    rwa [show bin64 (1:ℚ) = 1 by decide +kernel] at this
  · intro x hx
    rw [List.map_map, List.mem_map] at hx
    obtain ⟨k, hk, rfl⟩ := hx
    simp only [Function.comp, hr k (List.mem_range.1 hk), Dbl.div, if_neg hS0.ne']
    exact ⟨Dbl.le_ofQ ⟨by decide +kernel, by decide +kernel⟩ (div_nonneg (h0 k) hS0.le),
      Dbl.ofQ_le ⟨by decide +kernel, by decide +kernel⟩ (by rw [div_le_one hS0]; exact (h1 k).trans hwS)⟩
  · rw [List.map_map, List.pairwise_map]
    refine (List.pairwise_lt_range (n := mu)).imp_of_mem ?_
    intro a b ha hb hab
    simp only [Function.comp, hr a (List.mem_range.1 ha), hr b (List.mem_range.1 hb), Dbl.div, if_neg hS0.ne']
    exact Dbl.ofQ_mono (div_le_div_of_nonneg_right (antitone_nat_of_succ_le hdec hab.le) hS0.le)

theorem make_float {opt : Int} {modulo : Dbl} (hp : CmaPar.make Dbl n opt modulo = .ok p) : ∃ w : List Dbl × Dbl, 2 ≤ p.lambda ∧
    cmaSetWeights .log (p.lambda / 2) p.lambda = .ok w ∧ p.weights = w.1 ∧ p.mucov = w.2 ∧ p.ccov = cmaCcov n w.2 ∧ p.ccumcov = cmaCcumcov Dbl n := by
  unfold CmaPar.make at hp
  rw [Res.bind_eq_ok] at hp
  obtain ⟨lambda, -, hp⟩ := hp
  rw [Res.bind_eq_ok] at hp
  obtain ⟨w, hw, hp⟩ := hp
  have hp := Res.ok.inj hp
  subst hp
  refine ⟨w, ?_, hw, rfl, rfl, rfl, rfl⟩
  show 2 ≤ lambda
  by_contra hc
  have : lambda / 2 < 1 := by omega
  simp [cmaSetWeights, this] at hw

theorem ccov_notNeg {m : Dbl} (h : Dbl.le (.fin 1) m = true) : Dbl.NotNeg (cmaCcov n m : Dbl) := by
  have e : (lit 1 : Dbl) = .fin 1 := Dbl.ofQ_one
  have e2 : (lit 2 : Dbl) = .fin 2 := by show Dbl.ofQ 2 = _; decide +kernel
  have hm : Dbl.NotNeg m := Dbl.NotNeg.of_le (Dbl.le_trans (by decide) h)
  obtain ⟨h1, h2⟩ := one_div_le_one h
  unfold cmaCcov
  dsimp only
  rw [e, e2]
  refine Dbl.NotNeg.add (Dbl.NotNeg.mul h2 (Dbl.NotNeg.div (Dbl.notNeg_fin.2 (by norm_num)) (Dbl.notNeg_squared _))) (Dbl.NotNeg.mul (Dbl.NotNeg.one_sub h1) ?_)
  split
  · exact Dbl.notNeg_fin.2 (by norm_num)
  · refine Dbl.NotNeg.div (Dbl.NotNeg.sub_of_not_lt ?_) (Dbl.NotNeg.add (Dbl.notNeg_squared _) hm)
    cases m with
    | nan => rfl
    | ninf => simp [Dbl.le] at h
    | pinf =>
      show Dbl.lt (Dbl.mul (.fin 2) .pinf) (.fin 1) = false
      decide +kernel
    | fin q =>
      simp only [Dbl.le, decide_eq_true_eq] at h
      have : Dbl.le (.fin 1) (Dbl.ofQ (2 * q)) = true := Dbl.le_ofQ ⟨by decide +kernel, by decide +kernel⟩ (by linarith)
      exact (Dbl.le_iff.1 this).2

theorem ccumcov_bounds (n : ℕ) : Dbl.NotNeg (cmaCcumcov Dbl n) ∧ Dbl.le (cmaCcumcov Dbl n) (.fin 2) = true := by
  have e : (lit 4 : Dbl) = .fin 4 := by show Dbl.ofQ 4 = _; decide +kernel
  have h0 : (0:ℚ) ≤ n := Nat.cast_nonneg n
  refine ⟨Dbl.NotNeg.div (lit_notNeg (by norm_num)) (lit_notNeg (by linarith)), ?_⟩
  unfold cmaCcumcov
  rw [e]
  show Dbl.le (Dbl.div (.fin 4) (Dbl.ofQ ((n : ℚ) + 4))) _ = true
  have h : Dbl.le (.fin 4) (Dbl.ofQ ((n : ℚ) + 4)) = true := Dbl.le_ofQ ⟨by decide +kernel, by decide +kernel⟩ (by linarith)
  cases hx : Dbl.ofQ ((n : ℚ) + 4) with
  | nan => rw [hx] at h; simp at h
  | ninf => rw [hx] at h; simp [Dbl.le] at h
  | pinf => decide +kernel
  | fin r =>
    rw [hx] at h
    simp only [Dbl.le, decide_eq_true_eq] at h
    simp only [Dbl.div, if_neg (show ¬ r = 0 by linarith)]
    refine Dbl.ofQ_le ⟨by decide +kernel, by decide +kernel⟩ ?_
    rw [div_le_iff₀ (by linarith)]
    linarith

theorem make_signs (hl : Libm.LogOk) {opt : Int} {modulo : Dbl} (hp : CmaPar.make Dbl n opt modulo = .ok p) (hmax : p.lambda < 2 ^ 31) : p.Signs := by
  obtain ⟨w, h2, hw, q1, q2, q3, q4⟩ := make_float hp
  obtain ⟨w', m, hw', -, hm, hb, -⟩ := C103_weights hl p.lambda h2 hmax
  rw [hw] at hw'
  cases Res.ok.inj hw'
  have hm' : Dbl.le (.fin 1) (.fin m) = true := by simpa only [Dbl.le, decide_eq_true_eq] using hm
  exact ⟨fun x hx => Dbl.NotNeg.of_le (hb x (by rw [q1] at hx; exact hx)).1, by rw [q3]; exact ccov_notNeg hm', by rw [q2]; exact hm', by rw [q4]; exact (ccumcov_bounds n).1,
    by rw [q4]; exact (ccumcov_bounds n).2⟩

/-- **C103.** In floating point, after any sequence of `sample_population` and `update_distribution` calls (with any fitnesses, including NaN and infinities, random numbers, eigenvalue
decomposition and boundary transformer), from any start, the step size, the variances and `current_std` are not negative. -/
theorem C103_never_negative (hs : Libm.Signs) (hl : Libm.LogOk) {opt : Int} {modulo : Dbl} (hp : CmaPar.make Dbl n opt modulo = .ok p) (hmax : p.lambda < 2 ^ 31)
    (m std : Fin n → Dbl) (e : G.St) (b : Bounds Dbl n) (minimize : Bool) (eig : Eig Dbl n) {cs : List (CmaCall Dbl n × Res Unit)} {s : Cma G n}
    (h : Cma.Calls b minimize eig p (Cma.init p m std e) cs s) :
    Dbl.lt s.sigma (.fin 0) = false ∧ ∀ i, Dbl.lt (s.C i i) (.fin 0) = false ∧ Dbl.lt (s.std i) (.fin 0) = false := by
  have hi := calls_signs hs (make_signs hl hp hmax) b minimize eig (init_signs hs m std e) h
  exact ⟨hi.sigma, fun i => ⟨hi.diag i, hi.sigma.mul (hs.sqrt _ (hi.diag i))⟩⟩

/-- **C103.** The same for a run of the optimizer. -/
theorem C103_run (hs : Libm.Signs) (hl : Libm.LogOk) (E : OptEnv) {info : ObjInfo} {opt : Int} {modulo : Dbl} {rng : G.St} {p : CmaPar Dbl} {s t : CmaOpt G info.dim}
    (hn : 0 < info.dim) (hm : CmaOpt.make info opt modulo rng = .ok (p, s)) (hmax : p.lambda < 2 ^ 31) (c : CmaCfg info.dim) (hc : c.par = p) (F : Pt → Option Dbl)
    {ps : List (List Pt)} (h : CmaOpt.Runs E c F s ps t) :
    Dbl.lt t.cma.sigma (.fin 0) = false ∧ ∀ i, Dbl.lt (t.cma.C i i) (.fin 0) = false ∧ Dbl.lt (t.cma.std i) (.fin 0) = false := by
  unfold CmaOpt.make at hm
  rw [if_neg (by omega), Res.bind_eq_ok] at hm
  obtain ⟨p', hp', hm⟩ := hm
  split at hm
  · cases hm
  have hm := Res.ok.inj hm
  rw [Prod.mk.injEq] at hm
  obtain ⟨rfl, rfl⟩ := hm
  have hp := make_signs hl hp' hmax
  have key : t.cma.Signs := by
    induction h with
    | nil => exact init_signs hs _ _ _
    | @snoc ps pop t t' h st ih =>
      cases st with
      | @ok d d' xs o hn hsam he hu =>
        have h1 := t.cma.sample_same c.tr c.bounds c.eig c.par
        rw [hsam] at h1
        have hd : d.Signs := ⟨by rw [h1.1.sigma]; exact ih.sigma, fun i => by rw [h1.1.C]; exact ih.diag i⟩
        rcases d.update_cases c.par o.vis.info.minimize o.vis.curFitnesses with ⟨-, -, he⟩ | ⟨-, he⟩
        · rw [hu] at he
          have : d' = _ := congrArg Prod.fst he
          show d'.Signs
          rw [this, hc]
          exact adapt_signs hs hp hd _
        · rw [hu] at he
          cases congrArg Prod.snd he
      | @failed d xs o hn hsam he =>
        have h1 := t.cma.sample_same c.tr c.bounds c.eig c.par
        rw [hsam] at h1
        exact ⟨by show Dbl.NotNeg d.sigma; rw [h1.1.sigma]; exact ih.sigma, fun i => by show Dbl.NotNeg (d.C i i); rw [h1.1.C]; exact ih.diag i⟩
  exact ⟨key.sigma, fun i => ⟨key.diag i, key.sigma.mul (hs.sqrt _ (key.diag i))⟩⟩

end

/-! ## The hypotheses are met -/

/-- The logarithm, rounded down to a multiple of 2^-60, and square root and exponential function likewise. -/
@[reducible] noncomputable def realLibm : Libm where
  sqrt x := match x with
    | .fin q => if 0 ≤ q then .fin (⌊Real.sqrt q * 2 ^ 60⌋ / 2 ^ 60) else .nan
    | x => x
  exp x := match x with
    | .fin q => if q ≤ 700 then .fin (⌊Real.exp q * 2 ^ 60⌋ / 2 ^ 60) else .pinf
    | .ninf => .fin 0
    | x => x
  log x := match x with
    | .fin q => .fin (⌊Real.log q * 2 ^ 60⌋ / 2 ^ 60)
    | x => x
  pow a _ := a

theorem floor_le (x : ℝ) {q : ℚ} (h : x ≤ q) : ((⌊x * 2 ^ 60⌋ : ℚ) / 2 ^ 60) ≤ q := by
  rw [div_le_iff₀ (by norm_num)]
  have h1 := Int.floor_le (x * 2 ^ 60)
  have : ((⌊x * 2 ^ 60⌋ : ℤ) : ℝ) ≤ q * 2 ^ 60 := h1.trans (by gcongr)
  exact_mod_cast this

theorem le_floor (x : ℝ) {q : ℚ} (h : q + 1 / 2 ^ 60 ≤ x) : q ≤ ((⌊x * 2 ^ 60⌋ : ℚ) / 2 ^ 60) := by
  rw [le_div_iff₀ (by norm_num)]
  have h1 := Int.lt_floor_add_one (x * 2 ^ 60)
  have : (q : ℝ) * 2 ^ 60 ≤ ((⌊x * 2 ^ 60⌋ : ℤ) : ℝ) := by
    have : ((q : ℝ) + 1 / 2 ^ 60) * 2 ^ 60 ≤ x * 2 ^ 60 := by gcongr
    have e : ((q : ℝ) + 1 / 2 ^ 60) * 2 ^ 60 = q * 2 ^ 60 + 1 := by ring
    linarith
  exact_mod_cast this

theorem floor_div_nonneg {x : ℝ} (h : 0 ≤ x) : (0:ℚ) ≤ (⌊x * 2 ^ 60⌋ : ℚ) / 2 ^ 60 := by
  have : (0 : ℤ) ≤ ⌊x * 2 ^ 60⌋ := Int.floor_nonneg.2 (by positivity)
  have : (0 : ℚ) ≤ ((⌊x * 2 ^ 60⌋ : ℤ) : ℚ) := by exact_mod_cast this
  positivity

theorem realLibm_signs : letI := realLibm; Libm.Signs := by
  letI := realLibm
  refine ⟨fun x => ?_, fun x hx => ?_⟩
  · cases x with
    | nan => exact Dbl.notNeg_nan
    | ninf => exact Dbl.notNeg_fin.2 (le_refl 0)
    | pinf => exact Dbl.notNeg_pinf
    | fin q =>
      show Dbl.NotNeg (if q ≤ 700 then _ else _)
      split
      · exact Dbl.notNeg_fin.2 (floor_div_nonneg (Real.exp_pos _).le)
      · exact Dbl.notNeg_pinf
  · cases x with
    | nan => exact hx
    | ninf => exact hx
    | pinf => exact hx
    | fin q =>
      show Dbl.NotNeg (if 0 ≤ q then _ else _)
      split
      · exact Dbl.notNeg_fin.2 (floor_div_nonneg (Real.sqrt_nonneg _))
      · exact Dbl.notNeg_nan

theorem realLibm_log : letI := realLibm; Libm.LogOk := by
  letI := realLibm
  have hl2 := Real.log_two_gt_d9
  have hl2' := Real.log_two_lt_d9
  have hlog : ∀ q, Libm.log (.fin q) = .fin (⌊Real.log q * 2 ^ 60⌋ / 2 ^ 60) := fun q => rfl
  refine ⟨?_, ⟨?_, ?_⟩, ?_, fun a b ha hab _ => ?_, fun a ha hmax => ?_⟩
  · rw [hlog]; simp
  · rw [hlog]
    simp only [Dbl.le, decide_eq_true_eq]
    exact le_floor _ (by push_cast; norm_num; linarith)
  · rw [hlog]
    simp only [Dbl.le, decide_eq_true_eq]
    exact floor_le _ (by push_cast; linarith)
  · rw [hlog]
    simp only [Dbl.le, decide_eq_true_eq]
    refine le_floor _ ?_
    have h3 : 19 * Real.log 2 ≤ 12 * Real.log 3 := by
      have : Real.log ((2:ℝ) ^ 19) ≤ Real.log ((3:ℝ) ^ 12) := Real.log_le_log (by norm_num) (by norm_num)
      rw [Real.log_pow, Real.log_pow] at this
      exact_mod_cast this
    push_cast
    norm_num
    linarith
  · rw [hlog, hlog]
    simp only [Dbl.le, decide_eq_true_eq]
    have ha' : (1:ℝ) ≤ a := by exact_mod_cast ha
    have h1 : Real.log a ≤ Real.log b := Real.log_le_log (by linarith) (by exact_mod_cast hab)
    have h2 : ⌊Real.log a * 2 ^ 60⌋ ≤ ⌊Real.log b * 2 ^ 60⌋ := Int.floor_le_floor (by gcongr)
    have : ((⌊Real.log a * 2 ^ 60⌋ : ℤ) : ℚ) ≤ ((⌊Real.log b * 2 ^ 60⌋ : ℤ) : ℚ) := by exact_mod_cast h2
    gcongr
  · rw [hlog]
    simp only [Dbl.le, decide_eq_true_eq]
    refine floor_le _ ?_
    have h1 : (a:ℝ) ≤ 2 ^ 1024 := by
      have : a ≤ (2:ℚ) ^ 1024 := hmax.trans (by decide +kernel)
      exact_mod_cast this
    have ha' : (1:ℝ) ≤ a := by exact_mod_cast ha
    have h2 : Real.log a ≤ Real.log ((2:ℝ) ^ 1024) := Real.log_le_log (by linarith) h1
    rw [Real.log_pow] at h2
    push_cast at h2 ⊢
    linarith

/-- Two parameters and four individuals: the constructor succeeds, so `C103_never_negative` applies. -/
example : letI := realLibm; ∃ p : CmaPar Dbl, CmaPar.make Dbl 2 4 (.fin 0) = .ok p ∧ p.lambda < 2 ^ 31 := by
  letI := realLibm
  obtain ⟨w, m, h, -⟩ := C103_weights realLibm_log 4 (by norm_num) (by norm_num)
  unfold CmaPar.make
  refine ⟨_, by rw [show cmaLambda Dbl 4 2 = .ok 4 from rfl, Res.ok_bind, h, Res.ok_bind], ?_⟩
  norm_num

end Spot
