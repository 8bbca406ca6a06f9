import Verif.Lemmas.CRefSim
import Verif.Props.CmaParams
import Verif.Lemmas.Float

/-! # The initial distribution and the strategy parameters of the two implementations -/

set_option linter.unusedSectionVars false

namespace Spot.Ref

variable {K : Type} [Arith K] {n : Nat} {G H : GaussSrc K}

/-! ## The initial distribution -/

theorem indexLoop (m : Nat) (x : Nat → Nat) : forUp 0 m (fun i x => set1 x i i) x = fun i => if i < m then i else x i := by
  refine forUp_inv (fun m u => u = fun i => if i < m then i else x i) (Nat.zero_le _) ?_ ?_
  · simp
  · rintro i _ - - rfl
    funext j
    by_cases h : j = i
    · subst h; simp
    · simp only [set1_ne _ _ h, step_if h]

theorem zeroLoop (m : Nat) (t : Cmaes H) (hB : ∀ i j, t.B i j = lit 0) (hC : ∀ i j, t.C i j = lit 0) :
    forUp 0 m (fun i t => forUp 0 i (fun j (t : Cmaes H) => { t with B := set2 (set2 t.B j i (lit 0)) i j (lit 0), C := set2 t.C i j (lit 0) }) t) t = t := by
  have hs : ∀ (V : Nat → Nat → K) (i j : Nat), (∀ a b, V a b = lit 0) → set2 V i j (lit 0) = V := by
    intro V i j hV
    rw [← hV i j, set2_id]
  refine forUp_inv (fun _ u => u = t) (Nat.zero_le _) rfl ?_
  rintro i _ - - rfl
  refine forUp_inv (fun _ u => u = _) (Nat.zero_le _) rfl ?_
  rintro j _ - - rfl
  rw [hs _ j i hB, hs _ i j hB, hs _ i j hC]

theorem diagInit (m N : Nat) (sp : Para K) (tr : K) (t : Cmaes H) :
    forUp 0 m (fun i (t : Cmaes H) =>
      let t := { t with B := set2 t.B i i (lit 1) }
      let t := { t with rgD := set1 t.rgD i (sp.rgInitialStds i * Arith.sqrt (lit (N : ℚ) / tr)) }
      let t := { t with C := set2 t.C i i (t.rgD i) }
      let t := { t with C := set2 t.C i i (t.C i i * t.C i i) }
      { t with rgps := set1 t.rgps i (lit 0), rgpc := set1 t.rgpc i (lit 0) }) t =
    { t with
      B := fun i j => if i = j ∧ i < m then lit 1 else t.B i j
      rgD := fun i => if i < m then sp.rgInitialStds i * Arith.sqrt (lit (N : ℚ) / tr) else t.rgD i
      C := fun i j => if i = j ∧ i < m then sp.rgInitialStds i * Arith.sqrt (lit (N : ℚ) / tr) * (sp.rgInitialStds i * Arith.sqrt (lit (N : ℚ) / tr)) else t.C i j
      rgps := fun i => if i < m then lit 0 else t.rgps i
      rgpc := fun i => if i < m then lit 0 else t.rgpc i } := by
  generalize hd : (fun i => sp.rgInitialStds i * Arith.sqrt (lit (N : ℚ) / tr)) = d
  have hd' : ∀ i, sp.rgInitialStds i * Arith.sqrt (lit (N : ℚ) / tr) = d i := fun i => congrFun hd i
  simp only [hd']
  refine forUp_inv (fun m u => u = { t with
      B := fun i j => if i = j ∧ i < m then lit 1 else t.B i j
      rgD := fun i => if i < m then d i else t.rgD i
      C := fun i j => if i = j ∧ i < m then d i * d i else t.C i j
      rgps := fun i => if i < m then lit 0 else t.rgps i
      rgpc := fun i => if i < m then lit 0 else t.rgpc i }) (Nat.zero_le _) ?_ ?_
  · simp
  · rintro i _ - - rfl
    simp only [set1_same, set2_same, Cmaes.mk.injEq, true_and, and_true]
    refine ⟨?_, ?_, ?_, ?_, ?_⟩
    · funext a b
      by_cases h : a = i ∧ b = i
      · obtain ⟨rfl, rfl⟩ := h; simp
      · simp only [set2_ne _ _ h]
        congr 1
        simp only [eq_iff_iff]
        omega
    · funext a b
      by_cases h : a = i ∧ b = i
      · obtain ⟨rfl, rfl⟩ := h; simp
      · simp only [set2_ne _ _ h]
        congr 1
        simp only [eq_iff_iff]
        omega
    all_goals
      funext j
      by_cases h : j = i
      · subst h; simp
      · simp only [set1_ne _ _ h, step_if h]

theorem startInit (m : Nat) (sp : Para K) (t : Cmaes H) :
    forUp 0 m (fun i (t : Cmaes H) =>
      let t := { t with rgxold := set1 t.rgxold i (sp.xstart i) }
      { t with rgxmean := set1 t.rgxmean i (t.rgxold i) }) t =
    { t with rgxold := fun i => if i < m then sp.xstart i else t.rgxold i, rgxmean := fun i => if i < m then sp.xstart i else t.rgxmean i } := by
  refine forUp_inv (fun m u => u = { t with rgxold := fun i => if i < m then sp.xstart i else t.rgxold i, rgxmean := fun i => if i < m then sp.xstart i else t.rgxmean i })
    (Nat.zero_le _) ?_ ?_
  · simp
  · rintro i _ - - rfl
    simp only [set1_same, Cmaes.mk.injEq, true_and, and_true]
    refine ⟨?_, ?_⟩ <;> funext j <;> by_cases h : j = i
    · subst h; simp
    · simp only [set1_ne _ _ h, step_if h]
    · subst h; simp
    · simp only [set1_ne _ _ h, step_if h]

theorem init_same {R : G.St → H.St → Prop} {p : CmaPar K} {sp : Para K} (hp : SamePar n p sp) (hchi : p.chiN = cmaChiN K n) (xstart stds : Fin n → K)
    (hx : ∀ i : Fin n, sp.xstart i = xstart i) (hs : ∀ i : Fin n, sp.rgInitialStds i = stds i) {e : G.St} {d : H.St} (he : R e d) :
    SameDist R p (Cma.init p xstart stds e : Cma G n) (Cmaes.init sp d : Cmaes H) := by
  have hN := hp.N
  subst hN
  have htr : forUp 0 sp.N (fun i s => s + sp.rgInitialStds i * sp.rgInitialStds i) (lit 0) = sumFin fun i => stds i * stds i := by
    rw [forUp_sum]
    exact sumFin_congr fun i => by rw [hs i]
  unfold Cmaes.init Cma.init
  dsimp only
  rw [htr, zeroLoop _ _ (fun _ _ => rfl) (fun _ _ => rfl)]
  rw [diagInit]
  dsimp only
  rw [startInit]
  exact {
    par := hp
    chiN := hchi.symm
    sigma := rfl
    mean := fun i => by show (if (i : Nat) < sp.N then _ else _) = _; rw [if_pos i.2, hx]
    popLen := by simp
    pop := fun k hk i => by simp [List.getD, hk]
    indexLen := by simp
    index := fun k hk => by
      show forUp 0 sp.lambda.toNat (fun i x => set1 x i i) _ k = _
      rw [indexLoop, hp.lambda]
      simp [List.getD, hk]
    C := fun i j _ => by
      show (if (i : Nat) = j ∧ (i : Nat) < sp.N then _ else _) = if i = j then _ else _
      simp only [i.2, and_true, hs, Fin.ext_iff]
    B := fun i j => by
      show (if (i : Nat) = j ∧ (i : Nat) < sp.N then _ else _) = if i = j then _ else _
      simp only [i.2, and_true, Fin.ext_iff]
    D := fun i => by show (if (i : Nat) < sp.N then _ else _) = _; rw [if_pos i.2, hs]
    pc := fun i => by show (if (i : Nat) < sp.N then _ else _) = _; rw [if_pos i.2]
    ps := fun i => by show (if (i : Nat) < sp.N then _ else _) = _; rw [if_pos i.2]
    gen := rfl
    state := rfl
    up := rfl
    genE := rfl
    rand := he }

/-! ## The strategy parameters -/

/-- What the two implementations need to agree on the strategy parameters: comparisons of small numbers, and that `std::max` and `douMax` (`std::min` and `douMin`) only differ if one of
the values is not equal to itself. -/
class Cmp (K : Type) [Arith K] : Prop where
  max_eq : ∀ a b : K, Arith.eq a a = true → Arith.eq b b = true → douMax a b = Arith.max a b
  min_eq : ∀ a b : K, Arith.eq a a = true → Arith.eq b b = true → douMin a b = Arith.min a b
  lt_lit : ∀ a b : Fin 5, Arith.lt (lit ((a.val : ℚ) - 1) : K) (lit ((b.val : ℚ) - 1)) = decide (a < b)
  le_lit : ∀ a b : Fin 5, Arith.le (lit ((a.val : ℚ) - 1) : K) (lit ((b.val : ℚ) - 1)) = decide (a ≤ b)
  eq_lit : ∀ a b : Fin 5, Arith.eq (lit ((a.val : ℚ) - 1) : K) (lit ((b.val : ℚ) - 1)) = decide (a = b)
  eq_self : ∀ q : ℚ, Arith.eq (lit q : K) (lit q) = true
  le_gen : ∀ g : Nat, Arith.le (lit (g : ℚ) : K) (lit 0) = decide (g ≤ 0)

instance : Cmp ℝ where
  max_eq a b _ _ := by
    rw [max_real]; unfold douMax
    simp only [lt_real, decide_eq_true_eq]
    split
    · exact (max_eq_left (by linarith)).symm
    · exact (max_eq_right (by linarith)).symm
  min_eq a b _ _ := by
    rw [min_real]; unfold douMin
    simp only [lt_real, decide_eq_true_eq]
    split
    · exact (min_eq_left (by linarith)).symm
    · exact (min_eq_right (by linarith)).symm
  lt_lit a b := by
    simp only [lt_real, lit_real, decide_eq_decide]
    rw [Rat.cast_lt, sub_lt_sub_iff_right, Nat.cast_lt]
    rfl
  le_lit a b := by
    simp only [le_real, lit_real, decide_eq_decide]
    rw [Rat.cast_le, sub_le_sub_iff_right, Nat.cast_le]
    rfl
  eq_lit a b := by
    simp only [eq_real, lit_real, decide_eq_decide]
    rw [Rat.cast_inj, sub_left_inj, Nat.cast_inj]
    exact Fin.ext_iff.symm
  eq_self q := by simp [eq_real]
  le_gen g := by
    simp only [le_real, lit_real, decide_eq_decide]
    rw [Rat.cast_le, show (0 : ℚ) = ((0 : Nat) : ℚ) by norm_num, Nat.cast_le]

theorem dbl_le_trans {a b c : Dbl} (h : Dbl.le a b = true) (h' : Dbl.le b c = true) : Dbl.le a c = true := by
  cases a <;> cases b <;> cases c <;> simp_all [Dbl.le]
  linarith

theorem ofQ_le_zero {q : ℚ} (h : 1 ≤ q) : Dbl.le (Dbl.ofQ q) (Dbl.ofQ 0) = false := by
  have h1 : Dbl.le (Dbl.ofQ 1) (Dbl.ofQ q) = true := Dbl.ofQ_mono h
  have h2 : Dbl.le (Dbl.ofQ 1) (Dbl.ofQ 0) = false := by decide +kernel
  by_contra h3
  rw [Bool.not_eq_false] at h3
  rw [dbl_le_trans h1 h3] at h2
  exact absurd h2 (by simp)

instance [Libm] : Cmp Dbl where
  max_eq a b ha hb := by
    show (if Dbl.lt b a = true then a else b) = if Dbl.lt a b = true then b else a
    change Dbl.eq a a = true at ha
    change Dbl.eq b b = true at hb
    cases a <;> cases b <;> simp_all [Dbl.lt, Dbl.eq]
    split <;> split <;> first | rfl | (exfalso; linarith) | (congr 1; linarith)
  min_eq a b ha hb := by
    show (if Dbl.lt a b = true then a else b) = if Dbl.lt b a = true then b else a
    change Dbl.eq a a = true at ha
    change Dbl.eq b b = true at hb
    cases a <;> cases b <;> simp_all [Dbl.lt, Dbl.eq]
    split <;> split <;> first | rfl | (exfalso; linarith) | (congr 1; linarith)
  lt_lit := by
    show ∀ a b : Fin 5, Dbl.lt (Dbl.ofQ ((a.val : ℚ) - 1)) (Dbl.ofQ ((b.val : ℚ) - 1)) = decide (a < b)
    decide +kernel
  le_lit := by
    show ∀ a b : Fin 5, Dbl.le (Dbl.ofQ ((a.val : ℚ) - 1)) (Dbl.ofQ ((b.val : ℚ) - 1)) = decide (a ≤ b)
    decide +kernel
  eq_lit := by
    show ∀ a b : Fin 5, Dbl.eq (Dbl.ofQ ((a.val : ℚ) - 1)) (Dbl.ofQ ((b.val : ℚ) - 1)) = decide (a = b)
    decide +kernel
  eq_self q := by
    show Dbl.eq (Dbl.ofQ q) (Dbl.ofQ q) = true
    have := Dbl.ofQ_ne_nan q
    revert this
    generalize Dbl.ofQ q = x
    intro hx
    cases x <;> simp_all [Dbl.eq]
  le_gen g := by
    cases g with
    | zero =>
      show Dbl.le (Dbl.ofQ ((0 : Nat) : ℚ)) (Dbl.ofQ 0) = true
      rw [Nat.cast_zero]; decide +kernel
    | succ g =>
      rw [show decide (g + 1 ≤ 0) = false by simp]
      exact ofQ_le_zero (by push_cast; have : (0 : ℚ) ≤ g := Nat.cast_nonneg g; linarith)

section
variable [Cmp K]

theorem lt_0_m1 : Arith.lt (lit 0 : K) (lit (-1)) = false := by have := Cmp.lt_lit (K := K) 1 0; norm_num at this; exact this
theorem le_m1_0 : Arith.le (lit (-1) : K) (lit 0) = true := by have := Cmp.le_lit (K := K) 0 1; norm_num at this; exact this
theorem lt_m1_1 : Arith.lt (lit (-1) : K) (lit 1) = true := by have := Cmp.lt_lit (K := K) 0 2; norm_num at this; exact this
theorem lt_m1_0 : Arith.lt (lit (-1) : K) (lit 0) = true := by have := Cmp.lt_lit (K := K) 0 1; norm_num at this; exact this
theorem le_0_m1 : Arith.le (lit 0 : K) (lit (-1)) = false := by have := Cmp.le_lit (K := K) 1 0; norm_num at this; exact this
theorem eq_0_m1 : Arith.eq (lit 0 : K) (lit (-1)) = false := by have := Cmp.eq_lit (K := K) 1 0; norm_num at this; exact this
theorem eq_0_1 : Arith.eq (lit 0 : K) (lit 1) = false := by have := Cmp.eq_lit (K := K) 1 2; norm_num at this; exact this

/-- The factor of the learning rates while the covariance matrix is kept diagonal. -/
def facDiag (K : Type) [Arith K] (n : Nat) (d : Bool) : K := if d then (lit (n : ℚ) + lit (3 / 2)) / lit 3 else lit 1

/-- The values that are compared while the strategy parameters are computed are equal to themselves (not NaN). -/
structure Regular (n : Nat) (p : CmaPar K) : Prop where
  damps1 : Arith.eq (Arith.sqrt ((p.mueff - lit 1) / (lit (n : ℚ) + lit 1)) - lit 1) (Arith.sqrt ((p.mueff - lit 1) / (lit (n : ℚ) + lit 1)) - lit 1) = true
  limit : Arith.eq (cmaMaxFunEvals K n / lit (p.lambda : ℚ)) (cmaMaxFunEvals K n / lit (p.lambda : ℚ)) = true
  limitUp : Arith.eq (Arith.ceil (cmaMaxFunEvals K n / lit (p.lambda : ℚ))) (Arith.ceil (cmaMaxFunEvals K n / lit (p.lambda : ℚ))) = true
  damps2 : let x : K := lit 1 - lit (n : ℚ) / (lit (1 / 10 ^ 6) + Arith.min (Arith.ceil (cmaMaxFunEvals K n / lit (p.lambda : ℚ))) (cmaMaxFunEvals K n / lit (p.lambda : ℚ)))
    Arith.eq x x = true
  rate1 : ∀ d, Arith.eq (p.ccov * (lit 1 / p.mucov) * facDiag K n d) (p.ccov * (lit 1 / p.mucov) * facDiag K n d) = true
  rateMu : ∀ d, Arith.eq (p.ccov * (lit 1 - lit 1 / p.mucov) * facDiag K n d) (p.ccov * (lit 1 - lit 1 / p.mucov) * facDiag K n d) = true
  rest : ∀ d, Arith.eq (lit 1 - Cma.ccov1 p n d) (lit 1 - Cma.ccov1 p n d) = true

theorem regular_real (n : Nat) (p : CmaPar ℝ) : Regular n p := by
  constructor <;> simp [eq_real]

theorem forUp_pair {A B : Type} (m : Nat) (f : Nat → A → A) (g : Nat → B → B) (a : A) (b : B) :
    forUp 0 m (fun i (s : A × B) => (f i s.1, g i s.2)) (a, b) = (forUp 0 m f a, forUp 0 m g b) := by
  refine forUp_inv (fun m u => u = (forUp 0 m f a, forUp 0 m g b)) (Nat.zero_le _) rfl ?_
  rintro i _ h - rfl
  rw [forUp_succ h, forUp_succ h]

theorem forUp_foldl (m : Nat) (f : K → K → K) (v : Nat → K) (a : K) : forUp 0 m (fun i s => f s (v i)) a = ((List.range m).map v).foldl f a := by
  unfold forUp
  rw [Nat.sub_zero, ← List.range_eq_range', List.foldl_map]

theorem forUp_congr {S : Type} (m : Nat) {f g : Nat → S → S} (h : ∀ i < m, ∀ s, f i s = g i s) (a : S) : forUp 0 m f a = forUp 0 m g a := by
  refine forUp_inv (fun m u => u = forUp 0 m g a) (Nat.zero_le _) rfl ?_
  rintro i _ h1 h2 rfl
  rw [forUp_succ h1, h i h2]

/-- The weights of the two implementations. -/
theorem setWeights_same (t : Para K) (lam : Nat) (hl : t.lambda = lam) (hm : t.mu = (lam / 2 : Nat)) :
    (∀ w m, (cmaSetWeights .log (lam / 2) lam : Res (List K × K)) = .ok (w, m) → ∃ v, t.setWeights = .ok { t with mueff := m, weights := v } ∧ ∀ k < lam / 2, v k = w.getD k (lit 0)) ∧
    ((cmaSetWeights .log (lam / 2) lam : Res (List K × K)) = .err → t.setWeights = .err) ∧ (cmaSetWeights .log (lam / 2) lam : Res (List K × K)) ≠ .ub := by
  have hmu : t.mu.toNat = lam / 2 := by rw [hm]; rfl
  generalize hmm : lam / 2 = mu at *
  have h1 : ∀ i < mu, forUp 0 mu (fun i w => set1 w i (Arith.log (lit ((mu : ℚ) + 1)) - Arith.log (lit ((i : ℚ) + 1)))) (fun _ => (lit 0 : K)) i = CmaWeights.log.raw mu i := by
    intro i hi
    rw [forUp_set1 0 mu (fun i _ => Arith.log (lit ((mu : ℚ) + 1)) - Arith.log (lit ((i : ℚ) + 1)))]
    simp only [Nat.zero_le, true_and, hi, if_true]
    rfl
  unfold Para.setWeights cmaSetWeights
  dsimp only
  rw [hmu]
  generalize hw : forUp 0 mu (fun i w => set1 w i (Arith.log (lit ((mu : ℚ) + 1)) - Arith.log (lit ((i : ℚ) + 1)))) (fun _ => (lit 0 : K)) = w at h1 ⊢
  have h2 : (List.range mu).map (CmaWeights.log.raw mu : Nat → K) = (List.range mu).map w :=
    List.map_congr_left fun i hi => (h1 i (List.mem_range.1 hi)).symm
  rw [h2, forUp_pair mu (fun i s => s + w i) (fun i s => s + w i * w i), forUp_foldl mu (fun s x => s + x) w, forUp_foldl mu (fun s x => s + x * x) w]
  dsimp only
  generalize ((List.range mu).map w).foldl (fun s x => s + x) (lit 0) = s1
  generalize ((List.range mu).map w).foldl (fun s x => s + x * x) (lit 0) = s2
  rw [forUp_set1 0 mu (fun _ x => x / s1) w]
  generalize hv : (fun j => if 0 ≤ j ∧ j < mu then w j / s1 else w j) = v
  have hv' : ∀ k < mu, v k = (((List.range mu).map w).map fun x => x / s1).getD k (lit 0) := by
    intro k hk
    rw [← hv]
    simp [List.getD, hk]
  have hc : (decide (t.mu < 1) || decide (t.mu > t.lambda) || (decide (t.mu = t.lambda) && Arith.eq (v 0) (v (mu - 1)))) =
      (decide (mu < 1) || decide (lam < mu) || (decide (mu = lam) && Arith.eq ((((List.range mu).map w).map fun x => x / s1).getD 0 (lit 0))
        ((((List.range mu).map w).map fun x => x / s1).getD (mu - 1) (lit 0)))) := by
    rcases Nat.eq_zero_or_pos mu with h0 | h0
    · subst h0
      simp [hm]
    · rw [hv' 0 h0, hv' (mu - 1) (by omega), hl, hm]
      have d1 : decide ((mu : Int) < 1) = decide (mu < 1) := by simp only [decide_eq_decide]; omega
      have d2 : decide ((mu : Int) > lam) = decide (lam < mu) := by simp only [decide_eq_decide]; omega
      have d3 : decide ((mu : Int) = lam) = decide (mu = lam) := by simp only [decide_eq_decide]; omega
      rw [d1, d2, d3]
  rw [hc]
  split
  · exact ⟨fun _ _ h => absurd h (by simp), fun _ => rfl, by simp⟩
  · refine ⟨?_, fun h => absurd h (by simp), by simp⟩
    intro w' m h
    simp only [Res.ok.injEq, Prod.mk.injEq] at h
    obtain ⟨rfl, rfl⟩ := h
    exact ⟨v, rfl, hv'⟩

/-- The strategy parameters of the two implementations. -/
theorem para_same (opt : Int) (modulo : K) (p : CmaPar K) (h : CmaPar.make K n opt modulo = .ok p) (hr : Regular n p) (xs sd : Nat → K) (m : K) :
    ∃ q, (Para.init n xs sd opt modulo m).supplement = .ok q ∧ SamePar n p q ∧ q.xstart = xs ∧ q.rgInitialStds = sd ∧ p.chiN = cmaChiN K n := by
  unfold CmaPar.make at h
  obtain ⟨lam, hlam, h⟩ := Res.bind_eq_ok.1 h
  obtain ⟨⟨w, me⟩, hw, h⟩ := Res.bind_eq_ok.1 h
  dsimp only at h
  simp only [Res.ok.injEq] at h
  have h2 : 2 ≤ lam := by
    by_contra hc
    have h0 : lam / 2 = 0 := by omega
    rw [h0] at hw
    simp [cmaSetWeights] at hw
  have hsl : ∃ z : Int, z = lam ∧ (Para.init n xs sd opt modulo m).setLambda = .ok { Para.init n xs sd opt modulo m with lambda := z } := by
    unfold cmaLambda at hlam
    unfold Para.setLambda
    have e1 : (Para.init n xs sd opt modulo m).lambda = opt := rfl
    have e2 : (Para.init n xs sd opt modulo m).N = n := rfl
    rw [e1, e2]
    split at hlam
    · split at hlam
      · rename_i ho _ z hz
        simp only [Res.ok.injEq] at hlam
        rw [if_pos ho, hz]
        exact ⟨4 + z, by omega, rfl⟩
      · exact absurd hlam (by simp)
    · rename_i ho
      simp only [Res.ok.injEq] at hlam
      rw [if_neg ho]
      exact ⟨opt, by omega, rfl⟩
  obtain ⟨z, hz, hsl⟩ := hsl
  unfold Para.supplement
  rw [hsl, Res.ok_bind]
  dsimp only
  have hmu : (Para.init n xs sd opt modulo m).mu = -1 := rfl
  rw [hmu, if_pos rfl]
  obtain ⟨hs, -, -⟩ := setWeights_same { { Para.init n xs sd opt modulo m with lambda := z } with mu := z.tdiv 2 } lam hz
    (by show z.tdiv 2 = _; rw [hz]; exact (Int.ofNat_tdiv lam 2).symm)
  obtain ⟨v, hs, hv⟩ := hs w me hw
  dsimp only at hs
  rw [hs, Res.ok_bind]
  refine ⟨_, rfl, ?_⟩
  generalize hq : (Para.setModulo (K := K) _) = q
  have hq' : q = { N := n, xstart := xs, rgInitialStds := sd, stopMaxFunEvals := cmaMaxFunEvals K n, facmaxeval := lit 1,
                   stopMaxIter := Arith.ceil (cmaMaxFunEvals K n / lit (z : ℚ)), lambda := z, mu := z.tdiv 2, mucov := me, mueff := me, weights := v,
                   damps := lit 1 * (lit 1 + lit 2 * douMax (lit 0) (Arith.sqrt ((me - lit 1) / (lit (n : ℚ) + lit 1)) - lit 1)) *
                        douMax (lit (3 / 10)) (lit 1 - lit (n : ℚ) / (lit (1 / 10 ^ 6) + douMin (Arith.ceil (cmaMaxFunEvals K n / lit (z : ℚ))) (cmaMaxFunEvals K n / lit (z : ℚ)))) +
                      cmaCs n me,
                   cs := cmaCs n me, ccumcov := cmaCcumcov K n, ccov := cmaCcov n me, diagonalCov := lit 0,
                   modulo := (if Arith.lt modulo (lit 0) then lit 1 / cmaCcov n me / lit (n : ℚ) / lit 10 else modulo) * lit 1,
                   maxtime := lit (1 / 5), facupdateCmode := lit 1 } := by
    rw [← hq]
    cases hmod : Arith.lt modulo (lit 0) <;>
    simp only [Para.setRates, Para.setCcov, Para.setDiagonal, Para.setLimits, Para.setDamps, Para.setModulo, Para.init, lt_0_m1, le_m1_0, lt_m1_1, lt_m1_0, le_0_m1, eq_0_m1,
      Cmp.eq_self, Bool.true_or, if_true, if_false, Bool.false_eq_true, hmod, cmaCs, cmaCcumcov, cmaCcov, cmaMaxFunEvals, show (14142 / 10000 : ℚ) = 7071 / 5000 by norm_num]
  clear hq
  subst hq'
  have hzq : (z : ℚ) = (lam : ℚ) := by rw [hz]; simp
  subst h
  have hmz : z.tdiv 2 = ((lam / 2 : Nat) : Int) := by rw [hz]; exact (Int.ofNat_tdiv lam 2).symm
  have d0 := hr.damps1
  have d1 := hr.limit
  have d2 := hr.limitUp
  have d3 := hr.damps2
  dsimp only at d0 d1 d2 d3
  refine ⟨{ N := rfl, lambda := hz, mu := hmz, mu_le := by dsimp only; omega, pos := h2, weights := hv, mueff := rfl, cs := rfl, ccumcov := rfl, ccov := rfl
            damps := ?_, modulo := rfl, ccov1 := ?_, ccovmu := ?_, diag := ?_ }, rfl, rfl, rfl⟩
  · dsimp only
    unfold cmaDamps
    rw [hzq, Cmp.max_eq _ _ (Cmp.eq_self 0) d0, Cmp.min_eq _ _ d2 d1, Cmp.max_eq _ _ (Cmp.eq_self _) d3]
  · intro d
    exact Cmp.min_eq _ _ (hr.rate1 d) (Cmp.eq_self 1)
  · intro d
    exact Cmp.min_eq _ _ (hr.rateMu d) (hr.rest d)
  · intro g
    dsimp only
    rw [eq_0_1, Cmp.le_gen]
    simp

/-- Parameters that one of the implementations does not accept are not accepted by the other. -/
theorem para_fail (opt : Int) (modulo : K) (xs sd : Nat → K) (m : K) :
    (CmaPar.make K n opt modulo = .err → (Para.init n xs sd opt modulo m).supplement = .err) ∧
    (CmaPar.make K n opt modulo = .ub → (Para.init n xs sd opt modulo m).supplement = .ub) := by
  unfold CmaPar.make cmaLambda Para.supplement Para.setLambda
  have e1 : (Para.init n xs sd opt modulo m).lambda = opt := rfl
  have e2 : (Para.init n xs sd opt modulo m).N = n := rfl
  rw [e1, e2]
  have key : ∀ z : Int, (cmaSetWeights .log (z.toNat / 2) z.toNat : Res (List K × K)) ≠ .ub ∧ ((cmaSetWeights .log (z.toNat / 2) z.toNat : Res (List K × K)) = .err →
      ({ Para.init n xs sd opt modulo m with lambda := z, mu := z.tdiv 2 } : Para K).setWeights = .err) := by
    intro z
    rcases le_or_gt 0 z with hz | hz
    · obtain ⟨-, h1, h2⟩ := setWeights_same { Para.init n xs sd opt modulo m with lambda := z, mu := z.tdiv 2 } z.toNat (by show z = _; omega)
        (by show z.tdiv 2 = _; conv_lhs => rw [show z = (z.toNat : Int) by omega]
            exact (Int.ofNat_tdiv z.toNat 2).symm)
      exact ⟨h2, h1⟩
    · have h0 : z.toNat = 0 := by omega
      refine ⟨by rw [h0]; simp [cmaSetWeights], fun _ => ?_⟩
      have : z.tdiv 2 < 1 := by
        have h1 : (-z).tdiv 2 = -(z.tdiv 2) := Int.neg_tdiv z 2
        have h3 : 0 ≤ (-z).tdiv 2 := Int.tdiv_nonneg (by omega) (by omega)
        omega
      unfold Para.setWeights
      dsimp only
      rw [show decide (z.tdiv 2 < 1) = true by simpa using this]
      simp
  have fin : ∀ (f : Nat → List K × K → CmaPar K) (g : Para K → Para K) (z : Int) (t : Para K), t = { Para.init n xs sd opt modulo m with lambda := z } →
      ((((Res.ok z.toNat : Res Nat) >>= fun lambda => (cmaSetWeights .log (lambda / 2) lambda : Res (List K × K)) >>= fun w => Res.ok (f lambda w)) = .err →
        (Res.ok t >>= fun t => (if t.mu = -1 then { t with mu := t.lambda.tdiv 2 } else t).setWeights >>= fun t => Res.ok (g t)) = .err) ∧
       (((Res.ok z.toNat : Res Nat) >>= fun lambda => (cmaSetWeights .log (lambda / 2) lambda : Res (List K × K)) >>= fun w => Res.ok (f lambda w)) = .ub →
        (Res.ok t >>= fun t => (if t.mu = -1 then { t with mu := t.lambda.tdiv 2 } else t).setWeights >>= fun t => Res.ok (g t)) = .ub)) := by
    rintro f g z t rfl
    obtain ⟨h1, h2⟩ := key z
    rw [Res.ok_bind, Res.ok_bind]
    dsimp only
    have hmu : (Para.init n xs sd opt modulo m).mu = -1 := rfl
    rw [hmu, if_pos rfl]
    cases hw : (cmaSetWeights .log (z.toNat / 2) z.toNat : Res (List K × K)) with
    | ok w => exact ⟨fun h => absurd h (by simp), fun h => absurd h (by simp)⟩
    | err =>
      refine ⟨fun _ => ?_, fun h => absurd h (by simp)⟩
      rw [h2 hw]
      rfl
    | ub => exact absurd hw h1
  by_cases ho : opt < 2
  · rw [if_pos ho, if_pos ho]
    cases Arith.trunc (lit 3 * Arith.log (lit (n : ℚ)) : K) with
    | none => exact ⟨fun h => absurd h (by simp), fun _ => rfl⟩
    | some z => exact fin _ _ (4 + z) _ rfl
  · rw [if_neg ho, if_neg ho]
    exact fin _ _ opt _ rfl

end

end Spot.Ref
