import Verif.Props.CmaRandom
import Verif.Model.Cma
import Mathlib.Analysis.Complex.ExponentialBounds

/-! # The Gaussian generator of CMA-ES always returns (C84) -/

namespace Spot

/-- An integer in the middle 70 % of the range of the generator. -/
def midV (v : Int) : Prop := 322122547 ≤ v ∧ v ≤ 1825361100

instance : DecidablePred midV := fun v => by unfold midV; infer_instance

/-- Not in the middle. -/
def offV (v : Int) : Bool := !decide (midV v)

theorem countP_set_balance {α : Type} (p : α → Bool) : ∀ (l : List α) (i : Nat) (hi : i < l.length) (x : α),
    (if p l[i] = true then 1 else 0) + (l.set i x).countP p = l.countP p + (if p x = true then 1 else 0)
  | a :: l, 0, _, x => by
    simp only [List.getElem_cons_zero, List.set_cons_zero, List.countP_cons]
    omega
  | a :: l, i + 1, hi, x => by
    simp only [List.getElem_cons_succ, List.set_cons_succ, List.countP_cons]
    have := countP_set_balance p l i (by simpa using hi) x
    omega

theorem next_balance {K : Type} {r r1 : Rand K} {v : Int} (h : r.next = .ok (v, r1)) :
    (if offV v = true then 1 else 0) + r1.rgrand.countP offV = r.rgrand.countP offV + (if offV (nextSeed r.aktseed) = true then 1 else 0) ∧
    r1.aktseed = nextSeed r.aktseed := by
  unfold Rand.next at h
  dsimp only at h
  split at h
  · split at h
    · rename_i w hw
      cases h
      obtain ⟨hl, rfl⟩ := List.getElem?_eq_some_iff.1 hw
      exact ⟨countP_set_balance offV _ _ hl _, rfl⟩
    · cases h
  · cases h

/-- The seeds used by `k` calls. -/
def seedsOf (s : Int) (k : Nat) : List Int := (List.range k).map (fun i => nextSeed^[i + 1] s)

theorem seedsOf_succ (s : Int) (k : Nat) : seedsOf s (k + 1) = nextSeed s :: seedsOf (nextSeed s) k := by
  unfold seedsOf
  rw [List.range_succ_eq_map, List.map_cons, List.map_map]
  rfl

theorem draws_balance {K : Type} : ∀ (k : Nat) {r r' : Rand K} {vs : List Int}, r.draws k = .ok (vs, r') →
    vs.countP offV + r'.rgrand.countP offV = r.rgrand.countP offV + (seedsOf r.aktseed k).countP offV := by
  intro k
  induction k with
  | zero =>
    intro r r' vs h
    cases h
    simp [seedsOf]
  | succ k ih =>
    intro r r' vs h
    unfold Rand.draws at h
    cases hn : r.next with
    | ok p =>
      obtain ⟨v, r1⟩ := p
      rw [hn, Res.ok_bind] at h
      cases hd : Rand.draws k r1 with
      | ok q =>
        obtain ⟨ws, r2⟩ := q
        dsimp only at h
        rw [hd, Res.ok_bind] at h
        cases h
        have h1 := next_balance hn
        have h2 := ih hd
        rw [h1.2] at h2
        rw [seedsOf_succ, List.countP_cons, List.countP_cons]
        have := h1.1
        dsimp only
        omega
      | _ => dsimp only at h; rw [hd] at h; cases h
    | _ => rw [hn] at h; cases h

/-- Over a whole period, about 30 % of the seeds are not in the middle. -/
theorem seedsOf_count {s : Int} (h : InM s) : (seedsOf s 2147483646).countP offV ≤ 644245092 := by
  have hp := C73_full_period (nextSeed s) (nextSeed_spec h).2.1 (by have := (nextSeed_spec h).2.2; omega)
  have e : 2 ^ 31 - 2 = 2147483646 := by norm_num
  rw [e] at hp
  have hf : ∀ i, nextSeed^[i + 1] s = nextSeed^[i] (nextSeed s) := fun i => rfl
  have hnd : ((seedsOf s 2147483646).filter offV).Nodup := by
    refine List.Nodup.filter _ ?_
    unfold seedsOf
    refine List.Nodup.map_on ?_ List.nodup_range
    intro i hi j hj hij
    exact hp.2.1 i j (List.mem_range.1 hi) (List.mem_range.1 hj) hij
  rw [List.countP_eq_length_filter, ← List.toFinset_card_of_nodup hnd]
  refine (Finset.card_le_card (t := Finset.Icc (1 : Int) 322122546 ∪ Finset.Icc (1825361101 : Int) 2147483646) ?_).trans ?_
  · intro v hv
    rw [List.mem_toFinset, List.mem_filter] at hv
    obtain ⟨hv1, hv2⟩ := hv
    obtain ⟨i, -, rfl⟩ := List.mem_map.1 hv1
    obtain ⟨h3, h4⟩ := (nextSeed_iterate (i + 1) s h).2
    have hm : ¬ midV (nextSeed^[i + 1] s) := by simpa [offV, -Function.iterate_succ] using hv2
    unfold midV at hm
    generalize nextSeed^[i + 1] s = w at *
    rw [Finset.mem_union, Finset.mem_Icc, Finset.mem_Icc]
    omega
  · refine (Finset.card_union_le _ _).trans ?_
    rw [Int.card_Icc, Int.card_Icc]
    omega

section
variable {K : Type} [Arith K]

/-- Two integers in the middle are accepted. -/
def MidAccepted (K : Type) [Arith K] : Prop := ∀ v1 v2 : Int, midV v1 → midV v2 →
    rejected (lit 2 * unitOf v1 - lit 1 : K) (lit 2 * unitOf v2 - lit 1) = false

omit [Arith K] in
theorem draws_add {a b : Nat} {r r1 r2 : Rand K} {vs ws : List Int} (h1 : r.draws a = .ok (vs, r1)) (h2 : r1.draws b = .ok (ws, r2)) :
    r.draws (a + b) = .ok (vs ++ ws, r2) := by
  induction a generalizing r vs with
  | zero => cases h1; simpa using h2
  | succ a ih =>
    rw [show a + 1 + b = (a + b) + 1 by omega]
    unfold Rand.draws at h1 ⊢
    cases hn : r.next with
    | ok p =>
      rw [hn, Res.ok_bind] at h1
      rw [Res.ok_bind]
      cases hd : Rand.draws a p.2 with
      | ok q =>
        rw [hd, Res.ok_bind] at h1
        cases h1
        rw [ih hd]
        rfl
      | _ => rw [hd] at h1; cases h1
    | _ => rw [hn] at h1; cases h1

theorem gauss_or_off (hacc : MidAccepted K) : ∀ (m : Nat) (r : Rand K), r.Ok → r.stored = none →
    (∃ j v r' vs r2, 1 ≤ j ∧ j ≤ m ∧ r.Gauss v r' ∧ r.draws (2 * j) = .ok (vs, r2) ∧ ∃ w, r' = { r2 with stored := some w }) ∨
    (∃ vs r', r.draws (2 * m) = .ok (vs, r') ∧ m ≤ vs.countP offV) := by
  intro m
  induction m with
  | zero => intro r _ _; exact .inr ⟨[], r, rfl, by simp⟩
  | succ m ih =>
    intro r hr hs
    obtain ⟨v1, r1, h1, -, h3, h4, h5, h6, h7⟩ := Rand.next_ok hr
    obtain ⟨v2, r2, g1, -, g3, g4, g5, g6, g7⟩ := Rand.next_ok h3
    have hp : r.pair = .ok (lit 2 * unitOf v1 - lit 1, lit 2 * unitOf v2 - lit 1, r2) := by
      simp only [Rand.pair, Rand.uniform, h1, g1, Res.ok_bind]
    have hd : r.draws 2 = .ok ([v1, v2], r2) := by
      simp only [Rand.draws, h1, g1, Res.ok_bind]
    have hs2 : r2.stored = none := by rw [g6, h6, hs]
    cases hrj : rejected (lit 2 * unitOf v1 - lit 1 : K) (lit 2 * unitOf v2 - lit 1) with
    | false => exact .inl ⟨1, _, _, [v1, v2], r2, le_refl _, by omega, .accept hs hp hrj, hd, _, rfl⟩
    | true =>
      have hoff : 1 ≤ [v1, v2].countP offV := by
        by_contra hc
        have h0 : [v1, v2].countP offV = 0 := by omega
        rw [List.countP_eq_zero] at h0
        have m1 : midV v1 := by simpa [offV] using h0 v1 (by simp)
        have m2 : midV v2 := by simpa [offV] using h0 v2 (by simp)
        rw [hacc v1 v2 m1 m2] at hrj
        cases hrj
      have he : ({ r2 with stored := none } : Rand K) = r2 := by
        rw [← hs2]
      rcases ih r2 g3 hs2 with ⟨j, v, r', vs, r3, k1, k2, k3, k4, k5⟩ | ⟨vs, r', k1, k2⟩
      · refine .inl ⟨j + 1, v, r', [v1, v2] ++ vs, r3, by omega, by omega, .reject hs hp hrj (by rw [he]; exact k3), ?_, k5⟩
        rw [show 2 * (j + 1) = 2 + 2 * j by omega]
        exact draws_add hd k4
      · refine .inr ⟨[v1, v2] ++ vs, r', ?_, ?_⟩
        · rw [show 2 * (m + 1) = 2 + 2 * m by omega]
          exact draws_add hd k1
        · rw [List.countP_append]
          omega

theorem gauss_total (hacc : MidAccepted K) (r : Rand K) (hr : r.Ok) (hs : r.stored = none) :
    ∃ j v r' vs r2, 1 ≤ j ∧ j ≤ 1073741823 ∧ r.Gauss v r' ∧ r.draws (2 * j) = .ok (vs, r2) ∧ ∃ w, r' = { r2 with stored := some w } := by
  rcases gauss_or_off hacc 1073741823 r hr hs with h | ⟨vs, r', h1, h2⟩
  · exact h
  · exfalso
    have hb := draws_balance _ h1
    have hc := seedsOf_count hr.seed
    have hl : r.rgrand.countP offV ≤ 32 := by rw [← hr.size]; exact List.countP_le_length
    rw [show 2 * 1073741823 = 2147483646 by norm_num] at hb
    omega

theorem gauss_det {r r1 r2 : Rand K} {v1 v2 : K} (h1 : r.Gauss v1 r1) (h2 : r.Gauss v2 r2) : v1 = v2 ∧ r1 = r2 := by
  induction h1 with
  | stored h =>
    cases h2 with
    | stored h' => rw [h] at h'; cases h'; exact ⟨rfl, rfl⟩
    | accept h' => rw [h] at h'; cases h'
    | reject h' => rw [h] at h'; cases h'
  | accept h hp ha =>
    cases h2 with
    | stored h' => rw [h] at h'; cases h'
    | accept h' hp' ha' => rw [hp] at hp'; cases hp'; exact ⟨rfl, rfl⟩
    | reject h' hp' hr' => rw [hp] at hp'; cases hp'; rw [ha] at hr'; cases hr'
  | reject h hp hr hg ih =>
    cases h2 with
    | stored h' => rw [h] at h'; cases h'
    | accept h' hp' ha' => rw [hp] at hp'; cases hp'; rw [hr] at ha'; cases ha'
    | reject h' hp' hr' hg' => rw [hp] at hp'; cases hp'; exact ih hg'

theorem gauss_ok {r r' : Rand K} {v : K} (h : r.Ok) (hg : r.Gauss v r') : r'.Ok := by
  have hpair : ∀ {r r' : Rand K} {x1 x2 : K}, r.Ok → r.pair = .ok (x1, x2, r') → r'.Ok := by
    intro r r' x1 x2 hr hp
    obtain ⟨v1, r1, h1, -, h3, -⟩ := Rand.next_ok hr
    obtain ⟨v2, r2, h4, -, h6, -⟩ := Rand.next_ok h3
    simp only [Rand.pair, Rand.uniform, h1, h4, Res.ok_bind, Res.ok.injEq, Prod.mk.injEq] at hp
    rw [← hp.2.2]
    exact h6
  induction hg with
  | stored hs => exact ⟨h.seed, h.last, h.size, h.table⟩
  | accept hs hp ha =>
    have hk := hpair h hp
    exact ⟨hk.seed, hk.last, hk.size, hk.table⟩
  | reject hs hp hr hg ih =>
    have hk := hpair h hp
    exact ih ⟨hk.seed, hk.last, hk.size, hk.table⟩

theorem gauss_exists (hacc : MidAccepted K) (r : {r : Rand K // r.Ok}) : ∃ p : K × {r : Rand K // r.Ok}, r.1.Gauss p.1 p.2.1 := by
  cases hs : r.1.stored with
  | some v => exact ⟨(v, ⟨_, gauss_ok r.2 (.stored hs)⟩), .stored hs⟩
  | none =>
    obtain ⟨j, v, r', vs, r2, -, -, h, -⟩ := gauss_total hacc r.1 r.2 hs
    exact ⟨(v, ⟨r', gauss_ok r.2 h⟩), h⟩

/-- The generator of the program as a source of normally distributed numbers for the model of CMA-ES (spot/cma_optimizer.cpp:202-221). -/
noncomputable def randSrc (hacc : MidAccepted K) : GaussSrc K where
  St := {r : Rand K // r.Ok}
  next r := Classical.choose (gauss_exists hacc r)

/-- `k` calls of `cmaes_random_Gauss` in a row. -/
inductive Rand.Gausses : Rand K → List K → Rand K → Prop
  | nil (r : Rand K) : Gausses r [] r
  | cons {r r1 r2 : Rand K} {v : K} {vs : List K} (h : r.Gauss v r1) (ht : Gausses r1 vs r2) : Gausses r (v :: vs) r2

end

theorem midAccepted_real : MidAccepted ℝ := by
  intro v1 v2 h1 h2
  have key : ∀ v : Int, midV v → 0 < (2 * (v / 2147483647) - 1 : ℝ) * (2 * (v / 2147483647) - 1) ∧
      (2 * (v / 2147483647) - 1 : ℝ) * (2 * (v / 2147483647) - 1) < 1 / 2 := by
    intro v hv
    obtain ⟨ha, hb⟩ := hv
    have ha' : (322122547 : ℝ) ≤ v := by exact_mod_cast ha
    have hb' : (v : ℝ) ≤ 1825361100 := by exact_mod_cast hb
    have e : (2 * (v / 2147483647) - 1 : ℝ) = (2 * v - 2147483647) / 2147483647 := by field_simp
    have hne : (2 * v - 2147483647 : ℝ) ≠ 0 := by
      have : (2 * v - 2147483647 : Int) ≠ 0 := by omega
      exact_mod_cast this
    rw [e]
    constructor
    · exact mul_self_pos.2 (div_ne_zero hne (by norm_num))
    · rw [div_mul_div_comm, div_lt_iff₀ (by norm_num)]
      nlinarith
  have k1 := key v1 h1
  have k2 := key v2 h2
  simp only [rejected, unitOf, le_real, lit_real, Bool.or_eq_false_iff, decide_eq_false_iff_not, not_le]
  push_cast
  constructor <;> linarith [k1.1, k1.2, k2.1, k2.2]

/-- The number `2 * uniform - 1` of line 214, as a function of the integer drawn, in floating-point arithmetic. -/
def polarQ (q : ℚ) : ℚ := bin64 (bin64 (2 * bin64 (bin64 q / 2147483647)) - 1)

theorem polarQ_mono {p q : ℚ} (h : p ≤ q) : polarQ p ≤ polarQ q := by
  have hm : ∀ {a b : ℚ}, a ≤ b → bin64 a ≤ bin64 b := fun h => rnd_mono (by norm_num) validExp_64 h
  unfold polarQ
  refine hm (sub_le_sub_right (hm (mul_le_mul_of_nonneg_left (hm ?_) (by norm_num))) _)
  exact div_le_div_of_nonneg_right (hm h) (by norm_num)

theorem ofQ_in {l u q : ℚ} (hl : l ≤ q) (hu : q ≤ u) (h1 : -Dbl.maxQ ≤ bin64 l) (h2 : bin64 u ≤ Dbl.maxQ) : Dbl.ofQ q = .fin (bin64 q) := by
  have e1 : bin64 l ≤ bin64 q := rnd_mono (by norm_num) validExp_64 hl
  have e2 : bin64 q ≤ bin64 u := rnd_mono (by norm_num) validExp_64 hu
  unfold Dbl.ofQ
  dsimp only
  rw [if_neg (by linarith), if_neg (by linarith)]

theorem polar_dbl [Libm] {v : Int} (h : InM v) : (lit 2 * unitOf v - lit 1 : Dbl) = .fin (polarQ v) := by
  have hm : ∀ {a b : ℚ}, a ≤ b → bin64 a ≤ bin64 b := fun h => rnd_mono (by norm_num) validExp_64 h
  have h1 : (1 : ℚ) ≤ v := by exact_mod_cast h.1
  have h2 : (v : ℚ) ≤ 2147483646 := by exact_mod_cast h.2
  have e1 : Dbl.ofQ v = .fin (bin64 v) := ofQ_in h1 h2 (by decide +kernel) (by decide +kernel)
  have a1 : 1 ≤ bin64 (v : ℚ) := by have := hm h1; rwa [show bin64 1 = 1 by decide +kernel] at this
  have a2 : bin64 (v : ℚ) ≤ 2147483646 := by have := hm h2; rwa [show bin64 2147483646 = 2147483646 by decide +kernel] at this
  have b1 : (0 : ℚ) ≤ bin64 v / 2147483647 := by positivity
  have b2 : bin64 (v : ℚ) / 2147483647 ≤ 1 := by rw [div_le_one (by norm_num)]; linarith
  have e2 : Dbl.ofQ (bin64 v / 2147483647) = .fin (bin64 (bin64 v / 2147483647)) := ofQ_in b1 b2 (by decide +kernel) (by decide +kernel)
  have c1 : 0 ≤ bin64 (bin64 (v : ℚ) / 2147483647) := by have := hm b1; rwa [show bin64 0 = 0 by decide +kernel] at this
  have c2 : bin64 (bin64 (v : ℚ) / 2147483647) ≤ 1 := by have := hm b2; rwa [show bin64 1 = 1 by decide +kernel] at this
  have e3 : Dbl.ofQ (2 * bin64 (bin64 v / 2147483647)) = .fin (bin64 (2 * bin64 (bin64 v / 2147483647))) :=
    ofQ_in (l := 0) (u := 2) (by linarith) (by linarith) (by decide +kernel) (by decide +kernel)
  have d1 : 0 ≤ bin64 (2 * bin64 (bin64 (v : ℚ) / 2147483647)) := by
    have := hm (show (0 : ℚ) ≤ 2 * bin64 (bin64 (v : ℚ) / 2147483647) by linarith)
    rwa [show bin64 0 = 0 by decide +kernel] at this
  have d2 : bin64 (2 * bin64 (bin64 (v : ℚ) / 2147483647)) ≤ 2 := by
    have := hm (show 2 * bin64 (bin64 (v : ℚ) / 2147483647) ≤ (2 : ℚ) by linarith)
    rwa [show bin64 2 = 2 by decide +kernel] at this
  have e4 : Dbl.ofQ (bin64 (2 * bin64 (bin64 v / 2147483647)) - 1) = .fin (polarQ v) :=
    ofQ_in (l := -1) (u := 1) (by linarith) (by linarith) (by decide +kernel) (by decide +kernel)
  show Dbl.sub (Dbl.mul (Dbl.ofQ 2) (Dbl.div (Dbl.ofQ v) (Dbl.ofQ 2147483647))) (Dbl.ofQ 1) = _
  rw [e1, show Dbl.ofQ 2147483647 = .fin 2147483647 by decide +kernel, show Dbl.ofQ 2 = .fin 2 by decide +kernel,
    show Dbl.ofQ 1 = .fin 1 by decide +kernel]
  simp only [Dbl.div, e2, if_neg (show ¬ (2147483647 : ℚ) = 0 by norm_num)]
  simp only [Dbl.mul, e3]
  rw [← e4]
  simp only [Dbl.sub, Dbl.add, Dbl.neg, sub_eq_add_neg]

theorem midAccepted_double [Libm] : MidAccepted Dbl := by
  intro v1 v2 h1 h2
  have hm : ∀ {a b : ℚ}, a ≤ b → bin64 a ≤ bin64 b := fun h => rnd_mono (by norm_num) validExp_64 h
  have hin : ∀ {v}, midV v → InM v := by
    intro v h
    unfold midV at h
    unfold InM
    omega
  have key : ∀ v : Int, midV v → 1 / 1000000000000000000000 ≤ polarQ v * polarQ v ∧ polarQ v * polarQ v ≤ 491 / 1000 := by
    intro v hv
    obtain ⟨ha, hb⟩ := hv
    have ha' : (322122547 : ℚ) ≤ v := by exact_mod_cast ha
    have hb' : (v : ℚ) ≤ 1825361100 := by exact_mod_cast hb
    have k1 := polarQ_mono ha'
    have k2 := polarQ_mono hb'
    have j1 : -7001 / 10000 ≤ polarQ 322122547 := by decide +kernel
    have j2 : polarQ 1825361100 ≤ 7001 / 10000 := by decide +kernel
    by_cases hc : v ≤ 1073741823
    · have k3 := polarQ_mono (show (v : ℚ) ≤ 1073741823 by exact_mod_cast hc)
      have j3 : polarQ 1073741823 ≤ -1 / 10000000000 := by decide +kernel
      constructor <;> nlinarith
    · have k3 := polarQ_mono (show (1073741824 : ℚ) ≤ v by exact_mod_cast (show (1073741824 : Int) ≤ v by omega))
      have j3 : 1 / 10000000000 ≤ polarQ 1073741824 := by decide +kernel
      constructor <;> nlinarith
  have k1 := key v1 h1
  have k2 := key v2 h2
  rw [polar_dbl (hin h1), polar_dbl (hin h2)]
  generalize polarQ v1 = p1 at k1
  generalize polarQ v2 = p2 at k2
  have sq : ∀ p : ℚ, (1 / 1000000000000000000000 ≤ p * p ∧ p * p ≤ 491 / 1000) →
      Dbl.ofQ (p * p) = .fin (bin64 (p * p)) ∧ 1 / 10000000000000000000000 ≤ bin64 (p * p) ∧ bin64 (p * p) ≤ 0.495 := by
    intro p hp
    have g1 := hm hp.1
    have g2 := hm hp.2
    have g3 : 1 / 10000000000000000000000 ≤ bin64 (1 / 1000000000000000000000) := by decide +kernel
    have g4 : bin64 (491 / 1000) ≤ 0.495 := by decide +kernel
    exact ⟨ofQ_in hp.1 hp.2 (by decide +kernel) (by decide +kernel), by linarith, by linarith⟩
  obtain ⟨s1, s2, s3⟩ := sq p1 k1
  obtain ⟨t1, t2, t3⟩ := sq p2 k2
  have sm : Dbl.ofQ (bin64 (p1 * p1) + bin64 (p2 * p2)) = .fin (bin64 (bin64 (p1 * p1) + bin64 (p2 * p2))) :=
    ofQ_in (l := 1 / 10000000000000000000000) (u := 99 / 100) (by linarith) (by linarith) (by decide +kernel) (by decide +kernel)
  have w1 := hm (show (1 / 10000000000000000000000 : ℚ) ≤ bin64 (p1 * p1) + bin64 (p2 * p2) by linarith)
  have w2 := hm (show bin64 (p1 * p1) + bin64 (p2 * p2) ≤ (99 / 100 : ℚ) by linarith)
  have w3 : 0 < bin64 (1 / 10000000000000000000000) := by decide +kernel
  have w4 : bin64 (99 / 100) < 1 := by decide +kernel
  show (Dbl.le (Dbl.ofQ 1) (Dbl.add (Dbl.mul (.fin p1) (.fin p1)) (Dbl.mul (.fin p2) (.fin p2))) ||
    Dbl.le (Dbl.add (Dbl.mul (.fin p1) (.fin p1)) (Dbl.mul (.fin p2) (.fin p2))) (Dbl.ofQ 0)) = false
  simp only [Dbl.mul, s1, t1]
  simp only [Dbl.add, sm]
  rw [show Dbl.ofQ 1 = .fin 1 by decide +kernel, show Dbl.ofQ 0 = .fin 0 by decide +kernel]
  simp only [Dbl.le, Bool.or_eq_false_iff, decide_eq_false_iff_not]
  constructor <;> intro h <;> linarith

section
variable {K : Type} [Arith K]

theorem randSrc_next (hacc : MidAccepted K) (r : {r : Rand K // r.Ok}) :
    r.1.Gauss ((randSrc hacc).next r).1 ((randSrc hacc).next r).2.1 := Classical.choose_spec (gauss_exists hacc r)

theorem gausses_drawN (hacc : MidAccepted K) : ∀ (k : Nat) (r : {r : Rand K // r.Ok}) (vs : List K) (r' : Rand K),
    (r.1.Gausses vs r' ∧ vs.length = k) ↔ ((drawN (randSrc hacc) k r).1 = vs ∧ (drawN (randSrc hacc) k r).2.1 = r') := by
  intro k
  induction k with
  | zero =>
    intro r vs r'
    constructor
    · rintro ⟨h, hl⟩
      cases h with
      | nil => exact ⟨rfl, rfl⟩
      | cons => simp at hl
    · rintro ⟨rfl, rfl⟩
      exact ⟨.nil _, rfl⟩
  | succ k ih =>
    intro r vs r'
    constructor
    · rintro ⟨h, hl⟩
      cases h with
      | nil => simp at hl
      | @cons _ r1 _ v vs h ht =>
        obtain ⟨e1, e2⟩ := gauss_det h (randSrc_next hacc r)
        rw [e2] at ht
        have := (ih ((randSrc hacc).next r).2 vs r').1 ⟨ht, by simpa using hl⟩
        refine ⟨?_, this.2⟩
        show ((randSrc hacc).next r).1 :: _ = _
        rw [this.1, e1]
    · rintro ⟨rfl, rfl⟩
      have := (ih ((randSrc hacc).next r).2 _ _).2 ⟨rfl, rfl⟩
      exact ⟨.cons (randSrc_next hacc r) this.1, by show _ + 1 = _; rw [this.2]⟩

theorem gausses_unique (hacc : MidAccepted K) (k : Nat) (r : Rand K) (hr : r.Ok) :
    ∃! p : List K × Rand K, r.Gausses p.1 p.2 ∧ p.1.length = k := by
  refine ⟨((drawN (randSrc hacc) k ⟨r, hr⟩).1, (drawN (randSrc hacc) k ⟨r, hr⟩).2.1), ?_, ?_⟩
  · exact (gausses_drawN hacc k ⟨r, hr⟩ _ _).2 ⟨rfl, rfl⟩
  · rintro ⟨vs, r'⟩ h
    have := (gausses_drawN hacc k ⟨r, hr⟩ vs r').1 h
    exact Prod.ext this.1.symm this.2.symm

end

/-- **C84.** In floating-point arithmetic, for every seed (or clock value for the seed 0) that is not 0 and every number of calls, `cmaes_random_Gauss` returns each
time, and the numbers it returns are determined by the seed. -/
theorem C84_returns_double [Libm] (inseed clock : Nat) (h : 1 ≤ inseed ∨ 1 ≤ clock) (k : Nat) :
    ∃! p : List Dbl × Rand Dbl, (Rand.init inseed clock : Rand Dbl).Gausses p.1 p.2 ∧ p.1.length = k :=
  gausses_unique midAccepted_double k _ (Rand.init_ok inseed clock h).1

/-- **C84.** The same in exact arithmetic. -/
theorem C84_returns (inseed clock : Nat) (h : 1 ≤ inseed ∨ 1 ≤ clock) (k : Nat) :
    ∃! p : List ℝ × Rand ℝ, (Rand.init inseed clock : Rand ℝ).Gausses p.1 p.2 ∧ p.1.length = k :=
  gausses_unique midAccepted_real k _ (Rand.init_ok inseed clock h).1

/-- **C84.** From any regular state without a stored number, a call rejects fewer than 2^30 - 1 pairs: it draws `2 * j` uniform numbers, `1 ≤ j ≤ 2^30 - 1`. -/
theorem C84_rounds_double [Libm] (r : Rand Dbl) (hr : r.Ok) (hs : r.stored = none) :
    ∃ j v r' vs r2, 1 ≤ j ∧ j ≤ 2 ^ 30 - 1 ∧ r.Gauss v r' ∧ r.draws (2 * j) = .ok (vs, r2) ∧ ∃ w, r' = { r2 with stored := some w } :=
  gauss_total midAccepted_double r hr hs

/-- **C84.** The source of Gaussian numbers of the model of CMA-ES instantiated with the generator of the program: `k` numbers drawn from it are what `k` calls of
`cmaes_random_Gauss` return, so everything proved for all sources holds for the program's. -/
theorem C84_source_double [Libm] (inseed clock : Nat) (h : 1 ≤ inseed ∨ 1 ≤ clock) (k : Nat) :
    let e : (randSrc (midAccepted_double)).St := ⟨Rand.init inseed clock, (Rand.init_ok inseed clock h).1⟩
    (Rand.init inseed clock : Rand Dbl).Gausses (drawN (randSrc midAccepted_double) k e).1 (drawN (randSrc midAccepted_double) k e).2.1 ∧
      (drawN (randSrc midAccepted_double) k e).1.length = k :=
  (gausses_drawN midAccepted_double k ⟨Rand.init inseed clock, (Rand.init_ok inseed clock h).1⟩ _ _).2 ⟨rfl, rfl⟩

theorem unit_odd (v : Int) : (1 / 2147483647 : ℝ) ^ 2 ≤ (2 * (unitOf v : ℝ) - 1) ^ 2 := by
  have e : (2 * (unitOf v : ℝ) - 1) = ((2 * v - 2147483647 : Int) : ℝ) / 2147483647 := by
    unfold unitOf
    simp only [lit_real]
    push_cast
    field_simp
  have hne : (2 * v - 2147483647 : Int) ≠ 0 := by omega
  have h1 : (1 : Int) ≤ (2 * v - 2147483647) ^ 2 := by
    have := sq_nonneg (2 * v - 2147483647)
    have h0 : (2 * v - 2147483647) ^ 2 ≠ 0 := pow_ne_zero 2 hne
    omega
  have h2 : (1 : ℝ) ≤ ((2 * v - 2147483647 : Int) : ℝ) ^ 2 := by exact_mod_cast h1
  rw [e, div_pow, div_pow, one_pow]
  gcongr

theorem log_rquad {ρ : ℝ} (h : (1 / 2147483647 : ℝ) ^ 2 + (1 / 2147483647 : ℝ) ^ 2 ≤ ρ) : -2 * Real.log ρ ≤ 85 := by
  have h1 : (1 / 2 : ℝ) ^ 61 ≤ ρ := by
    refine le_trans ?_ h
    norm_num
  have h2 := Real.log_le_log (by positivity) h1
  rw [Real.log_pow, one_div, Real.log_inv] at h2
  have := Real.log_two_lt_d9
  push_cast at h2
  nlinarith

theorem gauss_bound {r r' : Rand ℝ} {v : ℝ} (h : r.Gauss v r') (hs : ∀ w, r.stored = some w → w ^ 2 ≤ 85) :
    v ^ 2 ≤ 85 ∧ ∀ w, r'.stored = some w → w ^ 2 ≤ 85 := by
  induction h with
  | stored h => exact ⟨hs _ h, by simp⟩
  | @accept r r' x1 x2 h hp ha =>
    have hx : (1 / 2147483647 : ℝ) ^ 2 ≤ x1 ^ 2 ∧ (1 / 2147483647 : ℝ) ^ 2 ≤ x2 ^ 2 := by
      unfold Rand.pair Rand.uniform at hp
      cases hn : r.next with
      | ok p =>
        rw [hn, Res.ok_bind, Res.ok_bind] at hp
        dsimp only at hp
        cases hn2 : p.2.next with
        | ok q =>
          rw [hn2, Res.ok_bind, Res.ok_bind] at hp
          cases hp
          have k1 := unit_odd p.1
          have k2 := unit_odd q.1
          simp only [lit_real]
          push_cast
          exact ⟨k1, k2⟩
        | _ => rw [hn2] at hp; cases hp
      | _ => rw [hn] at hp; cases hp
    simp only [rejected, le_real, lit_real, Rat.cast_one, Rat.cast_zero, Bool.or_eq_false_iff, decide_eq_false_iff_not, not_le] at ha
    obtain ⟨ha1, ha2⟩ := ha
    have hb := log_rquad (ρ := x1 * x1 + x2 * x2) (by nlinarith [hx.1, hx.2])
    have hlog : Real.log (x1 * x1 + x2 * x2) < 0 := Real.log_neg ha2 ha1
    have hnn : 0 ≤ ((-2 : ℚ) : ℝ) * Real.log (x1 * x1 + x2 * x2) / (x1 * x1 + x2 * x2) := by
      refine div_nonneg ?_ ha2.le
      push_cast
      nlinarith
    have key : ∀ x : ℝ, x ^ 2 ≤ x1 * x1 + x2 * x2 → (gaussFactor (x1 * x1 + x2 * x2) * x) ^ 2 ≤ 85 := by
      intro x hx
      unfold gaussFactor
      simp only [sqrt_real, lit_real, log_real]
      rw [mul_pow, Real.sq_sqrt hnn, div_mul_eq_mul_div, div_le_iff₀ ha2]
      push_cast
      have : -2 * Real.log (x1 * x1 + x2 * x2) * x ^ 2 ≤ -2 * Real.log (x1 * x1 + x2 * x2) * (x1 * x1 + x2 * x2) :=
        mul_le_mul_of_nonneg_left hx (by linarith)
      nlinarith
    refine ⟨key x2 (by nlinarith [sq_nonneg x1]), ?_⟩
    intro w hw
    cases hw
    exact key x1 (by nlinarith [sq_nonneg x2])
  | reject h hp hr hg ih => exact ih (by simp)

/-- **C84.** No number returned (exact arithmetic) is larger than 9.22 in absolute value: its square is at most 85. -/
theorem C84_bounded (inseed clock : Nat) (vs : List ℝ) (r' : Rand ℝ) (h : (Rand.init inseed clock : Rand ℝ).Gausses vs r') :
    ∀ v ∈ vs, v ^ 2 ≤ 85 := by
  have hg : ∀ {r r' : Rand ℝ} {vs : List ℝ}, r.Gausses vs r' → (∀ w, r.stored = some w → w ^ 2 ≤ 85) → ∀ v ∈ vs, v ^ 2 ≤ 85 := by
    intro r r' vs h
    induction h with
    | nil => simp
    | cons h ht ih =>
      intro hs v hv
      have hb := gauss_bound h hs
      rcases List.mem_cons.1 hv with rfl | hv
      · exact hb.1
      · exact ih hb.2 v hv
  refine hg h ?_
  intro w hw
  have : (Rand.init inseed clock : Rand ℝ).stored = none := by unfold Rand.init Rand.ofTable; rfl
  rw [this] at hw
  cases hw

/-- The first pair for the default seed 123 is accepted; integers exist that lead to a rejected pair. -/
example : midV 1155500400 ∧ midV 366694711 ∧ ¬ midV 1 ∧ rejected (lit 2 * unitOf 1 - lit 1 : ℝ) (lit 2 * unitOf 1 - lit 1) = true := by
  refine ⟨by unfold midV; omega, by unfold midV; omega, by unfold midV; omega, ?_⟩
  simp only [rejected, unitOf, le_real, lit_real]
  norm_num

end Spot
