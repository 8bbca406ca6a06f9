import Verif.Lemmas.CmaRandom
import Mathlib.Analysis.SpecialFunctions.Log.Basic

/-! # The random number generator of CMA-ES (C49, C73) -/

namespace Spot

/-- `k` calls of `cmaes_random_Uniform` (their integers) in a row. -/
def Rand.draws {K : Type} : Nat → Rand K → Res (List Int × Rand K)
  | 0, r => .ok ([], r)
  | k + 1, r => r.next >>= fun v => Rand.draws k v.2 >>= fun w => .ok (v.1 :: w.1, w.2)

theorem draws_ok {K : Type} : ∀ (k : Nat) (r : Rand K), r.Ok → ∃ vs r', r.draws k = .ok (vs, r') ∧ r'.Ok ∧ vs.length = k ∧ (∀ v ∈ vs, InM v) ∧
    r'.aktseed = nextSeed^[k] r.aktseed := by
  intro k
  induction k with
  | zero => intro r h; exact ⟨[], r, rfl, h, rfl, by simp, rfl⟩
  | succ k ih =>
    intro r h
    obtain ⟨v, r1, h1, h2, h3, h4, -⟩ := Rand.next_ok h
    obtain ⟨vs, r2, h5, h6, h7, h8, h9⟩ := ih r1 h3
    refine ⟨v :: vs, r2, ?_, h6, by simp [h7], ?_, ?_⟩
    · simp [Rand.draws, h1, h5]
    · intro w hw
      rcases List.mem_cons.1 hw with rfl | hw
      · exact h2
      · exact h8 w hw
    · rw [h9, h4, Function.iterate_succ, Function.comp]

theorem nextSeed_iterate : ∀ (k : Nat) (s : Int), InM s → nextSeed^[k] s = 16807 ^ k * s % 2147483647 ∧ InM (nextSeed^[k] s) := by
  intro k
  induction k with
  | zero =>
    intro s h
    refine ⟨?_, h⟩
    obtain ⟨h1, h2⟩ := h
    simp only [Function.iterate_zero, id, pow_zero, one_mul]
    omega
  | succ k ih =>
    intro s h
    have h1 := ih s h
    have h2 := nextSeed_spec h1.2
    rw [Function.iterate_succ', Function.comp]
    refine ⟨?_, h2.2⟩
    rw [h2.1, h1.1, Int.mul_emod, Int.emod_emod_of_dvd _ (dvd_refl _), ← Int.mul_emod]
    congr 1
    ring

/-- **C49.** For every seed (0 is replaced by a number from the clock), every number of calls: no call reads outside of the table, the table has 32
entries, and all values are between 1 and 2^31 - 2; the seed variable is the seed (reduced to at most 2e9) multiplied by a power of 16807
modulo 2^31 - 1. -/
theorem C49_stays_in_range {K : Type} (inseed clock : Nat) (h : 1 ≤ inseed ∨ 1 ≤ clock) (k : Nat) :
    ∃ vs r', (Rand.init inseed clock : Rand K).draws k = .ok (vs, r') ∧ vs.length = k ∧
      (∀ v ∈ vs, 1 ≤ v ∧ v ≤ 2 ^ 31 - 2) ∧ r'.rgrand.length = 32 ∧ (∀ v ∈ r'.rgrand, 1 ≤ v ∧ v ≤ 2 ^ 31 - 2) ∧
      (0 ≤ r'.aktrand.tdiv 67108865 ∧ r'.aktrand.tdiv 67108865 ≤ 31) ∧
      r'.aktseed = 16807 ^ (40 + k) * (reduceSeed (if inseed < 1 then clock else inseed) : Nat) % (2 ^ 31 - 1) := by
  have h0 := Rand.init_ok (K := K) inseed clock h
  obtain ⟨vs, r', h1, h2, h3, h4, h5⟩ := draws_ok k _ h0.1
  refine ⟨vs, r', h1, h3, h4, h2.size, h2.table, ?_, ?_⟩
  · obtain ⟨h6, h7⟩ := h2.last
    rw [Int.tdiv_eq_ediv_of_nonneg (by omega)]
    omega
  · rw [h5, h0.2.1, ← Function.iterate_add_apply, (nextSeed_iterate (k + 40) _ (reduceSeed_spec _ (by split <;> omega)).1).1, Nat.add_comm k 40]
    norm_num

/-- **C49.** None of the intermediate results of a step overflows a signed 32-bit `long`. -/
theorem C49_no_overflow (s : Int) (h1 : 1 ≤ s) (h2 : s ≤ 2 ^ 31 - 2) : let t := s.tdiv 127773
    (0 ≤ 16807 * (s - t * 127773) ∧ 16807 * (s - t * 127773) < 2 ^ 31) ∧ (0 ≤ 2836 * t ∧ 2836 * t < 2 ^ 31) ∧
    (-2 ^ 31 ≤ 16807 * (s - t * 127773) - 2836 * t ∧ 16807 * (s - t * 127773) - 2836 * t < 2 ^ 31) := by
  have := nextSeed_intermediate ⟨h1, h2⟩
  dsimp only
  norm_num
  omega

/-- Seeds up to 2e9 are used as they are, larger ones are halved until they are. -/
theorem C49_seed (s : Nat) (h : 1 ≤ s) : 1 ≤ reduceSeed s ∧ reduceSeed s ≤ 2000000000 ∧ (s ≤ 2000000000 → reduceSeed s = s) := by
  refine ⟨by have := (reduceSeed_spec s h).1.1; omega, ?_, (reduceSeed_spec s h).2⟩
  clear h
  induction s using Nat.strongRecOn with
  | _ s ih =>
    unfold reduceSeed
    split
    · exact ih (s / 2) (by omega)
    · omega

theorem ofQ_between {l u q : ℚ} (hl : l ≤ q) (hu : q ≤ u) (h1 : -Dbl.maxQ ≤ bin64 l) (h2 : bin64 u ≤ Dbl.maxQ) :
    ∃ r, Dbl.ofQ q = .fin r ∧ bin64 l ≤ r ∧ r ≤ bin64 u := by
  have e1 : bin64 l ≤ bin64 q := rnd_mono (by norm_num) validExp_64 hl
  have e2 : bin64 q ≤ bin64 u := rnd_mono (by norm_num) validExp_64 hu
  refine ⟨bin64 q, ?_, e1, e2⟩
  unfold Dbl.ofQ
  dsimp only
  rw [if_neg (by linarith), if_neg (by linarith)]

/-- **C49.** `cmaes_random_Uniform` is strictly between 0 and 1, in floating-point arithmetic. -/
theorem C49_uniform_double [Libm] (v : Int) (h1 : 1 ≤ v) (h2 : v ≤ 2 ^ 31 - 2) :
    Dbl.lt (.fin 0) (unitOf v : Dbl) = true ∧ Dbl.lt (unitOf v : Dbl) (.fin 1) = true := by
  have hv1 : (1 : ℚ) ≤ v := by exact_mod_cast h1
  have hv2 : (v : ℚ) ≤ 2147483646 := by have : v ≤ 2147483646 := by omega
                                        exact_mod_cast this
  obtain ⟨a, ha, ha1, ha2⟩ := ofQ_between hv1 hv2 (by decide +kernel) (by decide +kernel)
  have e1 : bin64 1 = 1 := by decide +kernel
  have e2 : bin64 2147483646 = 2147483646 := by decide +kernel
  rw [e1] at ha1
  rw [e2] at ha2
  have hd : (unitOf v : Dbl) = Dbl.ofQ (a / 2147483647) := by
    show Dbl.div (Dbl.ofQ v) (Dbl.ofQ 2147483647) = _
    have e3 : Dbl.ofQ 2147483647 = .fin 2147483647 := by decide +kernel
    rw [ha, e3]
    simp [Dbl.div]
  have hl : (1 / 2147483647 : ℚ) ≤ a / 2147483647 := by gcongr
  have hu : a / 2147483647 ≤ (2147483646 / 2147483647 : ℚ) := by gcongr
  obtain ⟨r, hr, hr1, hr2⟩ := ofQ_between hl hu (by decide +kernel) (by decide +kernel)
  have e4 : (0 : ℚ) < bin64 (1 / 2147483647) := by decide +kernel
  have e5 : bin64 (2147483646 / 2147483647) < 1 := by decide +kernel
  rw [hd, hr]
  simp only [Dbl.lt, decide_eq_true_eq]
  exact ⟨by linarith, by linarith⟩

/-- **C49.** The same in exact arithmetic. -/
theorem C49_uniform (v : Int) (h1 : 1 ≤ v) (h2 : v ≤ 2 ^ 31 - 2) : 0 < (unitOf v : ℝ) ∧ (unitOf v : ℝ) < 1 := by
  have hv1 : (1 : ℝ) ≤ v := by exact_mod_cast h1
  have hv2 : (v : ℝ) ≤ 2147483646 := by have : v ≤ 2147483646 := by omega
                                        exact_mod_cast this
  have e : (unitOf v : ℝ) = v / 2147483647 := by unfold unitOf; simp only [lit_real]; norm_num
  rw [e]
  constructor
  · positivity
  · rw [div_lt_one (by norm_num)]; linarith

/-- **C49.** `cmaes_random_Gauss` keeps the generator regular, and computes the polar method: a call that draws returns `v` and keeps `w` for the next call
with `v^2 + w^2 = -2 log r` for some `r` strictly between 0 and 1 (exact arithmetic). -/
theorem C49_gauss {r r' : Rand ℝ} (h : r.Ok) {v : ℝ} (hg : r.Gauss v r') : r'.Ok ∧
    ((r.stored = some v ∧ r'.stored = none) ∨
     (r.stored = none ∧ ∃ w ρ : ℝ, r'.stored = some w ∧ 0 < ρ ∧ ρ < 1 ∧ v ^ 2 + w ^ 2 = -2 * Real.log ρ)) := by
  have hpair : ∀ {r r' : Rand ℝ} {x1 x2 : ℝ}, r.Ok → r.pair = .ok (x1, x2, r') → r'.Ok := by
    intro r r' x1 x2 hr hp
    obtain ⟨v1, r1, h1, -, h3, -⟩ := Rand.next_ok hr
    obtain ⟨v2, r2, h4, -, h6, -⟩ := Rand.next_ok h3
    simp only [Rand.pair, Rand.uniform, h1, h4, Res.ok_bind, Res.ok.injEq, Prod.mk.injEq] at hp
    rw [← hp.2.2]
    exact h6
  induction hg with
  | stored hs => exact ⟨⟨h.seed, h.last, h.size, h.table⟩, .inl ⟨hs, rfl⟩⟩
  | @accept r r' x1 x2 hs hp ha =>
    have hk := hpair h hp
    refine ⟨⟨hk.seed, hk.last, hk.size, hk.table⟩, .inr ⟨hs, _, x1 * x1 + x2 * x2, rfl, ?_⟩⟩
    simp only [rejected, le_real, lit_real, Rat.cast_one, Rat.cast_zero, Bool.or_eq_false_iff, decide_eq_false_iff_not, not_le] at ha
    obtain ⟨ha1, ha2⟩ := ha
    refine ⟨ha2, ha1, ?_⟩
    unfold gaussFactor
    simp only [sqrt_real, lit_real, log_real]
    have hlog : Real.log (x1 * x1 + x2 * x2) < 0 := Real.log_neg ha2 ha1
    have hnn : 0 ≤ ((-2 : ℚ) : ℝ) * Real.log (x1 * x1 + x2 * x2) / (x1 * x1 + x2 * x2) := by
      refine div_nonneg ?_ ha2.le
      push_cast
      nlinarith
    rw [mul_pow, mul_pow, Real.sq_sqrt hnn]
    have hne : x1 * x1 + x2 * x2 ≠ 0 := ha2.ne'
    have : ∀ A : ℝ, A / (x1 * x1 + x2 * x2) * x2 ^ 2 + A / (x1 * x1 + x2 * x2) * x1 ^ 2 = A := by
      intro A
      have e : A / (x1 * x1 + x2 * x2) * x2 ^ 2 + A / (x1 * x1 + x2 * x2) * x1 ^ 2 = A * ((x1 * x1 + x2 * x2) / (x1 * x1 + x2 * x2)) := by ring
      rw [e, div_self hne, mul_one]
    rw [this]
    norm_num
  | @reject r r1 r2 x1 x2 v hs hp hr hg ih =>
    have hk := hpair h hp
    obtain ⟨h1, h2⟩ := ih ⟨hk.seed, hk.last, hk.size, hk.table⟩
    refine ⟨h1, ?_⟩
    rcases h2 with h2 | h2
    · simp at h2
    · exact .inr ⟨hs, h2.2⟩

/-- **C49 (finding).** If the clock gives 0 for the seed 0, the generator returns 0 forever, and `cmaes_random_Gauss` never returns. -/
theorem C49_zero_seed : ∀ (r r' : Rand ℝ) (v : ℝ), r.aktseed = 0 → r.aktrand = 0 → r.rgrand = List.replicate 32 0 → r.stored = none →
    ¬ r.Gauss v r' := by
  intro r r' v h1 h2 h3 h4 hg
  have hn : ∀ r : Rand ℝ, r.aktseed = 0 → r.aktrand = 0 → r.rgrand = List.replicate 32 0 → r.stored = none → r.next = .ok (0, r) := by
    rintro ⟨s, a, t, st⟩ rfl rfl rfl rfl
    rfl
  induction hg with
  | stored h => rw [h4] at h; cases h
  | @accept r r1 x1 x2 h hp ha =>
    simp only [Rand.pair, Rand.uniform, hn r h1 h2 h3 h4, Res.ok_bind, Res.ok.injEq, Prod.mk.injEq] at hp
    rw [← hp.1, ← hp.2.1] at ha
    simp [rejected, unitOf] at ha
  | @reject r r1 r2 x1 x2 v h hp hr hg ih =>
    simp only [Rand.pair, Rand.uniform, hn r h1 h2 h3 h4, Res.ok_bind, Res.ok.injEq, Prod.mk.injEq] at hp
    rw [← hp.2.2] at ih
    exact ih h1 h2 h3 rfl

/-- The clock value 0 leads there. -/
example : (Rand.init 0 0 : Rand ℝ).aktseed = 0 ∧ (Rand.init 0 0 : Rand ℝ).aktrand = 0 ∧ (Rand.init 0 0 : Rand ℝ).rgrand = List.replicate 32 0 := by
  refine ⟨?_, ?_, ?_⟩ <;> (unfold Rand.init reduceSeed; decide +kernel)

/-! ## C73: the period -/

theorem nextSeed_zmod {s : Int} (h : InM s) (k : Nat) : ((nextSeed^[k] s : Int) : ZMod 2147483647) = 16807 ^ k * (s : ZMod 2147483647) := by
  rw [(nextSeed_iterate k s h).1]
  refine (ZMod.intCast_mod (16807 ^ k * s) 2147483647).trans ?_
  push_cast
  rfl

theorem inM_inj {a b : Int} (ha : InM a) (hb : InM b) (h : (a : ZMod 2147483647) = b) : a = b := by
  rw [ZMod.intCast_eq_intCast_iff] at h
  obtain ⟨h1, h2⟩ := ha
  obtain ⟨h3, h4⟩ := hb
  have : a % 2147483647 = b % 2147483647 := h
  omega

/-- **C73.** From every seed the seed variable takes each of the values 1 .. 2^31 - 2 exactly once before it repeats: after `k < 2^31 - 2` steps it has never been
what it is now, and after 2^31 - 2 steps it is back at the start. -/
theorem C73_full_period (s : Int) (h1 : 1 ≤ s) (h2 : s ≤ 2 ^ 31 - 2) :
    nextSeed^[2 ^ 31 - 2] s = s ∧ (∀ i j, i < 2 ^ 31 - 2 → j < 2 ^ 31 - 2 → nextSeed^[i] s = nextSeed^[j] s → i = j) ∧
    ∀ v : Int, 1 ≤ v → v ≤ 2 ^ 31 - 2 → ∃ k < 2 ^ 31 - 2, nextSeed^[k] s = v := by
  have : Fact (Nat.Prime 2147483647) := ⟨prime_M31⟩
  have hs : InM s := ⟨h1, h2⟩
  have hne : ∀ {a : Int}, InM a → (a : ZMod 2147483647) ≠ 0 := by
    intro a ha h0
    rw [ZMod.intCast_zmod_eq_zero_iff_dvd] at h0
    obtain ⟨h3, h4⟩ := ha
    push_cast at h0
    omega
  have e : 2 ^ 31 - 2 = 2147483646 := by norm_num
  rw [e]
  have hinj : ∀ i j, i < 2147483646 → j < 2147483646 → nextSeed^[i] s = nextSeed^[j] s → i = j := by
    intro i j hi hj hij
    have h3 := congrArg (fun a : Int => (a : ZMod 2147483647)) hij
    simp only [nextSeed_zmod hs] at h3
    have h4 : (16807 : ZMod 2147483647) ^ i = 16807 ^ j := mul_right_cancel₀ (hne hs) h3
    exact pow_injOn_Iio_orderOf (by rw [order_16807]; exact hi) (by rw [order_16807]; exact hj) h4
  refine ⟨?_, hinj, ?_⟩
  · refine inM_inj (nextSeed_iterate _ s hs).2 hs ?_
    rw [nextSeed_zmod hs, pow_full, one_mul]
  · intro v hv1 hv2
    have hmaps : ∀ k ∈ Finset.range 2147483646, nextSeed^[k] s ∈ Finset.Icc (1 : Int) 2147483646 := by
      intro k _
      exact Finset.mem_Icc.2 (nextSeed_iterate k s hs).2
    have hcard : (Finset.Icc (1 : Int) 2147483646).card ≤ (Finset.range 2147483646).card := by
      rw [Int.card_Icc, Finset.card_range]
      norm_num
    have hsurj := Finset.surj_on_of_inj_on_of_card_le (s := Finset.range 2147483646) (t := Finset.Icc (1 : Int) 2147483646)
      (fun k _ => nextSeed^[k] s) hmaps (fun i j hi hj hij => hinj i j (Finset.mem_range.1 hi) (Finset.mem_range.1 hj) hij) hcard v
      (Finset.mem_Icc.2 ⟨hv1, by omega⟩)
    obtain ⟨k, hk, hk2⟩ := hsurj
    exact ⟨k, Finset.mem_range.1 hk, hk2.symm⟩

/-- The default seed 123 meets the hypotheses; its first three random integers. -/
example : (match (Rand.init 123 0 : Rand Nat).draws 3 with | .ok v => v.1 | _ => []) = [366694711, 1155500400, 953755623] := by
  unfold Rand.init reduceSeed; decide +kernel
example : (1 : Nat) ≤ 123 ∧ reduceSeed 123 = 123 := ⟨by norm_num, (C49_seed 123 (by norm_num)).2.2 (by norm_num)⟩

end Spot
