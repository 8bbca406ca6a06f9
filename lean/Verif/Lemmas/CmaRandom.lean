import Verif.Model.CmaRandom
import Verif.Lemmas.Arith
import Verif.Lemmas.Round
import Verif.Lemmas.Dbl
import Mathlib.NumberTheory.LucasPrimality
import Mathlib.Tactic.ReduceModChar
import Mathlib.Tactic.NormNum.Prime
import Mathlib.Tactic.IntervalCases

/-! # The random number generator of CMA-ES -/

namespace Spot

/-- The modulus of the generator. -/
abbrev M31 : Int := 2147483647

/-- Values the generator works with. -/
def InM (s : Int) : Prop := 1 ≤ s ∧ s ≤ 2147483646

theorem nextSeed_spec {s : Int} (h : InM s) : nextSeed s = (16807 * s) % 2147483647 ∧ InM (nextSeed s) := by
  obtain ⟨h1, h2⟩ := h
  unfold nextSeed InM
  rw [Int.tdiv_eq_ediv_of_nonneg (by omega)]
  dsimp only
  split <;> omega

theorem nextSeed_intermediate {s : Int} (h : InM s) : 0 ≤ 16807 * (s - s.tdiv 127773 * 127773) ∧
    16807 * (s - s.tdiv 127773 * 127773) < 2147483648 ∧ 0 ≤ 2836 * s.tdiv 127773 ∧ 2836 * s.tdiv 127773 < 2147483648 ∧
    -2147483648 ≤ 16807 * (s - s.tdiv 127773 * 127773) - 2836 * s.tdiv 127773 := by
  obtain ⟨h1, h2⟩ := h
  rw [Int.tdiv_eq_ediv_of_nonneg (by omega)]
  omega

theorem reduceSeed_spec (s : Nat) (h : 1 ≤ s) : InM (reduceSeed s) ∧ (s ≤ 2000000000 → reduceSeed s = s) := by
  unfold InM
  induction s using Nat.strongRecOn with
  | _ s ih =>
    unfold reduceSeed
    split
    · rename_i hs
      have := ih (s / 2) (by omega) (by omega)
      exact ⟨this.1, fun h => absurd h (by omega)⟩
    · exact ⟨by omega, fun _ => rfl⟩

theorem initRand_spec : ∀ (k : Nat) (s : Int) (tab : List Int), tab.length = 32 → InM s → (∀ j (hj : j < tab.length), k ≤ j → InM tab[j]) →
    InM (initRand k s tab).1 ∧ (initRand k s tab).2.length = 32 ∧ (∀ v ∈ (initRand k s tab).2, InM v) ∧
    (initRand k s tab).1 = nextSeed^[k] s := by
  intro k
  induction k with
  | zero =>
    intro s tab hl hs ht
    refine ⟨hs, hl, ?_, rfl⟩
    intro v hv
    obtain ⟨j, hj, rfl⟩ := List.mem_iff_getElem.1 hv
    exact ht j hj (by omega)
  | succ k ih =>
    intro s tab hl hs ht
    simp only [initRand, Function.iterate_succ, Function.comp]
    refine ih _ _ (by split <;> simp [hl]) (nextSeed_spec hs).2 ?_
    intro j hj hkj
    split
    · rename_i hk
      rw [List.getElem_set]
      split
      · exact (nextSeed_spec hs).2
      · exact ht j (by simpa [hk] using hj) (by omega)
    · rename_i hk
      have hj' : j < tab.length := by simpa [hk] using hj
      exact absurd hj' (by omega)

/-- A generator in a regular state. -/
structure Rand.Ok {K : Type} (r : Rand K) : Prop where
  seed : InM r.aktseed
  last : InM r.aktrand
  size : r.rgrand.length = 32
  table : ∀ v ∈ r.rgrand, InM v

theorem Rand.init_ok {K : Type} (inseed clock : Nat) (h : 1 ≤ inseed ∨ 1 ≤ clock) : (Rand.init inseed clock : Rand K).Ok ∧
    (Rand.init inseed clock : Rand K).aktseed = nextSeed^[40] (reduceSeed (if inseed < 1 then clock else inseed) : Nat) ∧
    (Rand.init inseed clock : Rand K).stored = none := by
  have hs : InM (reduceSeed (if inseed < 1 then clock else inseed) : Nat) := (reduceSeed_spec _ (by split <;> omega)).1
  have := initRand_spec 40 (reduceSeed (if inseed < 1 then clock else inseed) : Nat) (List.replicate 32 0) (by simp) hs
    (fun j hj hk => absurd hj (by simp; omega))
  unfold Rand.init
  generalize initRand 40 ((reduceSeed (if inseed < 1 then clock else inseed) : Nat) : Int) (List.replicate 32 0) = p at this ⊢
  obtain ⟨h1, h2, h3, h4⟩ := this
  refine ⟨⟨h1, ?_, h2, h3⟩, h4, rfl⟩
  obtain ⟨s, tab⟩ := p
  dsimp only at h2 h3 ⊢
  cases tab with
  | nil => simp at h2
  | cons v t => exact h3 v List.mem_cons_self

theorem Rand.next_ok {K : Type} {r : Rand K} (h : r.Ok) : ∃ v r', r.next = .ok (v, r') ∧ InM v ∧ r'.Ok ∧ r'.aktseed = nextSeed r.aktseed ∧
    v ∈ r.rgrand ∧ r'.stored = r.stored ∧ r'.aktrand = v := by
  obtain ⟨h1, h2, h3, h4⟩ := h
  obtain ⟨h5, h6⟩ := h2
  have hi : 0 ≤ r.aktrand.tdiv 67108865 ∧ r.aktrand.tdiv 67108865 < 32 := by
    rw [Int.tdiv_eq_ediv_of_nonneg (by omega)]; omega
  have hlt : (r.aktrand.tdiv 67108865).toNat < r.rgrand.length := by rw [h3]; omega
  refine ⟨r.rgrand[(r.aktrand.tdiv 67108865).toNat], { r with
    aktseed := nextSeed r.aktseed
    aktrand := r.rgrand[(r.aktrand.tdiv 67108865).toNat]
    rgrand := r.rgrand.set (r.aktrand.tdiv 67108865).toNat (nextSeed r.aktseed) }, ?_, h4 _ (List.getElem_mem hlt), ?_, rfl, List.getElem_mem hlt, rfl, rfl⟩
  · unfold Rand.next
    simp only [if_pos hi.1, List.getElem?_eq_getElem hlt]
  · refine ⟨(nextSeed_spec h1).2, h4 _ (List.getElem_mem hlt), by simp [h3], ?_⟩
    intro v hv
    rcases List.mem_or_eq_of_mem_set hv with h | rfl
    · exact h4 v h
    · exact (nextSeed_spec h1).2

/-! ## The order of the multiplier -/

theorem pow_full : (16807 : ZMod 2147483647) ^ 2147483646 = 1 := by reduce_mod_char

theorem prime_dvd_cases {q : Nat} (hq : q.Prime) (hd : q ∣ 2147483646) : q = 2 ∨ q = 3 ∨ q = 7 ∨ q = 11 ∨ q = 31 ∨ q = 151 ∨ q = 331 := by
  have e : (2147483646 : Nat) = 2 * (3 * (3 * (7 * (11 * (31 * (151 * 331)))))) := by norm_num
  rw [e] at hd
  have h2 := Nat.prime_dvd_prime_iff_eq hq (show Nat.Prime 2 by norm_num)
  have h3 := Nat.prime_dvd_prime_iff_eq hq (show Nat.Prime 3 by norm_num)
  have h7 := Nat.prime_dvd_prime_iff_eq hq (show Nat.Prime 7 by norm_num)
  have h11 := Nat.prime_dvd_prime_iff_eq hq (show Nat.Prime 11 by norm_num)
  have h31 := Nat.prime_dvd_prime_iff_eq hq (show Nat.Prime 31 by norm_num)
  have h151 := Nat.prime_dvd_prime_iff_eq hq (show Nat.Prime 151 by norm_num)
  have h331 := Nat.prime_dvd_prime_iff_eq hq (show Nat.Prime 331 by norm_num)
  simp only [hq.dvd_mul, h2, h3, h7, h11, h31, h151, h331] at hd
  omega

theorem pow_div_ne_one {q : Nat} (hq : q.Prime) (hd : q ∣ 2147483646) : (16807 : ZMod 2147483647) ^ (2147483646 / q) ≠ 1 := by
  rcases prime_dvd_cases hq hd with rfl | rfl | rfl | rfl | rfl | rfl | rfl
  · show (16807 : ZMod 2147483647) ^ 1073741823 ≠ 1; reduce_mod_char; decide +kernel
  · show (16807 : ZMod 2147483647) ^ 715827882 ≠ 1; reduce_mod_char; decide +kernel
  · show (16807 : ZMod 2147483647) ^ 306783378 ≠ 1; reduce_mod_char; decide +kernel
  · show (16807 : ZMod 2147483647) ^ 195225786 ≠ 1; reduce_mod_char; decide +kernel
  · show (16807 : ZMod 2147483647) ^ 69273666 ≠ 1; reduce_mod_char; decide +kernel
  · show (16807 : ZMod 2147483647) ^ 14221746 ≠ 1; reduce_mod_char; decide +kernel
  · show (16807 : ZMod 2147483647) ^ 6487866 ≠ 1; reduce_mod_char; decide +kernel

theorem prime_M31 : Nat.Prime 2147483647 := lucas_primality 2147483647 16807 pow_full (fun _ hq hd => pow_div_ne_one hq hd)

theorem order_16807 : orderOf (16807 : ZMod 2147483647) = 2147483646 :=
  orderOf_eq_of_pow_and_pow_div_prime (by norm_num) pow_full (fun _ hq hd => pow_div_ne_one hq hd)

end Spot
