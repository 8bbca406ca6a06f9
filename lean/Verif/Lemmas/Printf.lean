import Verif.Model.Printf
import Verif.Lemmas.Rounded
import Verif.Lemmas.Dbl
import Mathlib.Tactic.IntervalCases

namespace Spot

theorem isDig_digChar {d : ℕ} (h : d < 10) : isDig (digChar d) = true ∧ digVal (digChar d) = d := by
  interval_cases d <;> decide

theorem digitsVal_append (a b : Str) : digitsVal (a ++ b) = digitsVal a * 10 ^ b.length + digitsVal b := by
  have key : ∀ (l : Str) (x : ℕ), l.foldl (fun a c => 10 * a + digVal c) x = x * 10 ^ l.length + digitsVal l := by
    intro l
    induction l with
    | nil => intro x; simp [digitsVal]
    | cons c l ih =>
      intro x
      simp only [digitsVal, List.foldl_cons, List.length_cons]
      rw [ih, ih (10 * 0 + digVal c)]; ring
  unfold digitsVal
  rw [List.foldl_append, key]; rfl

theorem digitsVal_zeros (k : ℕ) : digitsVal (List.replicate k '0') = 0 := by
  induction k with
  | zero => rfl
  | succ k ih =>
    rw [List.replicate_succ, show ('0' :: List.replicate k '0') = ['0'] ++ List.replicate k '0' from rfl, digitsVal_append, ih]
    simp [digitsVal, digVal]

theorem digitsN_spec (k n : ℕ) : digitsVal (digitsN k n) = n % 10 ^ k ∧ (digitsN k n).length = k ∧ ∀ c ∈ digitsN k n, isDig c = true := by
  induction k generalizing n with
  | zero => simp [digitsN, digitsVal, Nat.mod_one]
  | succ k ih =>
    obtain ⟨h1, h2, h3⟩ := ih (n / 10)
    have hd := isDig_digChar (Nat.mod_lt n (by norm_num : 10 > 0))
    refine ⟨?_, by simp [digitsN, h2], ?_⟩
    · rw [digitsN, digitsVal_append, h1]
      have : digitsVal [digChar (n % 10)] = n % 10 := by simp [digitsVal, hd.2]
      rw [this, List.length_singleton, pow_one, pow_succ, Nat.mul_comm (10 ^ k) 10, Nat.mod_mul]
      omega
    · intro c hc
      rw [digitsN, List.mem_append, List.mem_singleton] at hc
      rcases hc with h | rfl
      · exact h3 c h
      · exact hd.1

theorem strip_spec (s : Str) : ∃ k, s = stripZeros s ++ List.replicate k '0' := by
  refine ⟨(s.reverse.takeWhile (· = '0')).length, ?_⟩
  have h1 : s.reverse.takeWhile (· = '0') = List.replicate (s.reverse.takeWhile (· = '0')).length '0' := by
    apply List.eq_replicate_of_mem
    intro c hc
    have h9 : ∀ (l : Str), ∀ c ∈ l.takeWhile (· = '0'), c = '0' := by
      intro l
      induction l with
      | nil => simp
      | cons a l ih =>
        intro c hc
        rw [List.takeWhile_cons] at hc
        split at hc
        · rename_i ha
          rcases List.mem_cons.1 hc with rfl | h
          · simpa using ha
          · exact ih c h
        · simp at hc
    exact h9 _ c hc
  have h2 : (s.reverse.takeWhile (· = '0')).reverse = List.replicate (s.reverse.takeWhile (· = '0')).length '0' := by
    conv_lhs => rw [h1]
    simp
  rw [stripZeros, ← h2, ← List.reverse_append, List.takeWhile_append_dropWhile, List.reverse_reverse]

theorem takeWhile_digits {l : Str} (h : ∀ c ∈ l, isDig c = true) {t : Str} (ht : t.takeWhile isDig = []) :
    (l ++ t).takeWhile isDig = l ∧ (l ++ t).dropWhile isDig = t := by
  induction l with
  | nil =>
    refine ⟨ht, ?_⟩
    have := List.takeWhile_append_dropWhile (p := isDig) (l := t)
    rw [ht] at this; simpa using this
  | cons c l ih =>
    have hc := h c (by simp)
    have := ih (fun c hc => h c (by simp [hc]))
    simp [hc, this.1, this.2]

/-- No digit, point or exponent letter at the beginning. -/
def Stops (t : Str) : Prop := ∀ c u, t = c :: u → isDig c = false ∧ c ≠ '.'

theorem Stops.takeWhile {t : Str} (h : Stops t) : t.takeWhile isDig = [] := by
  cases t with
  | nil => rfl
  | cons c u => simp [(h c u rfl).1]

theorem readFrac_fracText {f t : Str} (hf : ∀ c ∈ f, isDig c = true) (ht : Stops t) :
    ∃ k, f = (readFrac (fracText f ++ t)).1 ++ List.replicate k '0' ∧ (readFrac (fracText f ++ t)).2 = t ∧
      (fracText f ++ t).takeWhile isDig = [] := by
  obtain ⟨k, hk⟩ := strip_spec f
  refine ⟨k, ?_⟩
  unfold fracText
  by_cases h : stripZeros f = []
  · simp only [h, if_true, List.nil_append]
    have : readFrac t = ([], t) := by
      unfold readFrac
      split
      · rename_i u
        exact absurd rfl (ht _ _ rfl).2
      · rfl
    rw [this]
    rw [h] at hk
    exact ⟨hk, rfl, ht.takeWhile⟩
  · simp only [h, if_false]
    have hs : ∀ c ∈ stripZeros f, isDig c = true := fun c hc => hf c (by rw [hk]; simp [hc])
    have := takeWhile_digits hs ht.takeWhile
    simp only [List.cons_append, readFrac, this.1, this.2]
    exact ⟨hk, trivial, by simp [isDig]⟩

theorem readExp_expText (x : ℤ) {t : Str} (ht : Stops t) : readExp (expText x ++ t) = (x, t) := by
  have hw := digitsN_spec (max 2 (Nat.log 10 x.natAbs + 1)) x.natAbs
  have hlt : x.natAbs < 10 ^ max 2 (Nat.log 10 x.natAbs + 1) := by
    refine lt_of_lt_of_le (Nat.lt_pow_succ_log_self (by norm_num) _) (Nat.pow_le_pow_right (by norm_num) (le_max_right _ _))
  set w := max 2 (Nat.log 10 x.natAbs + 1)
  have hne : (digitsN w x.natAbs).isEmpty = false := by
    have : 0 < (digitsN w x.natAbs).length := by rw [hw.2.1]; omega
    cases hd : digitsN w x.natAbs with
    | nil => simp [hd] at this
    | cons => rfl
  have hv : digitsVal (digitsN w x.natAbs) = x.natAbs := by rw [hw.1, Nat.mod_eq_of_lt hlt]
  have htw := takeWhile_digits hw.2.2 ht.takeWhile
  have hsg : readSign ((if x < 0 then '-' else '+') :: (digitsN w x.natAbs ++ t)) = (decide (x < 0), digitsN w x.natAbs ++ t) := by
    by_cases hx : x < 0 <;> simp [hx, readSign]
  have he : readExpDigits ((if x < 0 then '-' else '+') :: (digitsN w x.natAbs ++ t)) = some (x, t) := by
    simp only [readExpDigits, hsg, htw.1, htw.2, hne, Bool.false_eq_true, if_false, hv, Option.some.injEq, Prod.mk.injEq, and_true]
    by_cases hx : x < 0
    · simp only [hx, decide_true, if_true]; omega
    · simp only [hx, decide_false, Bool.false_eq_true, if_false]; omega
  have e : expText x ++ t = 'e' :: (if x < 0 then '-' else '+') :: (digitsN w x.natAbs ++ t) := rfl
  rw [e, readExp]
  simp only [true_or, if_true, he, Option.getD_some]

theorem readExp_tab (t : Str) : readExp ('\t' :: t) = (0, '\t' :: t) := by simp [readExp]

theorem stops_tab (t : Str) : Stops ('\t' :: t) := by
  intro c u h; simp only [List.cons.injEq] at h; rw [← h.1]; decide

theorem stops_exp (x : ℤ) (t : Str) : Stops (expText x ++ t) := by
  intro c u h; simp only [expText, List.cons_append, List.cons.injEq] at h; rw [← h.1]; decide

/-- Reading digits, fraction and exponent. -/
theorem strtod_parts {ip f : Str} {e : ℤ} {s t : Str} (hip : ∀ c ∈ ip, isDig c = true) (hne : ip ≠ []) (hf : ∀ c ∈ f, isDig c = true)
    (hs : Stops s) (he : readExp s = (e, t)) (neg : Bool) :
    strtod ((if neg then ['-'] else []) ++ (ip ++ (fracText f ++ s))) =
      some (Dbl.ofQ ((if neg then -1 else 1) * ((digitsVal (ip ++ f) : ℚ) * (10 : ℚ) ^ (e - f.length))), t) := by
  obtain ⟨k, h1, h2, h3⟩ := readFrac_fracText hf hs
  have htw := takeWhile_digits hip h3
  have hsg : readSign ((if neg then ['-'] else []) ++ (ip ++ (fracText f ++ s))) = (neg, ip ++ (fracText f ++ s)) := by
    cases neg with
    | true => rfl
    | false =>
      cases hi : ip with
      | nil => exact absurd hi hne
      | cons c ip' =>
        have hc : isDig c = true := hip c (by simp [hi])
        simp only [Bool.false_eq_true, if_false, List.nil_append, List.cons_append]
        unfold readSign
        split
        · rename_i h; simp only [List.cons.injEq] at h; rw [h.1] at hc; exact absurd hc (by decide)
        · rename_i h; simp only [List.cons.injEq] at h; rw [h.1] at hc; exact absurd hc (by decide)
        · rfl
  simp only [strtod, hsg, htw.1, htw.2, h2, he]
  have : ip.isEmpty = false := by
    cases hi : ip with
    | nil => exact absurd hi hne
    | cons => rfl
  simp only [this, Bool.false_and, Bool.false_eq_true, if_false]
  congr 2
  set fp := (readFrac (fracText f ++ s)).1
  have hv : (digitsVal (ip ++ f) : ℚ) * (10:ℚ) ^ (e - f.length) = (digitsVal (ip ++ fp) : ℚ) * (10:ℚ) ^ (e - fp.length) := by
    rw [h1, ← List.append_assoc, digitsVal_append, digitsVal_zeros]
    simp only [List.length_append, List.length_replicate, add_zero]
    push_cast
    rw [mul_assoc, ← zpow_natCast, ← zpow_add₀ (by norm_num)]
    congr 2; omega
  rw [hv]
  cases neg <;> simp

theorem mantissa8_spec {q : ℚ} (hq : 0 < q) :
    dec8 q = ((mantissa8 q).1 : ℚ) * (10:ℚ) ^ ((mantissa8 q).2 - 7) ∧ (mantissa8 q).1 < 10 ^ 8 ∧ 10 ^ 7 ≤ (mantissa8 q).1 := by
  have hb : 1 < 10 := by norm_num
  have h1 : ((10:ℕ):ℚ) ^ (Int.log 10 q) ≤ q := Int.zpow_log_le_self hb hq
  have h2 : q < ((10:ℕ):ℚ) ^ (Int.log 10 q + 1) := Int.lt_zpow_succ_log_self hb q
  have hd : dec8 q = rhe (q / ((10:ℕ):ℚ) ^ (Int.log 10 q - 7)) * ((10:ℕ):ℚ) ^ (Int.log 10 q - 7) := by
    simp only [dec8, rnd, abs_of_pos hq, fexpDec8]
  simp only [mantissa8]
  push_cast at h1 h2 hd
  set e := Int.log 10 q
  have hp : (0:ℚ) < (10:ℚ) ^ (e - 7) := zpow_pos (by norm_num) _
  have l1 : ((10 ^ 7 : ℤ) : ℚ) ≤ q / (10:ℚ) ^ (e - 7) := by
    rw [le_div_iff₀ hp, Int.cast_pow, Int.cast_ofNat, ← zpow_natCast, ← zpow_add₀ (by norm_num)]
    have : ((7:ℕ):ℤ) + (e - 7) = e := by push_cast; ring
    rw [this]; exact h1
  have l2 : q / (10:ℚ) ^ (e - 7) ≤ ((10 ^ 8 : ℤ) : ℚ) := by
    rw [div_le_iff₀ hp, Int.cast_pow, Int.cast_ofNat, ← zpow_natCast, ← zpow_add₀ (by norm_num)]
    have : ((8:ℕ):ℤ) + (e - 7) = e + 1 := by push_cast; ring
    rw [this]; exact h2.le
  have m1 := rhe_mono l1
  have m2 := rhe_mono l2
  rw [rhe_int] at m1 m2
  set r := rhe (q / (10:ℚ) ^ (e - 7))
  have hr : (r.toNat : ℤ) = r := Int.toNat_of_nonneg (by omega)
  by_cases h : r.toNat = 10 ^ 8
  · rw [if_pos h]
    refine ⟨?_, by norm_num, by norm_num⟩
    have : r = 10 ^ 8 := by omega
    rw [hd, this, Int.cast_pow, Int.cast_ofNat, Nat.cast_pow, Nat.cast_ofNat, ← zpow_natCast, ← zpow_natCast, ← zpow_add₀ (by norm_num), ← zpow_add₀ (by norm_num)]
    congr 1; push_cast; ring
  · rw [if_neg h]
    refine ⟨?_, by omega, by omega⟩
    rw [hd]
    have : (r : ℚ) = ((r.toNat : ℕ) : ℚ) := by
      rw [← Int.cast_natCast, hr]
    rw [this]

theorem strtod_fmtPos {q : ℚ} (hq : 0 < q) (neg : Bool) (t : Str) :
    strtod ((if neg then ['-'] else []) ++ (fmtPos q ++ '\t' :: t)) =
      some (Dbl.ofQ ((if neg then -1 else 1) * dec8 q), '\t' :: t) := by
  obtain ⟨hv, hlt, hge⟩ := mantissa8_spec hq
  unfold fmtPos
  rcases hm : mantissa8 q with ⟨n, x⟩
  rw [hm] at hv hlt hge
  simp only at hv hlt hge ⊢
  obtain ⟨d1, d2, d3⟩ := digitsN_spec 8 n
  rw [Nat.mod_eq_of_lt hlt] at d1
  set ds := digitsN 8 n with hds
  by_cases hx : -4 ≤ x ∧ x < 8
  · rw [if_pos hx]
    by_cases hx0 : 0 ≤ x
    · rw [if_pos hx0]
      have := strtod_parts (ip := ds.take (x.toNat + 1)) (f := ds.drop (x.toNat + 1)) (e := 0) (s := '\t' :: t) (t := '\t' :: t)
        (fun c hc => d3 c (List.mem_of_mem_take hc)) (by
          intro h0
          have h9 : (ds.take (x.toNat + 1)).length = 0 := by rw [h0]; rfl
          rw [List.length_take] at h9; omega)
        (fun c hc => d3 c (List.mem_of_mem_drop hc)) (stops_tab t) (readExp_tab t) neg
      have hexp : (0 : ℤ) - ((ds.drop (x.toNat + 1)).length : ℤ) = x - 7 := by rw [List.length_drop, d2]; omega
      rw [List.append_assoc, this, List.take_append_drop, d1, hv, hexp]
    · rw [if_neg hx0]
      have := strtod_parts (ip := ['0']) (f := List.replicate (-x - 1).toNat '0' ++ ds) (e := 0) (s := '\t' :: t) (t := '\t' :: t)
        (by decide) (by simp)
        (fun c hc => by
          rw [List.mem_append, List.mem_replicate] at hc
          rcases hc with ⟨_, rfl⟩ | h
          · decide
          · exact d3 c h) (stops_tab t) (readExp_tab t) neg
      simp only [List.cons_append, List.nil_append] at this ⊢
      rw [this]
      have h0 : digitsVal ('0' :: (List.replicate (-x - 1).toNat '0' ++ ds)) = n := by
        rw [show ('0' :: (List.replicate (-x - 1).toNat '0' ++ ds)) = List.replicate ((-x - 1).toNat + 1) '0' ++ ds from by
          rw [List.replicate_succ]; rfl, digitsVal_append, digitsVal_zeros, d1]
        omega
      have hexp : (0 : ℤ) - ((List.replicate (-x - 1).toNat '0' ++ ds).length : ℤ) = x - 7 := by
        rw [List.length_append, List.length_replicate, d2]; push_cast; omega
      rw [h0, hv, hexp]
  · rw [if_neg hx]
    have := strtod_parts (ip := ds.take 1) (f := ds.drop 1) (e := x) (s := expText x ++ '\t' :: t) (t := '\t' :: t)
        (fun c hc => d3 c (List.mem_of_mem_take hc)) (by
          intro h0
          have h9 : (ds.take 1).length = 0 := by rw [h0]; rfl
          rw [List.length_take] at h9; omega)
        (fun c hc => d3 c (List.mem_of_mem_drop hc)) (stops_exp x _) (readExp_expText x (stops_tab t)) neg
    simp only [List.append_assoc] at this ⊢
    have hexp : x - ((ds.drop 1).length : ℤ) = x - 7 := by rw [List.length_drop, d2]; rfl
    rw [this, List.take_append_drop, d1, hv, hexp]

/-- Printing with 8 digits and reading back: the nearest double of the 8-digit decimal. -/
theorem strtod_fmt8 (q : ℚ) (t : Str) : strtod (fmt8 (.fin q) ++ '\t' :: t) = some (Dbl.ofQ (dec8 q), '\t' :: t) := by
  simp only [fmt8]
  rcases lt_trichotomy q 0 with h | rfl | h
  · rw [if_neg h.ne, if_pos h]
    have := strtod_fmtPos (q := -q) (by linarith) true t
    simp only [if_true, List.cons_append, List.nil_append, dec8_neg] at this ⊢
    rw [this]; congr 3; ring
  · rw [if_pos rfl]
    have := strtod_parts (ip := ['0']) (f := []) (e := 0) (s := '\t' :: t) (t := '\t' :: t) (by decide) (by simp) (by simp)
      (stops_tab t) (readExp_tab t) false
    have h0 : fracText [] = [] := by decide
    rw [h0] at this
    simp only [Bool.false_eq_true, if_false, List.nil_append, List.append_nil] at this
    change strtod (['0'] ++ '\t' :: t) = _
    rw [this]; simp [digitsVal, digVal]
  · rw [if_neg h.ne', if_neg (by linarith)]
    have := strtod_fmtPos h false t
    simp only [Bool.false_eq_true, if_false, List.nil_append, one_mul] at this
    exact this

end Spot
