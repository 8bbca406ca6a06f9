import Verif.Model.ParTyped
import Verif.Props.Registry
import Verif.Props.ParTools
import Verif.Props.TestObjectives

/-! # C101: parameters of type int and bool -/

namespace Spot
open ObjInfo

/-- **C101.** The `int` of a request: the value without its fraction, if it fits. -/
theorem C101_int (v : Dbl) (z : Int) : toInt v = .ok z ↔ fitsInt z ∧ ∃ q : ℚ, v = .fin q ∧ (0 ≤ z ∧ (z : ℚ) ≤ q ∧ q < z + 1 ∨ z ≤ 0 ∧ q ≤ z ∧ (z : ℚ) - 1 < q) := by
  cases v with
  | nan => simp [toInt]
  | ninf => simp [toInt]
  | pinf => simp [toInt]
  | fin q =>
    have key : (if 0 ≤ q then ⌊q⌋ else ⌈q⌉) = z ↔ (0 ≤ z ∧ (z : ℚ) ≤ q ∧ q < z + 1 ∨ z ≤ 0 ∧ q ≤ z ∧ (z : ℚ) - 1 < q) := by
      by_cases hq : 0 ≤ q
      · rw [if_pos hq]
        constructor
        · rintro rfl
          exact .inl ⟨Int.floor_nonneg.2 hq, Int.floor_le q, Int.lt_floor_add_one q⟩
        · rintro (⟨-, h1, h2⟩ | ⟨h0, h1, h2⟩)
          · exact Int.floor_eq_iff.2 ⟨h1, h2⟩
          · have : (z : ℚ) ≤ 0 := by exact_mod_cast h0
            have hz : (z : ℚ) = 0 := le_antisymm this (hq.trans h1)
            have hq0 : q = 0 := le_antisymm (by rw [← hz]; exact h1) hq
            have : z = 0 := by exact_mod_cast hz
            rw [hq0, this]; simp
      · rw [if_neg hq]
        rw [not_le] at hq
        constructor
        · rintro rfl
          refine .inr ⟨Int.ceil_nonpos.2 hq.le, Int.le_ceil q, ?_⟩
          have := Int.ceil_lt_add_one q
          linarith
        · rintro (⟨h0, h1, -⟩ | ⟨-, h1, h2⟩)
          · have : (0 : ℚ) ≤ z := by exact_mod_cast h0
            linarith
          · exact Int.ceil_eq_iff.2 ⟨h2, h1⟩
    simp only [toInt]
    constructor
    · intro h
      by_cases hf : fitsInt (if 0 ≤ q then ⌊q⌋ else ⌈q⌉)
      · rw [if_pos hf] at h
        have h := Res.ok.inj h
        exact ⟨h ▸ hf, q, rfl, key.1 h⟩
      · rw [if_neg hf] at h
        cases h
    · rintro ⟨hf, q', hq', h⟩
      cases hq'
      rw [key.2 h, if_pos hf]

/-- **C101.** The conversion is undefined exactly for what is not a number, infinite, or has an integer part outside of the range of `int`. -/
theorem C101_undefined (v : Dbl) : toInt v = .ub ↔ ∀ q : ℚ, v = .fin q → q ≤ -2147483649 ∨ 2147483648 ≤ q := by
  cases v with
  | nan => simp [toInt]
  | ninf => simp [toInt]
  | pinf => simp [toInt]
  | fin q =>
    have key : fitsInt (if 0 ≤ q then ⌊q⌋ else ⌈q⌉) ↔ ¬ (q ≤ -2147483649 ∨ 2147483648 ≤ q) := by
      unfold fitsInt
      by_cases hq : 0 ≤ q
      · rw [if_pos hq, not_or, not_le, not_le]
        have h0 := Int.floor_nonneg.2 hq
        constructor
        · rintro ⟨-, h⟩
          refine ⟨by linarith, ?_⟩
          have := Int.lt_floor_add_one q
          have h : ((⌊q⌋ : Int) : ℚ) ≤ 2147483647 := by exact_mod_cast h
          linarith
        · rintro ⟨-, h⟩
          have : ⌊q⌋ < 2147483648 := Int.floor_lt.2 (by exact_mod_cast h)
          omega
      · rw [if_neg hq, not_or, not_le, not_le]
        rw [not_le] at hq
        have h0 : ⌈q⌉ ≤ 0 := Int.ceil_nonpos.2 hq.le
        constructor
        · rintro ⟨h, -⟩
          refine ⟨?_, by linarith⟩
          have := Int.ceil_lt_add_one q
          have h : (-2147483648 : ℚ) ≤ ((⌈q⌉ : Int) : ℚ) := by exact_mod_cast h
          linarith
        · rintro ⟨h, -⟩
          have : (-2147483649 : Int) < ⌈q⌉ := Int.lt_ceil.2 (by exact_mod_cast h)
          omega
    simp only [toInt]
    constructor
    · intro h q' hq'
      cases hq'
      by_contra hc
      rw [if_pos (key.2 hc)] at h
      cases h
    · intro h
      rw [if_neg]
      rw [key, not_not]
      exact h q rfl

/-- **C101.** A larger value gives no smaller `int`. -/
theorem C101_monotone (v w : Dbl) (hvw : Dbl.le v w = true) (a b : Int) (ha : toInt v = .ok a) (hb : toInt w = .ok b) : a ≤ b := by
  obtain ⟨-, p, rfl, hp⟩ := (C101_int v a).1 ha
  obtain ⟨-, q, rfl, hq⟩ := (C101_int w b).1 hb
  have hpq : p ≤ q := by simpa [Dbl.le] using hvw
  by_contra hc
  have hc : (b : ℚ) + 1 ≤ a := by exact_mod_cast (by omega : b + 1 ≤ a)
  rcases hp with ⟨h0, h1, h2⟩ | ⟨h0, h1, h2⟩ <;> rcases hq with ⟨g0, g1, g2⟩ | ⟨g0, g1, g2⟩
  · linarith
  · have : (0 : ℚ) ≤ a := by exact_mod_cast h0
    have e : (b : ℚ) ≤ 0 := by exact_mod_cast g0
    linarith
  · have : (a : ℚ) ≤ 0 := by exact_mod_cast h0
    have e : (0 : ℚ) ≤ b := by exact_mod_cast g0
    linarith
  · have : (a : ℚ) ≤ 0 := by exact_mod_cast h0
    linarith

theorem toInt_ofInt {z : Int} (h : fitsInt z) : toInt (ofInt z) = .ok z := by
  rw [C101_int]
  refine ⟨h, z, rfl, ?_⟩
  rcases le_total 0 z with h0 | h0
  · exact .inl ⟨h0, le_refl _, by linarith⟩
  · exact .inr ⟨h0, le_refl _, by linarith⟩

/-- Between integer bounds that fit, there is always an `int`, and it is between the bounds. -/
theorem toInt_between {l u : Int} (hl : fitsInt l) (hu : fitsInt u) {v : Dbl} (h1 : Dbl.le (ofInt l) v = true) (h2 : Dbl.le v (ofInt u) = true) :
    ∃ z, toInt v = .ok z ∧ l ≤ z ∧ z ≤ u := by
  cases v with
  | nan => simp [Dbl.le, ofInt] at h1
  | ninf => simp [Dbl.le, ofInt] at h1
  | pinf => simp [Dbl.le, ofInt] at h2
  | fin q =>
    have g1 : (l : ℚ) ≤ q := by simpa [Dbl.le, ofInt] using h1
    have g2 : q ≤ (u : ℚ) := by simpa [Dbl.le, ofInt] using h2
    unfold fitsInt at hl hu
    have k1 : (-2147483648 : ℚ) ≤ l := by exact_mod_cast hl.1
    have k2 : (u : ℚ) ≤ 2147483647 := by exact_mod_cast hu.2
    cases hz : toInt (.fin q) with
    | ok z =>
      exact ⟨z, rfl, C101_monotone _ _ h1 _ _ (toInt_ofInt hl) hz, C101_monotone _ _ h2 _ _ hz (toInt_ofInt hu)⟩
    | err =>
      simp only [toInt] at hz
      by_cases hf : fitsInt (if 0 ≤ q then ⌊q⌋ else ⌈q⌉)
      · rw [if_pos hf] at hz; cases hz
      · rw [if_neg hf] at hz; cases hz
    | ub =>
      rcases (C101_undefined _).1 hz q rfl with h | h <;> linarith

/-- **C101.** The type changes nothing about what is registered: the same calls leave the same parameters. -/
theorem C101_registers_alike {σ T : Type} (conv : Dbl → Res T) (back : T → Dbl) (B : Backend σ) (env : Env) (io : IOState) (s : σ) (name : Str) (child query : Option PNode)
    (dflt mean std lower upper : T) :
    (tryGetParAs conv B env io s name child query dflt).1 = (tryGetPar B env io s name child query (back dflt)).1 ∧
    (tryGetParNumAs conv back B env io s name child query mean std lower upper).1 = (tryGetParNum B env io s name child query (back mean) (back std) (back lower) (back upper)).1 := by
  constructor
  · unfold tryGetParAs tryGetPar
    cases child <;> cases query <;> rfl
  · unfold tryGetParNumAs tryGetParNum
    cases child <;> cases query <;> rfl

/-- **C101.** What is returned is the conversion of what a request for a `double` returns, and the default as it is. -/
theorem C101_converts {σ T : Type} (conv : Dbl → Res T) (back : T → Dbl) (B : Backend σ) (env : Env) (io : IOState) (s s' : σ) (name : Str) (child query : Option PNode)
    (dflt mean std lower upper : T) (v : Dbl) :
    (tryGetPar B env io s name child query (back dflt) = (s', .ok v) → (child ≠ none ∨ query ≠ none) → tryGetParAs conv B env io s name child query dflt = (s', conv v)) ∧
    (tryGetParNum B env io s name child query (back mean) (back std) (back lower) (back upper) = (s', .ok v) →
      tryGetParNumAs conv back B env io s name child query mean std lower upper = (s', conv v)) ∧
    tryGetParAs conv B env io s name none none dflt = (s, .ok dflt) := by
  refine ⟨?_, ?_, rfl⟩
  · unfold tryGetParAs tryGetPar
    intro h hn
    cases child with
    | some p => dsimp only at h ⊢; unfold converted; rw [h]; rfl
    | none => cases query with
      | some p => dsimp only at h ⊢; unfold converted; rw [h]; rfl
      | none => simp at hn
  · unfold tryGetParNumAs tryGetParNum
    intro h
    cases child with
    | some p => dsimp only at h ⊢; unfold converted; rw [h]; rfl
    | none => cases query with
      | some p => dsimp only at h ⊢; unfold converted; rw [h]; rfl
      | none => dsimp only at h ⊢; unfold converted; rw [h]; rfl

theorem dec8_int (n : Int) (h : |n| < 10 ^ 8) : dec8 (n : ℚ) = n := by
  unfold dec8
  by_cases h0 : n = 0
  · subst h0; simp [rnd_zero]
  have hpos : (0 : ℚ) < |(n : ℚ)| := by simpa using h0
  have hlog : Int.log 10 |(n : ℚ)| < 8 := by
    rw [← Int.lt_zpow_iff_log_lt (by norm_num) hpos]
    have : |(n : ℚ)| < 10 ^ 8 := by exact_mod_cast h
    exact_mod_cast this
  have hf : fexpDec8 (Int.log 10 |(n : ℚ)|) ≤ 0 := by
    unfold fexpDec8
    omega
  obtain ⟨k, hk⟩ := Int.eq_ofNat_of_zero_le (show 0 ≤ -fexpDec8 (Int.log 10 |(n : ℚ)|) by omega)
  refine rnd_of_grid one_lt_ten validExp_dec8 (n := n * 10 ^ k) ?_
  have : fexpDec8 (Int.log 10 |(n : ℚ)|) = -(k : Int) := by omega
  rw [this]
  push_cast
  rw [zpow_neg, zpow_natCast]
  field_simp

theorem rounded_int (n : Int) (h : |n| < 10 ^ 8) : rounded (ofInt n) = ofInt n := by
  show Dbl.fin (bin64 (dec8 (n : ℚ))) = .fin n
  rw [dec8_int n h, bin64_int n (lt_trans h (by norm_num))]

/-- **C101.** An `int` parameter that is requested from an objective_info with mean, std and bounds of up to 8 digits: the objective_info returns the mean, and every search point
made for it (or for an extended objective_info) from values within the bounds returns an `int` within the bounds; the point with the initial values returns the mean. -/
theorem C101_in_bounds (env : Env) (io : IOState) (i j : ObjInfo) (hi : NamesUnique i) (name : Str) (hnew : ¬ Known i (io.prefixText ++ name)) (mean std l u z0 : Int)
    (hl : |l| < 10 ^ 8) (hu : |u| < 10 ^ 8) (h : tryGetParNumAs toInt ofInt oiBackend env io i name none none mean std l u = (j, .ok z0))
    (j' : ObjInfo) (hj : Extends j j') (hj' : NamesUnique j') :
    z0 = mean ∧
    (∀ v : List Dbl, v.length = j'.dim → (∀ (k : Nat) p x, j'.pars[k]? = some p → v[k]? = some x → Dbl.le p.min x = true ∧ Dbl.le x p.max = true) →
      ∃ s z, SearchPoint.ofValues j' v = .ok s ∧ tryGetParNumAs toInt ofInt spBackend env io s name none none mean std l u = (s, .ok z) ∧ l ≤ z ∧ z ≤ u) ∧
    tryGetParNumAs toInt ofInt spBackend env io (SearchPoint.ofInfo j') name none none mean std l u = (SearchPoint.ofInfo j', .ok mean) := by
  unfold tryGetParNumAs converted at h
  dsimp only at h
  unfold getNum at h
  dsimp only [oiBackend] at h
  rw [(tryGet_none _ _).2 hnew] at h
  dsimp only at h
  rw [C01_constructor] at h
  by_cases hv : ValidParam ⟨io.prefixText ++ name, ofInt mean, ofInt std, ofInt l, ofInt u⟩
  swap
  · rw [if_neg hv] at h; cases (congrArg Prod.snd h)
  rw [if_pos hv] at h
  dsimp only at h
  have fl : fitsInt l := by rw [abs_lt] at hl; unfold fitsInt; omega
  have fu : fitsInt u := by rw [abs_lt] at hu; unfold fitsInt; omega
  have hlm : l ≤ mean := by
    have := hv.2.2.2.1
    simpa [Dbl.le, ofInt] using this
  have hmu : mean ≤ u := by
    have := hv.2.2.2.2
    simpa [Dbl.le, ofInt] using this
  have fm : fitsInt mean := by unfold fitsInt at *; omega
  have hm : |mean| < 10 ^ 8 := by rw [abs_lt] at *; omega
  -- the parameter is free or locked
  have hcase : z0 = mean ∧ ((∃ (k : Nat) (p : ParInfo), j.pars[k]? = some p ∧ p = ⟨io.prefixText ++ name, ofInt mean, ofInt std, ofInt l, ofInt u⟩) ∨
      (j.tryGetLocked (io.prefixText ++ name) = some (ofInt mean))) := by
    rcases add_cases i ⟨io.prefixText ++ name, ofInt mean, ofInt std, ofInt l, ofInt u⟩ with ⟨e, h1⟩ | ⟨e, h1⟩ | ⟨e, h1⟩
    · rw [e] at h; cases (congrArg Prod.snd h)
    · rw [e] at h
      have h2 : (toInt (ofInt mean) : Res Int) = .ok z0 := congrArg Prod.snd h
      rw [toInt_ofInt fm] at h2
      have h3 := congrArg Prod.fst h
      dsimp only at h3
      refine ⟨(Res.ok.inj h2).symm, .inr ?_⟩
      rw [← h3]
      simp [tryGetLocked, lookup_mapSet]
    · rw [e] at h
      have h2 : (toInt (ofInt mean) : Res Int) = .ok z0 := congrArg Prod.snd h
      rw [toInt_ofInt fm] at h2
      have h3 := congrArg Prod.fst h
      dsimp only at h3
      refine ⟨(Res.ok.inj h2).symm, .inl ⟨i.pars.length, _, ?_, rfl⟩⟩
      rw [← h3]
      simp
  refine ⟨hcase.1, ?_⟩
  rcases hcase.2 with ⟨k, p, hk, rfl⟩ | hlock
  · have hk' : j'.pars[k]? = some ⟨io.prefixText ++ name, ofInt mean, ofInt std, ofInt l, ofInt u⟩ := by
      obtain ⟨t, ht⟩ := hj.free
      rw [← ht, List.getElem?_append_left (List.getElem?_eq_some_iff.1 hk).1]
      exact hk
    constructor
    · intro v hvl hb
      have hkl : k < v.length := by rw [hvl]; exact (List.getElem?_eq_some_iff.1 hk').1
      obtain ⟨b1, b2⟩ := hb k _ v[k] hk' (List.getElem?_eq_getElem hkl)
      dsimp only at b1 b2
      have hq : ∃ q, v[k] = .fin q := by
        cases hx : v[k] with
        | nan => rw [hx] at b1; simp [Dbl.le, ofInt] at b1
        | ninf => rw [hx] at b1; simp [Dbl.le, ofInt] at b1
        | pinf => rw [hx] at b2; simp [Dbl.le, ofInt] at b2
        | fin q => exact ⟨q, rfl⟩
      obtain ⟨q, hq⟩ := hq
      rw [hq] at b1 b2
      have r1 := C15_monotone (l : ℚ) q (by simpa [Dbl.le, ofInt] using b1)
      have r2 := C15_monotone q (u : ℚ) (by simpa [Dbl.le, ofInt] using b2)
      rw [show rounded (.fin (l : ℚ)) = ofInt l from rounded_int l hl] at r1
      rw [show rounded (.fin (u : ℚ)) = ofInt u from rounded_int u hu] at r2
      obtain ⟨z, hz, z1, z2⟩ := toInt_between fl fu r1 r2
      refine ⟨⟨j', v.map rounded⟩, z, by unfold SearchPoint.ofValues; rw [if_pos hvl.symm], ?_, z1, z2⟩
      have := (C09_free_value io ⟨j', v.map rounded⟩ hj' k _ (rounded (.fin q)) hk' (by rw [List.getElem?_map, List.getElem?_eq_getElem hkl, hq]; rfl) name rfl (ofInt mean) (ofInt std) (ofInt l) (ofInt u)).2
      unfold tryGetParNumAs converted
      dsimp only
      rw [this]
      dsimp only
      rw [Res.ok_bind, hz]
    · have := (C09_free_value io (SearchPoint.ofInfo j') hj' k _ (ofInt mean) hk' (by
        show (((j'.pars.map ParInfo.mean).map rounded)[k]?) = _
        rw [List.getElem?_map, List.getElem?_map, hk']
        show some (rounded (ofInt mean)) = _
        rw [rounded_int mean hm]) name rfl (ofInt mean) (ofInt std) (ofInt l) (ofInt u)).2
      unfold tryGetParNumAs converted
      dsimp only
      rw [this]
      dsimp only
      rw [Res.ok_bind, toInt_ofInt fm]
  · have hlock' := hj.locked _ _ hlock
    have hnf : ∀ p ∈ j'.pars, p.name ≠ io.prefixText ++ name := by
      intro p hp hn
      refine hj'.disjoint p hp ?_
      rw [hn]
      unfold tryGetLocked at hlock'
      exact List.mem_map_of_mem (f := Prod.fst) (mem_of_lookup hlock')
    have key : ∀ s : SearchPoint, s.info = j' → tryGetParNumAs toInt ofInt spBackend env io s name none none mean std l u = (s, .ok mean) := by
      intro s hs
      have := (C09_locked_value io s (io.prefixText ++ name) (ofInt mean) (by rw [hs]; exact hnf) (by rw [hs]; exact hlock') name rfl (ofInt mean) (ofInt std) (ofInt l) (ofInt u)).2
      unfold tryGetParNumAs converted
      dsimp only
      rw [this]
      dsimp only
      rw [Res.ok_bind, toInt_ofInt fm]
    refine ⟨fun v hvl _ => ⟨⟨j', v.map rounded⟩, mean, by unfold SearchPoint.ofValues; rw [if_pos hvl.symm], key _ rfl, hlm, hmu⟩, key _ rfl⟩

/-- **C101 (finding).** With non-negative bounds the upper bound is returned for the value of the upper bound only, while each smaller integer is returned for a range of values of length 1. -/
theorem C101_upper_rare (u : Int) (hu : 0 < u) (hf : fitsInt u) (q : ℚ) (h : q ≤ u) : toInt (.fin q) = .ok u ↔ q = u := by
  rw [C101_int]
  have hu' : (0 : ℚ) < u := by exact_mod_cast hu
  constructor
  · rintro ⟨-, q', hq', g⟩
    cases hq'
    rcases g with ⟨-, g, -⟩ | ⟨g, -, -⟩
    · exact le_antisymm h g
    · omega
  · rintro rfl
    exact ⟨hf, _, rfl, .inl ⟨hu.le, le_refl _, by linarith⟩⟩

/-- **C101 (finding).** Around 0 the range is twice as long: all values above -1 and below 1 are returned as 0. -/
theorem C101_zero_wide (q : ℚ) : toInt (.fin q) = .ok 0 ↔ -1 < q ∧ q < 1 := by
  rw [C101_int]
  constructor
  · rintro ⟨-, q', hq', g⟩
    cases hq'
    rcases g with ⟨-, g1, g2⟩ | ⟨-, g1, g2⟩ <;> constructor <;> push_cast at * <;> linarith
  · rintro ⟨h1, h2⟩
    refine ⟨by unfold fitsInt; omega, q, rfl, ?_⟩
    rcases le_total 0 q with h | h
    · exact .inl ⟨le_refl _, by simpa using h, by simpa using h2⟩
    · exact .inr ⟨le_refl _, by simpa using h, by push_cast; linarith⟩

/-- **C101 (finding).** A parameter without bounds in the node can be requested as `int`, and there are search points within its (default) bounds for which that has undefined behaviour. -/
theorem C101_no_bounds : ∃ (env : Env) (pn : PNode) (j : ObjInfo) (s : SearchPoint), tryGetParAs toInt oiBackend env .init {} "n".toList (some pn) none 0 = (j, .ok 5) ∧
    SearchPoint.ofValues j [.fin 3000000000] = .ok s ∧ j.isFeasible [.fin 3000000000] = .ok true ∧
    tryGetParAs toInt spBackend env .init s "n".toList (some pn) none 0 = (s, .ub) := by
  refine ⟨env0, { str := "5~1".toList }, (tryGetParAs toInt oiBackend env0 .init {} "n".toList (some { str := "5~1".toList }) none 0).1,
    ⟨(tryGetParAs toInt oiBackend env0 .init {} "n".toList (some { str := "5~1".toList }) none 0).1, [.fin 3000000000]⟩, ?_, ?_, ?_, ?_⟩ <;> decide +kernel

/-- **C101 (finding).** Values have 8 digits on a search point: an `int` parameter with a mean of more digits has another value on the initial search point. -/
theorem C101_nine_digits : ∃ (j : ObjInfo), tryGetParNumAs toInt ofInt oiBackend env0 .init {} "n".toList none none 123456789 1 0 1000000000 = (j, .ok 123456789) ∧
    tryGetParNumAs toInt ofInt spBackend env0 .init (SearchPoint.ofInfo j) "n".toList none none 123456789 1 0 1000000000 = (SearchPoint.ofInfo j, .ok 123456790) := by
  refine ⟨(tryGetParNumAs toInt ofInt oiBackend env0 .init {} "n".toList none none 123456789 1 0 1000000000).1, ?_, ?_⟩ <;> decide +kernel

/-- **C101.** A `bool` is false exactly for the value 0; converting to `double` and back changes nothing. -/
theorem C101_bool (v : Dbl) (b : Bool) : (toBool v = .ok false ↔ v = .fin 0) ∧ (toBool v ≠ .ok false → toBool v = .ok true) ∧ toBool (ofBool b) = .ok b := by
  refine ⟨?_, ?_, by cases b <;> simp [ofBool, toBool]⟩
  · cases v <;> simp [toBool]
  · cases v <;> simp [toBool]

theorem tryArrayAs_id {σ T : Type} (conv : Dbl → Res T) (back : T → Dbl) (B : Backend σ) (env : Env) (io : IOState) (name : Str) (child query : Str → Option PNode)
    (ds : List T) (hcb : ∀ t ∈ ds, conv (back t) = .ok t) : ∀ (i : Nat) (s s' : σ) (vs : List Dbl), tryArrayLoop B env io name child query i (ds.map back) s = (s', .ok vs) →
    (∀ v ∈ vs, ∃ t, conv v = .ok t) →
    ∃ ts, tryArrayAsLoop conv B env io name child query i ds s = (s', .ok ts) ∧ ts.map Res.ok = vs.map conv := by
  induction ds with
  | nil =>
    intro i s s' vs h _
    simp only [List.map_nil, tryArrayLoop] at h
    cases h
    exact ⟨[], rfl, rfl⟩
  | cons d ds ih =>
    intro i s s' vs h hc
    simp only [List.map_cons, tryArrayLoop] at h
    rcases ha : tryGetPar B env io s (elementName name i) (child (elementName name i)) (query (elementName name i)) (back d) with ⟨s1, r⟩
    rw [ha] at h
    cases r with
    | err => cases (congrArg Prod.snd h)
    | ub => cases (congrArg Prod.snd h)
    | ok v =>
      dsimp only at h
      rcases hb : tryArrayLoop B env io name child query (i + 1) (ds.map back) s1 with ⟨s2, r⟩
      rw [hb] at h
      cases r with
      | err => cases (congrArg Prod.snd h)
      | ub => cases (congrArg Prod.snd h)
      | ok ws =>
        obtain ⟨rfl, h2⟩ := Prod.mk.inj h
        have h2 := Res.ok.inj h2
        subst h2
        obtain ⟨t, ht⟩ := hc v List.mem_cons_self
        obtain ⟨ts, h3, h4⟩ := ih (fun t ht => hcb t (List.mem_cons_of_mem _ ht)) (i + 1) s1 s2 ws hb fun w hw => hc w (List.mem_cons_of_mem _ hw)
        refine ⟨t :: ts, ?_, by simp [h4, ht]⟩
        have e : tryGetParAs conv B env io s (elementName name i) (child (elementName name i)) (query (elementName name i)) d = (s1, .ok t) := by
          cases hch : child (elementName name i) with
          | some p =>
            rw [hch] at ha
            rw [(C101_converts conv back B env io s s1 _ _ _ d d d d d v).1 ha (.inl (by simp)), ht]
          | none =>
            cases hq : query (elementName name i) with
            | some p =>
              rw [hch, hq] at ha
              rw [(C101_converts conv back B env io s s1 _ _ _ d d d d d v).1 ha (.inr (by simp)), ht]
            | none =>
              rw [hch, hq] at ha
              simp only [tryGetPar] at ha
              have hs : s = s1 := congrArg Prod.fst ha
              have hd' : back d = v := Res.ok.inj (congrArg Prod.snd ha)
              subst hs
              subst hd'
              rw [hcb d List.mem_cons_self] at ht
              rw [← Res.ok.inj ht]
              rfl
        simp only [tryArrayAsLoop, e, h3]

/-- **C101.** An array of `int`s is the array of `double`s with each element converted, if all can be. -/
theorem C101_array {σ : Type} (B : Backend σ) (env : Env) (io : IOState) (s s' : σ) (name : Str) (child query : Str → Option PNode) (ds : List Int) (hd : ∀ d ∈ ds, fitsInt d) (vs : List Dbl)
    (h : tryArray B env io s name child query (ds.map ofInt) = (s', .ok vs)) (hc : ∀ v ∈ vs, ∃ z, toInt v = .ok z) :
    ∃ zs, tryArrayAsLoop toInt B env io name child query 0 ds s = (s', .ok zs) ∧ zs.map Res.ok = vs.map toInt := by
  exact tryArrayAs_id toInt ofInt B env io name child query ds (fun d hd' => toInt_ofInt (hd d hd')) 0 s s' vs h hc

/-- An `int` parameter between 0 and 3 with mean 2: the hypotheses of `C101_in_bounds` are met, and 2.7 is returned as 2. -/
example : ∃ j, tryGetParNumAs toInt ofInt oiBackend env0 .init {} "n".toList none none 2 1 0 3 = (j, .ok 2) ∧ j.dim = 1 ∧
    tryGetParNumAs toInt ofInt spBackend env0 .init ⟨j, [.fin (27 / 10)]⟩ "n".toList none none 2 1 0 3 = (⟨j, [.fin (27 / 10)]⟩, .ok 2) := by
  refine ⟨(tryGetParNumAs toInt ofInt oiBackend env0 .init {} "n".toList none none 2 1 0 3).1, ?_, ?_, ?_⟩ <;> decide +kernel

/-- An array of two `int`s, the second one from the node. -/
example : (tryArrayAsLoop toInt oiBackend env0 .init "a".toList (fun n => if n = "a.1".toList then some { str := "3.9~1[0,7]".toList } else none) (fun _ => none) 0 [7, 8] {}).2 = .ok [7, 3] := by
  decide +kernel

end Spot
