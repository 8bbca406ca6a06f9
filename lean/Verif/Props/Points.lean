import Verif.Lemmas.SearchPoint
import Verif.Props.Files
import Verif.Lemmas.Printf

/-!
# C14-C17, C19, C65-C67: search points, rounding, bounds
-/

namespace Spot
open Notation ObjInfo

/-! ## C15 -/

/-- **C15.** Storing a stored value changes nothing. -/
theorem C15_idempotent (v : Dbl) : rounded (rounded v) = rounded v := by
  cases v with
  | fin q => exact congrArg Dbl.fin (p8_idem q)
  | _ => simp [rounded]

/-- **C15.** Rounding is monotone on finite values. -/
theorem C15_monotone (a b : ℚ) (h : a ≤ b) : Dbl.le (rounded (.fin a)) (rounded (.fin b)) = true := by
  simp only [rounded, Dbl.le, decide_eq_true_eq]; exact p8_mono h

/-- **C15.** Rounding is odd. -/
theorem C15_odd (v : Dbl) : rounded v.neg = (rounded v).neg := by
  cases v with
  | fin q => exact congrArg Dbl.fin (p8_neg q)
  | _ => simp [rounded, Dbl.neg]

/-- **C15.** A value is changed by a relative amount of at most 5.1e-8 (plus half the smallest subnormal). -/
theorem C15_accurate (q : ℚ) : ∃ r, rounded (.fin q) = .fin r ∧ |r - q| ≤ |q| * (51 / 10 ^ 9) + 2 ^ (-1075 : ℤ) :=
  ⟨_, rfl, p8_err q⟩

/-- **C15.** The stored value is a binary64 number again. -/
theorem C15_binary64 (q : ℚ) : ∃ r, rounded (.fin q) = .fin r ∧ bin64 r = r := ⟨_, rfl, bin64_p8 q⟩

/-- **C15.** Rounding to 8 digits really changes most values: 1 + 2^-24 becomes 1.0000001. -/
example : rounded (.fin (1 + 1 / 2 ^ 24)) = .fin (bin64 (10000001 / 10000000)) ∧
    rounded (.fin (1 + 1 / 2 ^ 24)) ≠ .fin (1 + 1 / 2 ^ 24) := by decide +kernel

/-- Every value of the point is a stored (already rounded) value. -/
def SearchPoint.Stored (s : SearchPoint) : Prop := ∀ v ∈ s.values, rounded v = v

theorem stored_map (l : List Dbl) : ∀ v ∈ l.map rounded, rounded v = v := by
  intro v hv
  obtain ⟨w, _, rfl⟩ := List.mem_map.1 hv
  exact C15_idempotent w

/-- **C15.** Every way of putting values in a point stores rounded values, one for each free parameter. -/
theorem C15_constructors_store (i : ObjInfo) :
    ((SearchPoint.ofInfo i).Stored ∧ (SearchPoint.ofInfo i).WF) ∧
    (∀ v s, SearchPoint.ofValues i v = .ok s → s.Stored ∧ s.WF ∧ s.values = v.map rounded) ∧
    (∀ s v s', SearchPoint.setValues s v = .ok s' → s'.Stored ∧ (s.WF → s'.WF) ∧ s'.values = v.map rounded) := by
  refine ⟨⟨stored_map _, by simp [SearchPoint.WF, SearchPoint.ofInfo, dim]⟩, ?_, ?_⟩
  · intro v s h
    simp only [SearchPoint.ofValues] at h
    split at h
    · rename_i hl
      obtain rfl := Res.ok.inj h
      exact ⟨stored_map v, by simpa [SearchPoint.WF] using hl.symm, rfl⟩
    · exact absurd h (by simp)
  · intro s v s' h
    simp only [SearchPoint.setValues] at h
    split at h
    · rename_i hl
      obtain rfl := Res.ok.inj h
      exact ⟨stored_map v, fun hs => by simp only [SearchPoint.WF, List.length_map, ← hl]; exact hs, rfl⟩
    · exact absurd h (by simp)

/-! ## C14 -/

/-- **C14.** A written search point read back into any point over the same parameters restores every value exactly and reports
(dim, 0). `PrintsAs` is what the printer and the number reader must satisfy: printing with 8 digits and reading back is
`rounded`; names must be non-empty and free of white space. -/
theorem C14_roundtrip (R : Reader) (fmt : Dbl → Str) (s t : SearchPoint) (hu : NamesUnique s.info) (hi : t.info = s.info)
    (hs : s.WF) (ht : t.WF) (hst : s.Stored) (hd : s.info.dim ≠ 0) (hn : ∀ p ∈ s.info.pars, FileName p.name)
    (hv : ∀ v ∈ s.values, PrintsAs R fmt v (rounded v))
    (hp : ∀ p ∈ s.info.pars, (∃ m, PrintsAs R fmt p.mean m) ∧ ∃ d, PrintsAs R fmt p.std d) :
    t.importValues R (some (s.write fmt)) = (s, .ok (s.info.dim, 0)) := by
  classical
  obtain ⟨i, vs⟩ := s
  obtain ⟨i', ws⟩ := t
  simp only at hi; subst hi
  simp only [SearchPoint.WF, dim] at hs ht
  simp only [dim] at hd ⊢
  let mf : ParInfo → Dbl := fun p => if h : ∃ m, PrintsAs R fmt p.mean m then h.choose else .nan
  let df : ParInfo → Dbl := fun p => if h : ∃ m, PrintsAs R fmt p.std m then h.choose else .nan
  have hmf : ∀ p ∈ i'.pars, PrintsAs R fmt p.mean (mf p) := by
    intro p h; have := (hp p h).1; simp only [mf, dif_pos this]; exact this.choose_spec
  have hdf : ∀ p ∈ i'.pars, PrintsAs R fmt p.std (df p) := by
    intro p h; have := (hp p h).2; simp only [df, dif_pos this]; exact this.choose_spec
  let l : List (ParInfo × Dbl × Dbl × Dbl × Dbl) := (i'.pars.zip vs).map fun x => (x.1, x.2, x.2, mf x.1, df x.1)
  have hl : ∀ x ∈ l, FileName x.1.name ∧ PrintsAs R fmt x.2.1 x.2.2.1 ∧ PrintsAs R fmt x.1.mean x.2.2.2.1 ∧
      PrintsAs R fmt x.1.std x.2.2.2.2 := by
    intro x hx
    obtain ⟨⟨p, v⟩, hz, rfl⟩ := List.mem_map.1 hx
    have h1 := (List.of_mem_zip hz).1
    have h2 := (List.of_mem_zip hz).2
    refine ⟨hn p h1, ?_, hmf p h1, hdf p h1⟩
    have := hv v h2
    rwa [hst v h2] at this
  have hw : SearchPoint.write fmt ⟨i', vs⟩ = (l.map fun x => SearchPoint.line fmt (SearchPoint.nameWidth i') x.1 x.2.1).flatten := by
    simp only [SearchPoint.write, l, List.map_map]; rfl
  have hscan := scanGood_lines l hl (w := SearchPoint.nameWidth i') [] ((SearchPoint.write fmt ⟨i', vs⟩).length + 1)
    (by simp [Blank]) (by rw [hw]; simp)
  rw [List.nil_append, ← hw] at hscan
  have hne : (SearchPoint.write fmt ⟨i', vs⟩).isEmpty = false := by
    have h0 : 0 < l.length := by simp [l, hs]; omega
    rw [hw]
    cases hll : l with
    | nil => simp [hll] at h0
    | cons x l' =>
      simp [SearchPoint.line]
  simp only [SearchPoint.importValues, hne, Bool.false_eq_true, if_false, hscan]
  have := import_fold_values hu.free (l.map fun x => (⟨x.1.name, x.2.2.1, x.2.2.2.1, x.2.2.2.2⟩ : Rec)) 0 [] ws 0 0
    (by simp only [l, List.map_map, List.drop_zero]
        have : (fun x : ParInfo × Dbl => x.1.name) = ParInfo.name ∘ Prod.fst := rfl
        change (i'.pars.zip vs).map (fun x => x.1.name) = _
        rw [this, ← List.map_map, List.map_fst_zip (by omega)])
    rfl (by simp [l, hs, ht])
  simp only [List.nil_append] at this
  rw [this]
  have hvals : l.map (fun x => x.2.2.1) = vs := by
    simp only [l, List.map_map]
    change (i'.pars.zip vs).map (fun x => x.2) = vs
    exact List.map_snd_zip (by omega)
  simp only [List.map_map, Nat.zero_add, List.length_map]
  have hlen : l.length = i'.pars.length := by simp [l, hs]
  rw [hlen]
  change (SearchPoint.mk i' (l.map (fun x => x.2.2.1)), _) = _
  rw [hvals]

/-- Without any free parameter the written file is empty and reading it back throws. -/
theorem C14_empty (R : Reader) (fmt : Dbl → Str) (s t : SearchPoint) (hd : s.info.dim = 0) :
    t.importValues R (some (s.write fmt)) = (t, .err) := by
  have : s.info.pars = [] := by simpa [dim] using hd
  simp [SearchPoint.importValues, SearchPoint.write, this]

theorem p8_in_range {q : ℚ} (h : |q| ≤ Dbl.maxQ) : |p8 q| ≤ Dbl.maxQ := by
  have hm : p8 Dbl.maxQ ≤ Dbl.maxQ := by decide +kernel
  have h' := abs_le.1 h
  rw [abs_le]
  constructor
  · have := p8_mono h'.1
    rw [p8_neg] at this; linarith
  · exact (p8_mono h'.2).trans hm

theorem ofQ_dec8 {q : ℚ} (h : |q| ≤ Dbl.maxQ) : Dbl.ofQ (dec8 q) = rounded (.fin q) := by
  have := abs_le.1 (p8_in_range h)
  unfold p8 at this
  simp only [Dbl.ofQ, rounded]
  rw [if_neg (not_lt.2 this.2), if_neg (not_lt.2 this.1)]

theorem fmtPos_solid (q : ℚ) : StartsSolid (fmtPos q) := by
  have hd : ∀ c, isDig c = true → isWs c = false := by
    intro c hc
    simp only [isDig, Bool.and_eq_true, decide_eq_true_eq] at hc
    have h1 : '0'.val ≤ c.val := hc.1
    unfold isWs
    simp only [Bool.or_eq_false_iff, decide_eq_false_iff_not]
    refine ⟨⟨⟨⟨⟨?_, ?_⟩, ?_⟩, ?_⟩, ?_⟩, ?_⟩ <;> (rintro rfl; revert h1; decide)
  unfold fmtPos
  rcases mantissa8 q with ⟨n, x⟩
  obtain ⟨d1, d2, d3⟩ := digitsN_spec 8 n
  cases hds : digitsN 8 n with
  | nil => rw [hds] at d2; simp at d2
  | cons c ds =>
    have hc := hd c (d3 c (by rw [hds]; simp))
    simp only [hds]
    split
    · split
      · exact ⟨c, _, rfl, hc⟩
      · exact ⟨'0', _, rfl, by decide⟩
    · exact ⟨c, _, rfl, hc⟩

/-- **C14.** The assumption of the round trip, for `%.8g` and `strtod`: printing with 8 digits and reading back is the rounding
applied to stored values, for every finite double. -/
theorem C14_prints (q : ℚ) (h : |q| ≤ Dbl.maxQ) : PrintsAs strtodReader fmt8 (.fin q) (rounded (.fin q)) := by
  refine ⟨?_, fun t => ?_⟩
  · simp only [fmt8]
    split
    · exact ⟨'0', [], rfl, by decide⟩
    · split
      · exact ⟨'-', _, rfl, by decide⟩
      · exact fmtPos_solid q
  · have := strtod_fmt8 q t
    rw [ofQ_dec8 h] at this
    exact this

/-- **C14.** With `%.8g` and `strtod`: a search point made of finite numbers is restored exactly from the text written for it, in
every point over the same parameters. -/
theorem C14_saved_points_load_back (s t : SearchPoint) (hu : NamesUnique s.info) (hi : t.info = s.info)
    (hs : s.WF) (ht : t.WF) (hst : s.Stored) (hd : s.info.dim ≠ 0) (hn : ∀ p ∈ s.info.pars, FileName p.name)
    (hv : ∀ v ∈ s.values, ∃ q : ℚ, v = .fin q ∧ |q| ≤ Dbl.maxQ)
    (hp : ∀ p ∈ s.info.pars, (∃ q : ℚ, p.mean = .fin q ∧ |q| ≤ Dbl.maxQ) ∧ ∃ q : ℚ, p.std = .fin q ∧ |q| ≤ Dbl.maxQ) :
    t.importValues strtodReader (some (s.write fmt8)) = (s, .ok (s.info.dim, 0)) := by
  refine C14_roundtrip strtodReader fmt8 s t hu hi hs ht hst hd hn ?_ ?_
  · intro v h
    obtain ⟨q, rfl, hq⟩ := hv v h
    exact C14_prints q hq
  · intro p h
    obtain ⟨⟨m, hm, hm'⟩, ⟨d, hd, hd'⟩⟩ := hp p h
    exact ⟨⟨_, hm ▸ C14_prints m hm'⟩, ⟨_, hd ▸ C14_prints d hd'⟩⟩

-- a concrete point, its text, and the point read back into another one
example :
    let i : ObjInfo := { minimize := true, pars := [⟨"ab".toList, .fin 0, .fin 1, .ninf, .pinf⟩, ⟨"c".toList, .fin (1/2), .fin 2, .ninf, .pinf⟩] }
    let s : SearchPoint := ⟨i, [.fin (3/4), .fin (-1000000000)]⟩
    s.write fmt8 = "ab\t0.75\t0\t1\t\nc \t-1e+09\t0.5\t2\t\n".toList ∧ s.Stored ∧
    (SearchPoint.ofInfo i).importValues strtodReader (some (s.write fmt8)) = (s, .ok (2, 0)) := by
  refine ⟨by decide +kernel, ?_, by decide +kernel⟩
  unfold SearchPoint.Stored; decide +kernel

/-! ## C17 -/

/-- The vector lies within the bounds: no coordinate is above its maximum or below its minimum. -/
def WithinBounds (i : ObjInfo) (v : List Dbl) : Prop :=
  ∀ (k : Nat) (p : ParInfo) (x : Dbl), i.pars[k]? = some p → v[k]? = some x → Dbl.lt p.max x = false ∧ Dbl.lt x p.min = false

/-- **C17.** `is_feasible` decides whether the vector lies within the bounds. -/
theorem C17_is_feasible (i : ObjInfo) (v : List Dbl) (hl : v.length = i.dim) :
    ∃ b, i.isFeasible v = .ok b ∧ (b = true ↔ WithinBounds i v) := by
  unfold WithinBounds isFeasible
  unfold dim at hl
  generalize i.pars = ps at *
  induction ps generalizing v with
  | nil => exact ⟨true, rfl, by simp⟩
  | cons p ps ih =>
    cases v with
    | nil => simp at hl
    | cons x v =>
      obtain ⟨b, hb, he⟩ := ih v (by simpa using hl)
      rw [feasibleLoop]
      by_cases h : (Dbl.lt p.max x || Dbl.lt x p.min) = true
      · refine ⟨false, by rw [if_pos h], ?_⟩
        simp only [Bool.false_eq_true, false_iff]
        intro hc
        have := hc 0 p x rfl rfl
        simp [this.1, this.2] at h
      · refine ⟨b, by rw [if_neg h, hb], ?_⟩
        rw [he]
        simp only [Bool.or_eq_true, not_or, Bool.not_eq_true] at h
        constructor
        · intro hc k q y h1 h2
          cases k with
          | zero => simp only [List.getElem?_cons_zero, Option.some.injEq] at h1 h2; subst h1; subst h2; exact h
          | succ k => exact hc k q y (by simpa using h1) (by simpa using h2)
        · intro hc k q y h1 h2
          exact hc (k + 1) q y (by simpa using h1) (by simpa using h2)

theorem clampLoop_get (ps : List ParInfo) : ∀ (v : List Dbl), ps.length ≤ v.length →
    ∃ w, clampLoop ps v = .ok w ∧ w.length = v.length ∧
      (∀ (k : Nat) (p : ParInfo) (x : Dbl), ps[k]? = some p → v[k]? = some x → w[k]? = some (clamp1 p x)) ∧ (∀ k : Nat, ps.length ≤ k → w[k]? = v[k]?) := by
  induction ps with
  | nil => intro v _; exact ⟨v, rfl, rfl, by simp, fun k _ => rfl⟩
  | cons p ps ih =>
    intro v hv
    cases v with
    | nil => simp at hv
    | cons x v =>
      obtain ⟨w, h1, h2, h3, h4⟩ := ih v (by simpa using hv)
      refine ⟨clamp1 p x :: w, by simp [clampLoop, h1], by simp [h2], ?_, ?_⟩
      · intro k q y e1 e2
        cases k with
        | zero => simp only [List.getElem?_cons_zero, Option.some.injEq] at e1 e2 ⊢; rw [e1, e2]
        | succ k => simpa using h3 k q y (by simpa using e1) (by simpa using e2)
      · intro k hk
        cases k with
        | zero => simp at hk
        | succ k => simpa using h4 k (by simpa using hk)

theorem clamp1_cases (p : ParInfo) (hp : Dbl.le p.min p.max = true) (x : Dbl) (hx : x ≠ .nan) :
    (Dbl.lt x p.min = true ∧ clamp1 p x = p.min) ∨ (Dbl.lt p.max x = true ∧ clamp1 p x = p.max) ∨
    (Dbl.le p.min x = true ∧ Dbl.le x p.max = true ∧ clamp1 p x = x) := by
  have hmin := Dbl.ne_nan_of_le_left hp
  have hmax := Dbl.ne_nan_of_le_right hp
  unfold clamp1
  by_cases h1 : Dbl.lt x p.min = true
  · left
    have : Dbl.le p.min x = false := (Dbl.not_le hmin hx).2 h1
    simp [this, h1]
  · have h1' : Dbl.le p.min x = true := (Dbl.not_lt hx hmin).1 (by simpa using h1)
    right
    by_cases h2 : Dbl.lt p.max x = true
    · left
      have : Dbl.le x p.max = false := (Dbl.not_le hx hmax).2 h2
      have h1'' : Dbl.lt x p.min = false := by simpa using h1
      simp [this, h1'', h2]
    · right
      have : Dbl.le x p.max = true := (Dbl.not_lt hmax hx).1 (by simpa using h2)
      simp [this, h1']

/-- **C17.** For parameters with min ≤ max and a vector of numbers, `clamp` succeeds, the result is feasible, and each coordinate
is the point of its interval nearest to the given one: inside the interval, and between the given value and every point of the
interval. -/
theorem C17_clamp (i : ObjInfo) (hi : ∀ p ∈ i.pars, Dbl.le p.min p.max = true) (v : List Dbl) (hl : v.length = i.dim)
    (hv : ∀ x ∈ v, x ≠ .nan) :
    ∃ w, i.clamp v = .ok w ∧ i.isFeasible w = .ok true ∧ w.length = v.length ∧
      ∀ (k : Nat) (p : ParInfo) (x y : Dbl), i.pars[k]? = some p → v[k]? = some x → w[k]? = some y →
        (Dbl.le p.min y = true ∧ Dbl.le y p.max = true) ∧
        ∀ z, Dbl.le p.min z = true → Dbl.le z p.max = true →
          (Dbl.le x y = true ∧ Dbl.le y z = true) ∨ (Dbl.le z y = true ∧ Dbl.le y x = true) := by
  obtain ⟨w, h1, h2, h3, _⟩ := clampLoop_get i.pars v (by simp only [dim] at hl; omega)
  have key : ∀ (k : Nat) (p : ParInfo) (x y : Dbl), i.pars[k]? = some p → v[k]? = some x → w[k]? = some y →
        (Dbl.le p.min y = true ∧ Dbl.le y p.max = true) ∧
        ∀ z, Dbl.le p.min z = true → Dbl.le z p.max = true →
          (Dbl.le x y = true ∧ Dbl.le y z = true) ∨ (Dbl.le z y = true ∧ Dbl.le y x = true) := by
    intro k p x y e1 e2 e3
    have hp := hi p (List.mem_of_getElem? e1)
    have hx := hv x (List.mem_of_getElem? e2)
    have e4 := h3 k p x e1 e2
    rw [e3] at e4
    obtain rfl : y = clamp1 p x := by simpa using e4
    have hmin := Dbl.ne_nan_of_le_left hp
    have hmax := Dbl.ne_nan_of_le_right hp
    rcases clamp1_cases p hp x hx with ⟨a, e⟩ | ⟨a, e⟩ | ⟨a, b, e⟩ <;> rw [e]
    · exact ⟨⟨Dbl.le_refl hmin, hp⟩, fun z z1 z2 => Or.inl ⟨Dbl.le_of_lt a, z1⟩⟩
    · exact ⟨⟨hp, Dbl.le_refl hmax⟩, fun z z1 z2 => Or.inr ⟨z2, Dbl.le_of_lt a⟩⟩
    · refine ⟨⟨a, b⟩, fun z z1 z2 => ?_⟩
      rcases Dbl.le_total hx (Dbl.ne_nan_of_le_right z1) with h | h
      · exact Or.inl ⟨Dbl.le_refl hx, h⟩
      · exact Or.inr ⟨h, Dbl.le_refl hx⟩
  refine ⟨w, h1, ?_, h2, key⟩
  obtain ⟨b, hb, he⟩ := C17_is_feasible i w (by rw [h2, hl])
  rw [hb, he.2]
  intro k p y e1 e2
  obtain ⟨x, hx⟩ : ∃ x, v[k]? = some x := by
    obtain ⟨hk, _⟩ := List.getElem?_eq_some_iff.1 e2
    exact ⟨v[k]'(by omega), List.getElem?_eq_getElem (by omega)⟩
  have := (key k p x y e1 hx e2).1
  exact ⟨(Dbl.le_iff.1 this.2).2, (Dbl.le_iff.1 this.1).2⟩

/-- **C17.** A feasible vector is unchanged by `clamp` (NaN coordinates count as feasible and are kept). -/
theorem C17_identity (i : ObjInfo) (v : List Dbl) (hl : v.length = i.dim) (hf : i.isFeasible v = .ok true) :
    i.clamp v = .ok v := by
  obtain ⟨w, h1, h2, h3, _⟩ := clampLoop_get i.pars v (by simp only [dim] at hl; omega)
  obtain ⟨b, hb, he⟩ := C17_is_feasible i v hl
  rw [hf] at hb
  obtain rfl : true = b := by simpa using hb
  have hw := he.1 rfl
  rw [clamp, h1]
  congr 1
  apply List.ext_getElem? 
  intro k
  by_cases hk : k < v.length
  · have hkp : k < i.pars.length := by simp only [dim] at hl; omega
    have e1 := List.getElem?_eq_getElem hkp
    have e2 := List.getElem?_eq_getElem hk
    rw [h3 k _ _ e1 e2, e2]
    have := hw k _ _ e1 e2
    simp [clamp1, this.1, this.2]
  · rw [List.getElem?_eq_none (by omega), List.getElem?_eq_none (by omega)]

/-- **C17.** `is_feasible` accepts NaN coordinates, so "feasible" alone does not put them between the bounds. -/
theorem C17_nan_is_feasible :
    ∃ (i : ObjInfo) (v : List Dbl), i.isFeasible v = .ok true ∧ v = [.nan] ∧ i.dim = 1 :=
  ⟨{ minimize := true, pars := [⟨"a".toList, .fin 0, .fin 1, .fin 0, .fin 1⟩] }, [.nan], by decide, rfl, rfl⟩

example : (ObjInfo.clamp { minimize := true, pars := [⟨"a".toList, .fin 0, .fin 1, .fin 0, .fin 1⟩, ⟨"b".toList, .fin 0, .fin 1, .ninf, .fin 1⟩] }
    [.fin 7, .fin (-7)]) = .ok [.fin 1, .fin (-7)] := by decide +kernel

/-! ## C16 -/

/-- **C16 (finding).** The claim fails: a sampled value is checked against (or clamped to) the bounds before the search point
rounds it to 8 digits. With max = 1 + 2^-24 the feasible value 1 + 2^-24 is stored as 1.0000001 > max. -/
theorem C16_rounding_leaves_bounds :
    ∃ (i : ObjInfo) (v : List Dbl) (s : SearchPoint), (∀ p ∈ i.pars, p.isValid = true) ∧ i.isFeasible v = .ok true ∧
      i.clamp v = .ok v ∧ (SearchPoint.ofInfo i).setValues v = .ok s ∧ i.isFeasible s.values = .ok false := by
  let i : ObjInfo := { minimize := true, pars := [⟨"a".toList, .fin 0, .fin 1, .fin 0, .fin (1 + 1 / 2 ^ 24)⟩] }
  exact ⟨i, [.fin (1 + 1 / 2 ^ 24)], ⟨i, [rounded (.fin (1 + 1 / 2 ^ 24))]⟩, by decide +kernel, by decide +kernel, by decide +kernel,
    rfl, by decide +kernel⟩

/-- A bound that survives rounding: infinite, or not changed by 8-digit rounding (like every bound written with at most 8
digits, by `C15_idempotent`). -/
def ShortBound (b : Dbl) : Prop := b = .ninf ∨ b = .pinf ∨ rounded b = b

/-- **C16.** If every bound is infinite or an 8-digit number, rounding a feasible vector of finite numbers keeps it
feasible. (For other bounds that is false, `C16_rounding_leaves_bounds`; what holds for them is in Props/Feasible.lean.) -/
theorem C16_rounded_feasible (i : ObjInfo) (hb : ∀ p ∈ i.pars, ShortBound p.min ∧ ShortBound p.max) (v : List Dbl)
    (hl : v.length = i.dim) (hfin : ∀ x ∈ v, ∃ q, x = .fin q) (hf : i.isFeasible v = .ok true) :
    i.isFeasible (v.map rounded) = .ok true := by
  obtain ⟨b, e, he⟩ := C17_is_feasible i v hl
  rw [hf] at e
  obtain rfl : true = b := by simpa using e
  have hw := he.1 rfl
  obtain ⟨b, e, he'⟩ := C17_is_feasible i (v.map rounded) (by simpa using hl)
  rw [e, he'.2]
  intro k p y e1 e2
  rw [List.getElem?_map, Option.map_eq_some_iff] at e2
  obtain ⟨x, hx, rfl⟩ := e2
  obtain ⟨q, rfl⟩ := hfin x (List.mem_of_getElem? hx)
  have hq := hw k p _ e1 hx
  have hbp := hb p (List.mem_of_getElem? e1)
  have hmin : Dbl.lt (rounded (.fin q)) p.min = false := by
    rcases hbp.1 with h | h | h
    · rw [h]; rfl
    · have := hq.2; rw [h] at this; simp [Dbl.lt] at this
    · cases hm : p.min with
      | fin a =>
        rw [hm] at h hq
        have h1 : p8 a = a := by simpa [rounded, p8] using h
        have h2 : a ≤ q := by simpa using hq.2
        have h3 := p8_mono h2
        simp only [rounded, Dbl.lt_fin, decide_eq_false_iff_not, not_lt]
        rw [h1] at h3; exact h3
      | nan => simp
      | ninf => rfl
      | pinf => rw [hm] at hq; simp [Dbl.lt] at hq
  have hmax : Dbl.lt p.max (rounded (.fin q)) = false := by
    rcases hbp.2 with h | h | h
    · have := hq.1; rw [h] at this; simp [Dbl.lt] at this
    · rw [h]; rfl
    · cases hm : p.max with
      | fin a =>
        rw [hm] at h hq
        have h1 : p8 a = a := by simpa [rounded, p8] using h
        have h2 : q ≤ a := by simpa using hq.1
        have h3 := p8_mono h2
        simp only [rounded, Dbl.lt_fin, decide_eq_false_iff_not, not_lt]
        rw [h1] at h3; exact h3
      | nan => simp
      | pinf => rfl
      | ninf => rw [hm] at hq; simp [Dbl.lt] at hq
  exact ⟨hmax, hmin⟩

/-- **C16.** How far rounding can leave the bounds: by a relative amount of at most 5.1e-8 of the value. -/
theorem C16_violation_small (p : ParInfo) (q : ℚ) (h1 : Dbl.le p.min (.fin q) = true) (h2 : Dbl.le (.fin q) p.max = true) :
    ∃ r, rounded (.fin q) = .fin r ∧
      Dbl.le p.min (.fin (r + (|q| * (51 / 10 ^ 9) + 2 ^ (-1075 : ℤ)))) = true ∧
      Dbl.le (.fin (r - (|q| * (51 / 10 ^ 9) + 2 ^ (-1075 : ℤ)))) p.max = true := by
  obtain ⟨r, hr, he⟩ := C15_accurate q
  have := abs_le.1 he
  refine ⟨r, hr, Dbl.le_trans h1 ?_, Dbl.le_trans ?_ h2⟩ <;> simp only [Dbl.le_fin, decide_eq_true_eq] <;> linarith

example : ShortBound (.fin (1 / 2)) ∧ ShortBound .ninf ∧ ShortBound (.fin (-1000)) :=
  ⟨Or.inr (Or.inr (by decide +kernel)), Or.inl rfl, Or.inr (Or.inr (by decide +kernel))⟩

/-! ## C19 -/

theorem toString_inj {a b : ℕ} (h : (toString a).toList = (toString b).toList) : a = b := by
  simp only [Nat.toString_eq_repr, Nat.toList_repr] at h
  rw [← Nat.ofDigitChars_ten_toDigits (n := a), h, Nat.ofDigitChars_ten_toDigits]

theorem makeLoop_spec (m : List Dbl) : ∀ (k : Nat) (s l u : List Dbl) (ps : List ParInfo), makeLoop k m s l u = .ok ps →
    ps.length = m.length ∧ ∀ (j : Nat) (p : ParInfo), ps[j]? = some p →
      p.name = (toString (k + j)).toList ∧ m[j]? = some p.mean ∧ s[j]? = some p.std ∧ l[j]? = some p.min ∧ u[j]? = some p.max ∧
        ParInfo.make p.name p.mean p.std p.min p.max = .ok p := by
  induction m with
  | nil => intro k s l u ps h; simp only [makeLoop, Res.ok.injEq] at h; subst h; simp
  | cons x m ih =>
    intro k s l u ps h
    cases s with
    | nil => simp [makeLoop] at h
    | cons y s =>
      cases l with
      | nil => simp [makeLoop] at h
      | cons z l =>
        cases u with
        | nil => simp [makeLoop] at h
        | cons w u =>
          rw [makeLoop, Res.bind_eq_ok] at h
          obtain ⟨p, hp, h⟩ := h
          rw [Res.bind_eq_ok] at h
          obtain ⟨t, ht, h⟩ := h
          obtain rfl := Res.ok.inj h
          obtain ⟨h1, h2⟩ := ih (k + 1) s l u t ht
          have he : p = ⟨(toString k).toList, x, y, z, w⟩ := by
            simp only [ParInfo.make] at hp
            split at hp
            · exact (Res.ok.inj hp).symm
            · simp at hp
          refine ⟨by simp [h1], ?_⟩
          intro j q hq
          cases j with
          | zero =>
            simp only [List.getElem?_cons_zero, Option.some.injEq] at hq
            subst hq
            refine ⟨by rw [he]; rfl, by rw [he]; rfl, by rw [he]; rfl, by rw [he]; rfl, by rw [he]; rfl, ?_⟩
            rw [he] at hp ⊢; exact hp
          | succ j =>
            have := h2 j q (by simpa using hq)
            simp only [List.getElem?_cons_succ]
            rw [show k + (j + 1) = k + 1 + j by omega]
            exact this

theorem makeLoop_names {m s l u : List Dbl} {ps : List ParInfo} (h : makeLoop 0 m s l u = .ok ps) :
    (ps.map ParInfo.name).Nodup := by
  obtain ⟨_, h2⟩ := makeLoop_spec m 0 s l u ps h
  rw [List.nodup_iff_getElem?_ne_getElem?]
  intro a b hab hb he
  have hb' : b < ps.length := by simpa using hb
  simp only [List.getElem?_map, List.getElem?_eq_getElem hb', List.getElem?_eq_getElem (hab.trans hb'), Option.map_some,
    Option.some.injEq] at he
  have e1 := (h2 a _ (List.getElem?_eq_getElem (hab.trans hb'))).1
  have e2 := (h2 b _ (List.getElem?_eq_getElem hb')).1
  rw [e1, e2] at he
  have := toString_inj he
  omega

theorem makeLoop_err (m : List Dbl) : ∀ (k : Nat) (s l u : List Dbl), makeLoop k m s l u = .err →
    ∃ (j : Nat) (a b c d : Dbl), m[j]? = some a ∧ s[j]? = some b ∧ l[j]? = some c ∧ u[j]? = some d ∧
      ParInfo.isValid ⟨(toString (k + j)).toList, a, b, c, d⟩ = false := by
  induction m with
  | nil => intro k s l u h; simp [makeLoop] at h
  | cons x m ih =>
    intro k s l u h
    cases s with
    | nil => simp [makeLoop] at h
    | cons y s =>
      cases l with
      | nil => simp [makeLoop] at h
      | cons z l =>
        cases u with
        | nil => simp [makeLoop] at h
        | cons w u =>
          rw [makeLoop] at h
          simp only [ParInfo.make] at h
          split at h
          · simp only [Res.ok_bind] at h
            cases hm : makeLoop (k + 1) m s l u with
            | ok t => rw [hm] at h; simp at h
            | ub => rw [hm] at h; simp at h
            | err =>
              obtain ⟨j, a, b, c, d, h1, h2, h3, h4, h5⟩ := ih (k + 1) s l u hm
              exact ⟨j + 1, a, b, c, d, by simpa using h1, by simpa using h2, by simpa using h3, by simpa using h4, by
                rw [show k + (j + 1) = k + 1 + j by omega]; exact h5⟩
          · rename_i hv
            exact ⟨0, x, y, z, w, rfl, rfl, rfl, rfl, by simpa using hv⟩

/-- **C19.** `make_objective_info( mean, std, lower, upper )` with vectors of equal length either throws because the numbers at some
index are invalid, or returns exactly one valid parameter for each index, named by the index, with the given numbers, all names
distinct. -/
theorem C19_make_vec (mean std lower upper : List Dbl) (hs : std.length = mean.length) (hl : lower.length = mean.length)
    (hu : upper.length = mean.length) :
    (makeObjectiveInfoVec mean std lower upper = .err ∧
      ∃ (k : Nat) (m d l u : Dbl), mean[k]? = some m ∧ std[k]? = some d ∧ lower[k]? = some l ∧ upper[k]? = some u ∧
        ¬ ValidParam ⟨(toString k).toList, m, d, l, u⟩) ∨
    ∃ i, makeObjectiveInfoVec mean std lower upper = .ok i ∧ i.dim = mean.length ∧ NamesUnique i ∧ i.locked = [] ∧
      ∀ (k : Nat) (p : ParInfo), i.pars[k]? = some p → p.name = (toString k).toList ∧ mean[k]? = some p.mean ∧ std[k]? = some p.std ∧
        lower[k]? = some p.min ∧ upper[k]? = some p.max ∧ ValidParam p := by
  have hub : ∀ (m : List Dbl) (k : Nat) (s l u : List Dbl), s.length = m.length → l.length = m.length → u.length = m.length →
      makeLoop k m s l u ≠ .ub := by
    intro m
    induction m with
    | nil => intro k s l u _ _ _; simp [makeLoop]
    | cons x m ih =>
      intro k s l u h1 h2 h3
      cases s with
      | nil => simp at h1
      | cons y s =>
        cases l with
        | nil => simp at h2
        | cons z l =>
          cases u with
          | nil => simp at h3
          | cons w u =>
            have := ih (k + 1) s l u (by simpa using h1) (by simpa using h2) (by simpa using h3)
            rw [makeLoop]
            simp only [ParInfo.make]
            split
            · simp only [Res.ok_bind]
              cases hm : makeLoop (k + 1) m s l u <;> simp_all
            · simp
  have h0 := hub mean 0 std lower upper hs hl hu
  simp only [makeObjectiveInfoVec, hs, hl, hu, and_self, if_true]
  cases hm : makeLoop 0 mean std lower upper with
  | ub => exact absurd hm h0
  | err =>
    left
    obtain ⟨j, a, b, c, d, h1, h2, h3, h4, h5⟩ := makeLoop_err _ _ _ _ _ hm
    refine ⟨rfl, j, a, b, c, d, h1, h2, h3, h4, fun hv => ?_⟩
    rw [← isValid_iff] at hv
    rw [Nat.zero_add, hv] at h5
    cases h5
  | ok ps =>
    right
    obtain ⟨h1, h2⟩ := makeLoop_spec mean 0 std lower upper ps hm
    refine ⟨_, rfl, h1, ⟨makeLoop_names hm, by simp, by simp⟩, rfl, fun k p hk => ?_⟩
    obtain ⟨a, b, c, d, e, f⟩ := h2 k p hk
    refine ⟨by simpa using a, b, c, d, e, ?_⟩
    simp only [ParInfo.make] at f
    split at f
    · rename_i hv; exact (isValid_iff _).1 hv
    · simp at f

/-- **C19.** `make_objective_info( d, mean, std, lower, upper )` throws if the numbers are invalid (and d > 0), and otherwise
returns exactly `d` parameters with these numbers, named 0 … d-1. -/
theorem C19_make (d : Nat) (mean std lower upper : Dbl) :
    (d ≠ 0 → ¬ ParInfo.isValid ⟨[], mean, std, lower, upper⟩ = true → makeObjectiveInfo d mean std lower upper = .err) ∧
    (ParInfo.isValid ⟨[], mean, std, lower, upper⟩ = true → ∃ i, makeObjectiveInfo d mean std lower upper = .ok i ∧ i.dim = d ∧
      NamesUnique i ∧ i.locked = [] ∧ ∀ (k : Nat) (p : ParInfo), i.pars[k]? = some p → p = ⟨(toString k).toList, mean, std, lower, upper⟩) := by
  constructor
  · intro hd hv
    cases d with
    | zero => exact absurd rfl hd
    | succ d =>
      have : ∀ n, ParInfo.isValid ⟨n, mean, std, lower, upper⟩ = false := fun n => by
        simpa [ParInfo.isValid] using hv
      simp only [makeObjectiveInfo, List.replicate_succ, makeLoop, ParInfo.make, this, Bool.false_eq_true, if_false, Res.err_bind]
  · intro hv
    have key : ∀ d k, ∃ ps, makeLoop k (List.replicate d mean) (List.replicate d std) (List.replicate d lower) (List.replicate d upper) = .ok ps := by
      intro d
      induction d with
      | zero => intro k; exact ⟨[], rfl⟩
      | succ d ih =>
        intro k
        obtain ⟨ps, h⟩ := ih (k + 1)
        have : ∀ n, ParInfo.isValid ⟨n, mean, std, lower, upper⟩ = true := fun n => hv
        simp only [List.replicate_succ, makeLoop, ParInfo.make, this, if_true, Res.ok_bind, h]
        exact ⟨_, rfl⟩
    obtain ⟨ps, h⟩ := key d 0
    obtain ⟨h1, h2⟩ := makeLoop_spec _ 0 _ _ _ ps h
    refine ⟨{ pars := ps }, by simp [makeObjectiveInfo, h], by simpa [dim] using h1, ⟨makeLoop_names h, by simp, by simp⟩, rfl, ?_⟩
    intro k p hk
    obtain ⟨a, b, c, e, f, _⟩ := h2 k p hk
    have hr : ∀ {x y : Dbl}, (List.replicate d x)[k]? = some y → y = x := fun hh =>
      List.eq_of_mem_replicate (List.mem_of_getElem? hh)
    obtain ⟨n, m, s, l, u⟩ := p
    simp only at a b c e f
    rw [hr b, hr c, hr e, hr f, a]; simp

example : ∃ i, makeObjectiveInfo 3 (.fin 1) (.fin 2) .ninf .pinf = .ok i ∧
    i.pars.map ParInfo.name = ["0".toList, "1".toList, "2".toList] := ⟨_, rfl, by decide⟩

/-! ## C65 -/

/-- **C65.** `set_mean_std` (and so `make_updated_objective_info`, which applies it to a copy of the info, e.g.
spot/cma_optimizer.cpp:1279-1284) with vectors of the right size keeps names, order, bounds, locked parameters and direction, and
sets the k-th mean and std to the given ones. -/
theorem C65_set_mean_std (i : ObjInfo) (mean std : List Dbl) (hm : mean.length = i.dim) (hs : std.length = i.dim) :
    ∃ j, i.setMeanStd mean std = (j, .ok ()) ∧ j.pars.map frame = i.pars.map frame ∧ j.locked = i.locked ∧
      j.minimize = i.minimize ∧ j.target = i.target ∧ j.name = i.name ∧ j.pars.map ParInfo.mean = mean ∧ j.pars.map ParInfo.std = std := by
  refine ⟨{ i with pars := zipMeanStd i.pars mean std }, by rw [setMeanStd, if_pos ⟨hm, hs⟩], ?_, rfl, rfl, rfl, rfl, ?_⟩
  · exact zipMeanStd_map frame (fun _ _ _ => rfl) _ _ _
  · simp only [dim] at hm hs
    generalize i.pars = ps at *
    induction ps generalizing mean std with
    | nil => simp_all [zipMeanStd]
    | cons p ps ih =>
      cases mean with
      | nil => simp at hm
      | cons a mean =>
        cases std with
        | nil => simp at hs
        | cons b std =>
          have := ih mean std (by simpa using hm) (by simpa using hs)
          simp [zipMeanStd, this.1, this.2]

example : ∃ j, ObjInfo.setMeanStd exInfo [.fin 1, .fin 2, .fin 3] [.fin 4, .fin 5, .fin 6] = (j, .ok ()) := ⟨_, rfl⟩

/-! ## C66 -/

/-- **C66.** After `set_std_minimum( value, factor )` every std is at least `factor * |mean| + value` and not smaller than before
(as far as these are numbers); names, means, bounds, order and everything else are unchanged; repeating it changes nothing. -/
theorem C66_set_std_minimum (i : ObjInfo) (value factor : Dbl) :
    ((i.setStdMinimum value factor).dim = i.dim ∧
      ∀ (k : Nat) (p : ParInfo), i.pars[k]? = some p → ∃ q, (i.setStdMinimum value factor).pars[k]? = some q ∧
        (q.name = p.name ∧ q.mean = p.mean ∧ q.min = p.min ∧ q.max = p.max) ∧
        (p.std ≠ .nan → Dbl.le p.std q.std = true) ∧
        (p.std ≠ .nan → Dbl.add (Dbl.mul factor p.mean.abs) value ≠ .nan →
          Dbl.le (Dbl.add (Dbl.mul factor p.mean.abs) value) q.std = true) ∧
        (q.std = p.std ∨ q.std = Dbl.add (Dbl.mul factor p.mean.abs) value)) ∧
    ((i.setStdMinimum value factor).locked = i.locked ∧ (i.setStdMinimum value factor).minimize = i.minimize) ∧
    (i.setStdMinimum value factor).setStdMinimum value factor = i.setStdMinimum value factor := by
  refine ⟨⟨by simp [setStdMinimum, dim], fun k p hk => ?_⟩, ⟨rfl, rfl⟩, ?_⟩
  · refine ⟨{ p with std := Dbl.max p.std (Dbl.add (Dbl.mul factor p.mean.abs) value) }, by simp [setStdMinimum, hk],
      ⟨rfl, rfl, rfl, rfl⟩, fun h => Dbl.le_max_left h, fun h h' => Dbl.le_max_right h h', ?_⟩
    simp only [Dbl.max]; split
    · right; rfl
    · left; rfl
  · have hm : ∀ a b, Dbl.max (Dbl.max a b) b = Dbl.max a b := by
      intro a b
      unfold Dbl.max
      by_cases h : Dbl.lt a b = true
      · simp [h]
      · simp [h]
    simp only [setStdMinimum, List.map_map]
    congr 1
    apply List.map_congr_left
    intro p _
    simp [hm]

/-! ## C67 -/

/-- **C67.** `is_better` is a strict order, for both directions. -/
theorem C67_strict_order (i : ObjInfo) :
    (∀ a, i.isBetter a a = false) ∧ (∀ a b, i.isBetter a b = true → i.isBetter b a = false) ∧
    (∀ a b c, i.isBetter a b = true → i.isBetter b c = true → i.isBetter a c = true) ∧
    (∀ a b, a ≠ .nan → b ≠ .nan → a = b ∨ i.isBetter a b = true ∨ i.isBetter b a = true) := by
  unfold isBetter
  have tri : ∀ a b : Dbl, a ≠ .nan → b ≠ .nan → a = b ∨ Dbl.lt a b = true ∨ Dbl.lt b a = true := by
    intro a b ha hb
    by_cases h1 : Dbl.lt a b = true
    · exact Or.inr (Or.inl h1)
    · by_cases h2 : Dbl.lt b a = true
      · exact Or.inr (Or.inr h2)
      · exact Or.inl (Dbl.le_antisymm ((Dbl.not_lt hb ha).1 (by simpa using h2)) ((Dbl.not_lt ha hb).1 (by simpa using h1)))
  cases i.minimize
  · exact ⟨fun a => Dbl.lt_irrefl a, fun a b h => Dbl.lt_asymm h, fun a b c h h' => Dbl.lt_trans h' h,
      fun a b ha hb => by rcases tri a b ha hb with h | h | h <;> simp [h]⟩
  · exact ⟨fun a => Dbl.lt_irrefl a, fun a b h => Dbl.lt_asymm h, fun a b c h h' => Dbl.lt_trans h h', tri⟩

/-- **C67.** No finite double is worse than `worst_fitness` or better than `best_fitness`. -/
theorem C67_extremes (i : ObjInfo) (q : ℚ) (h : |q| ≤ Dbl.maxQ) :
    i.isBetter i.worstFitness (.fin q) = false ∧ i.isBetter (.fin q) i.bestFitness = false := by
  have := abs_le.1 h
  unfold isBetter worstFitness bestFitness
  cases i.minimize <;> simp [this.1, this.2]

/-- Infinite fitnesses are outside this range: +infinity is worse than the worst fitness. -/
example : ObjInfo.isBetter { minimize := true, pars := [] } (ObjInfo.worstFitness { minimize := true, pars := [] }) .pinf = true := by decide

theorem minElemLoop_spec (cmp : Dbl → Dbl → Bool) (has : ∀ a b, cmp a b = true → cmp b a = false)
    (htr : ∀ a b c, a ≠ .nan → b ≠ .nan → c ≠ .nan → cmp a b = false → cmp b c = false → cmp a c = false) (xs : List Dbl) :
    ∀ (pre : List Dbl) (bi : Nat) (b : Dbl), (∀ x ∈ pre ++ xs, x ≠ .nan) → pre[bi]? = some b →
      (∀ (k : Nat) (x : Dbl), pre[k]? = some x → cmp x b = false) → (∀ (k : Nat) (x : Dbl), k < bi → pre[k]? = some x → cmp b x = true) →
      ∃ y, (pre ++ xs)[minElemLoop cmp xs pre.length bi b]? = some y ∧
        (∀ (k : Nat) (x : Dbl), (pre ++ xs)[k]? = some x → cmp x y = false) ∧
        (∀ (k : Nat) (x : Dbl), k < minElemLoop cmp xs pre.length bi b → (pre ++ xs)[k]? = some x → cmp y x = true) := by
  induction xs with
  | nil =>
    intro pre bi b hn hb h1 h2
    simp only [List.append_nil, minElemLoop]
    exact ⟨b, hb, h1, h2⟩
  | cons x xs ih =>
    intro pre bi b hn hb h1 h2
    have hbn : b ≠ .nan := hn b (by simp [List.mem_of_getElem? hb])
    have hxn : x ≠ .nan := hn x (by simp)
    have e : pre ++ x :: xs = (pre ++ [x]) ++ xs := by simp
    have hbi : bi < pre.length := (List.getElem?_eq_some_iff.1 hb).1
    have hlen : (pre ++ [x]).length = pre.length + 1 := by simp
    have hpre : ∀ (k : Nat) (y : Dbl), pre[k]? = some y → y ≠ .nan := fun k y h => hn y (by simp [List.mem_of_getElem? h])
    have hirr : cmp x x = false := by
      cases hc : cmp x x with
      | false => rfl
      | true => have := has x x hc; rw [hc] at this; exact this
    have hsplit : ∀ (k : Nat) (y : Dbl), (pre ++ [x])[k]? = some y → pre[k]? = some y ∨ (k = pre.length ∧ y = x) := by
      intro k y h
      rcases lt_or_ge k pre.length with hk | hk
      · left; rwa [List.getElem?_append_left hk] at h
      · right
        rw [List.getElem?_append_right hk] at h
        have hk0 : k - pre.length = 0 := by
          by_contra hne
          rw [List.getElem?_eq_none (by simp; omega)] at h; simp at h
        rw [hk0] at h
        simp only [List.getElem?_cons_zero, Option.some.injEq] at h
        exact ⟨by omega, h.symm⟩
    rw [minElemLoop, e, ← hlen]
    by_cases hc : cmp x b = true
    · rw [if_pos hc]
      have hbx := has x b hc
      refine ih (pre ++ [x]) pre.length x (by rw [← e]; exact hn) (by simp) ?_ ?_
      · intro k y hy
        rcases hsplit k y hy with h | ⟨_, rfl⟩
        · exact htr y b x (hpre k y h) hbn hxn (h1 k y h) hbx
        · exact hirr
      · intro k y hk hy
        rcases hsplit k y hy with h | ⟨hk', _⟩
        · cases hxy : cmp x y with
          | true => rfl
          | false => have := htr x y b hxn (hpre k y h) hbn hxy (h1 k y h); rw [hc] at this; exact this.symm
        · omega
    · rw [if_neg hc]
      refine ih (pre ++ [x]) bi b (by rw [← e]; exact hn) (by rw [List.getElem?_append_left hbi]; exact hb) ?_ ?_
      · intro k y hy
        rcases hsplit k y hy with h | ⟨_, rfl⟩
        · exact h1 k y h
        · simpa using hc
      · intro k y hk hy
        rcases hsplit k y hy with h | ⟨hk', _⟩
        · exact h2 k y hk h
        · omega

theorem lt_negtrans {a b c : Dbl} (ha : a ≠ .nan) (hb : b ≠ .nan) (hc : c ≠ .nan) (h : Dbl.lt a b = false) (h' : Dbl.lt b c = false) :
    Dbl.lt a c = false := by
  rw [Dbl.not_lt ha hc]
  exact Dbl.le_trans ((Dbl.not_lt hb hc).1 h') ((Dbl.not_lt ha hb).1 h)

/-- **C67.** `find_best_fitness` of a non-empty vector of numbers returns the first index no other element is better than. -/
theorem C67_find_best (i : ObjInfo) (f : List Dbl) (hne : f ≠ []) (hn : ∀ x ∈ f, x ≠ .nan) :
    ∃ y, f[i.findBestFitness f]? = some y ∧ (∀ x ∈ f, i.isBetter x y = false) ∧
      ∀ (k : Nat) (x : Dbl), k < i.findBestFitness f → f[k]? = some x → i.isBetter y x = true := by
  cases f with
  | nil => exact absurd rfl hne
  | cons x f =>
    have key : ∀ cmp : Dbl → Dbl → Bool, (∀ a b, cmp a b = true → cmp b a = false) →
        (∀ a b c, a ≠ .nan → b ≠ .nan → c ≠ .nan → cmp a b = false → cmp b c = false → cmp a c = false) →
        ∃ y, (x :: f)[minElem cmp (x :: f)]? = some y ∧ (∀ z ∈ x :: f, cmp z y = false) ∧
          ∀ (k : Nat) (z : Dbl), k < minElem cmp (x :: f) → (x :: f)[k]? = some z → cmp y z = true := by
      intro cmp has htr
      have := minElemLoop_spec cmp has htr f [x] 0 x hn rfl (by
        intro k z hz
        cases k with
        | zero =>
          simp only [List.getElem?_cons_zero, Option.some.injEq] at hz; subst hz
          cases hc : cmp x x with
          | false => rfl
          | true => have := has x x hc; rw [hc] at this; exact this
        | succ k => simp at hz) (by intro k z hk; omega)
      obtain ⟨y, h1, h2, h3⟩ := this
      refine ⟨y, h1, ?_, h3⟩
      intro z hz
      obtain ⟨k, hk⟩ := List.getElem?_of_mem hz
      exact h2 k z hk
    unfold findBestFitness isBetter
    cases i.minimize
    · exact key (fun x b => Dbl.lt b x) (fun a b h => Dbl.lt_asymm h) (fun a b c ha hb hc h h' => lt_negtrans hc hb ha h' h)
    · exact key (fun x b => Dbl.lt x b) (fun a b h => Dbl.lt_asymm h) (fun a b c ha hb hc h h' => lt_negtrans ha hb hc h h')

/-- **C67.** Of an empty vector it returns the end position, 0. -/
theorem C67_find_best_empty (i : ObjInfo) : i.findBestFitness [] = 0 := by
  unfold findBestFitness; split <;> rfl

/-- **C67 (finding).** With a NaN in front the best element is missed. -/
theorem C67_nan_hides_best : ∃ (i : ObjInfo) (f : List Dbl),
    f[i.findBestFitness f]? = some .nan ∧ .fin 1 ∈ f := ⟨{ minimize := true, pars := [] }, [.nan, .fin 1], by decide, by decide⟩

example : ObjInfo.findBestFitness { minimize := true, pars := [] } [.fin 3, .fin 1, .fin 2, .fin 1] = 1 ∧
    ObjInfo.findBestFitness { minimize := false, pars := [] } [.fin 3, .fin 1, .fin 3, .fin 1] = 0 := by decide

end Spot
