import Verif.Model.TestObjectives
import Verif.Props.Points
import Verif.Props.MathTools
import Verif.Lemmas.Rounded

/-! # C90: the objectives that come with the library -/

namespace Spot

/-- An objective that evaluates `fn`, with `d` parameters named by their index, all with the same mean, std and bounds. -/
def Uniform (o : FnObjective) (fn : List Dbl → Res Dbl) (d : Nat) (name : Str) (mean std lower upper : Dbl) : Prop :=
  (∀ p : SearchPoint, o.evaluate p = fn p.values) ∧ o.info.dim = d ∧ o.info.name = name ∧ o.info.minimize = true ∧ o.info.locked = [] ∧ NamesUnique o.info ∧
  o.info.target = .fin 0 ∧ ∀ (k : Nat) (p : ParInfo), o.info.pars[k]? = some p → p = ⟨(toString k).toList, mean, std, lower, upper⟩

theorem fnObjective_make (fn : List Dbl → Res Dbl) (d : Nat) (mean std lower upper : Dbl) (name : Str) (h : ParInfo.isValid ⟨[], mean, std, lower, upper⟩ = true) :
    ∃ o, FnObjective.make fn d mean std lower upper name = .ok o ∧ Uniform o fn d name mean std lower upper := by
  obtain ⟨i, h1, h2, h3, h4, h5⟩ := (C19_make d mean std lower upper).2 h
  have hmin : i.minimize = true ∧ i.target = .fin 0 := by
    unfold makeObjectiveInfo at h1
    cases hl : makeLoop 0 (List.replicate d mean) (List.replicate d std) (List.replicate d lower) (List.replicate d upper) with
    | ok ps =>
      rw [hl] at h1
      rw [← Res.ok.inj h1]; exact ⟨rfl, rfl⟩
    | err => rw [hl] at h1; cases h1
    | ub => rw [hl] at h1; cases h1
  refine ⟨{ info := { i with name := name }, fn := fn }, ?_, fun _ => rfl, h2, rfl, hmin.1, h4, ?_, hmin.2, h5⟩
  · unfold FnObjective.make
    rw [h1]
    rfl
  · cases h3
    constructor <;> assumption

/-- **C90.** A function objective with vectors: it evaluates the function at the values of the point, and its parameters are those of the vectors, if all of them are valid; otherwise the constructor
throws. -/
theorem C90_from_vectors (fn : List Dbl → Res Dbl) (mean std lower upper : List Dbl) (name : Str) (hs : std.length = mean.length) (hl : lower.length = mean.length)
    (hu : upper.length = mean.length) :
    (FnObjective.makeVec fn mean std lower upper name = .err ∧
      ∃ (k : Nat) (m d l u : Dbl), mean[k]? = some m ∧ std[k]? = some d ∧ lower[k]? = some l ∧ upper[k]? = some u ∧ ¬ ValidParam ⟨(toString k).toList, m, d, l, u⟩) ∨
    ∃ o, FnObjective.makeVec fn mean std lower upper name = .ok o ∧ (∀ p : SearchPoint, o.evaluate p = fn p.values) ∧ o.info.dim = mean.length ∧ o.info.name = name ∧
      o.info.minimize = true ∧ o.info.target = .fin 0 ∧ NamesUnique o.info ∧ o.info.locked = [] ∧
      ∀ (k : Nat) (p : ParInfo), o.info.pars[k]? = some p → p.name = (toString k).toList ∧ mean[k]? = some p.mean ∧ std[k]? = some p.std ∧
        lower[k]? = some p.min ∧ upper[k]? = some p.max ∧ ValidParam p := by
  rcases C19_make_vec mean std lower upper hs hl hu with ⟨h1, h2⟩ | ⟨i, h1, h2, h3, h4, h5⟩
  · exact .inl ⟨by unfold FnObjective.makeVec; rw [h1]; rfl, h2⟩
  · have hmin : i.minimize = true ∧ i.target = .fin 0 := by
      unfold makeObjectiveInfoVec at h1
      rw [if_pos ⟨hs, hl, hu⟩] at h1
      obtain ⟨ps, -, h6⟩ := Res.bind_eq_ok.1 h1
      rw [← Res.ok.inj h6]; exact ⟨rfl, rfl⟩
    refine .inr ⟨{ info := { i with name := name }, fn := fn }, by unfold FnObjective.makeVec; rw [h1]; rfl, fun _ => rfl, h2, rfl, hmin.1, hmin.2, ?_, h4, h5⟩
    cases h3
    constructor <;> assumption

/-- **C90.** The ready-made objectives can be constructed in every dimension, with the documented ranges: valid parameters, no two of the same name, none locked, minimized. -/
theorem C90_constructed [Libm] [Trig Dbl] (d : Nat) :
    (∃ o, makeSphere d (.fin 0) (.fin 1) = .ok o ∧ Uniform o (fun v => .ok (sphere v)) d (dimName "sphere" d) (.fin 0) (.fin 1) (.fin (-1000000000)) (.fin 1000000000)) ∧
    (∃ o, makeEllipsoid d (.fin 0) (.fin 1) = .ok o ∧ Uniform o (fun v => .ok (ellipsoid v)) d (dimName "ellipsoid" d) (.fin 0) (.fin 1) (.fin (-1000000000)) (.fin 1000000000)) ∧
    (∃ o, makeHimmelblau = .ok o ∧ Uniform o himmelblau 2 "himmelblau".toList (.fin 0) (.fin (5 / 2)) (.fin (-5)) (.fin 5)) ∧
    (∃ o, makeRosenbrock d = .ok o ∧ Uniform o (rosenbrock) d (dimName "rosenbrock" d) (.fin (5 / 2)) (.fin 1) (.fin (-5)) (.fin 10)) ∧
    (∃ o, makeSchwefel d = .ok o ∧ Uniform o (fun v => .ok (schwefel v)) d (dimName "schwefel" d) (.fin 0) (.fin 100) (.fin (-500)) (.fin 500)) ∧
    (∃ o, makeRastrigin d = .ok o ∧ Uniform o (fun v => .ok (rastrigin v)) d (dimName "rastrigin" d) (.fin 0) (.fin 1) (.ofQ (-512 / 100)) (.ofQ (512 / 100))) := by
  have e9 : Dbl.ofQ (-10 ^ 9) = .fin (-1000000000) := by decide +kernel
  have e9' : Dbl.ofQ (10 ^ 9) = .fin 1000000000 := by decide +kernel
  have e0 : Dbl.ofQ 0 = .fin 0 := by decide +kernel
  have e1 : Dbl.ofQ 1 = .fin 1 := by decide +kernel
  have e2 : Dbl.ofQ (5 / 2) = .fin (5 / 2) := by decide +kernel
  have e5 : Dbl.ofQ 5 = .fin 5 := by decide +kernel
  have e5' : Dbl.ofQ (-5) = .fin (-5) := by decide +kernel
  have e10 : Dbl.ofQ 10 = .fin 10 := by decide +kernel
  have e100 : Dbl.ofQ 100 = .fin 100 := by decide +kernel
  have e500 : Dbl.ofQ 500 = .fin 500 := by decide +kernel
  have e500' : Dbl.ofQ (-500) = .fin (-500) := by decide +kernel
  refine ⟨?_, ?_, ?_, ?_, ?_, ?_⟩
  · unfold makeSphere
    rw [e9, e9']
    exact fnObjective_make (fun v => .ok (sphere v)) d (.fin 0) (.fin 1) (.fin (-1000000000)) (.fin 1000000000) (dimName "sphere" d) (by decide +kernel)
  · unfold makeEllipsoid
    rw [e9, e9']
    exact fnObjective_make (fun v => .ok (ellipsoid v)) d (.fin 0) (.fin 1) (.fin (-1000000000)) (.fin 1000000000) (dimName "ellipsoid" d) (by decide +kernel)
  · unfold makeHimmelblau
    rw [e0, e2, e5, e5']
    exact fnObjective_make himmelblau 2 (.fin 0) (.fin (5 / 2)) (.fin (-5)) (.fin 5) "himmelblau".toList (by decide +kernel)
  · unfold makeRosenbrock
    rw [e1, e2, e10, e5']
    exact fnObjective_make rosenbrock d (.fin (5 / 2)) (.fin 1) (.fin (-5)) (.fin 10) (dimName "rosenbrock" d) (by decide +kernel)
  · unfold makeSchwefel
    rw [e0, e100, e500, e500']
    exact fnObjective_make (fun v => .ok (schwefel v)) d (.fin 0) (.fin 100) (.fin (-500)) (.fin 500) (dimName "schwefel" d) (by decide +kernel)
  · unfold makeRastrigin
    rw [e0, e1]
    exact fnObjective_make (fun v => .ok (rastrigin v)) d (.fin 0) (.fin 1) (.ofQ (-512 / 100)) (.ofQ (512 / 100)) (dimName "rastrigin" d) (by decide +kernel)

/-- **C90.** `make_sphere_objective` and `make_ellipsoid_objective` throw if mean and std are not valid: a mean that is NaN or outside of ±1e9, a negative or NaN std. -/
theorem C90_rejected [Libm] (d : Nat) (hd : d ≠ 0) (mean std : Dbl)
    (h : mean = .nan ∨ Dbl.lt mean (.fin (-1000000000)) = true ∨ Dbl.lt (.fin 1000000000) mean = true ∨ Dbl.lt std (.fin 0) = true ∨ std = .nan) :
    makeSphere d mean std = .err ∧ makeEllipsoid d mean std = .err := by
  have e9 : Dbl.ofQ (-10 ^ 9) = .fin (-1000000000) := by decide +kernel
  have e9' : Dbl.ofQ (10 ^ 9) = .fin 1000000000 := by decide +kernel
  have hle : ∀ a b : Dbl, Dbl.lt a b = true → Dbl.le b a = false := by
    intro a b h
    cases a <;> cases b <;> simp_all [Dbl.lt, Dbl.le]
  have hv : ¬ ParInfo.isValid ⟨[], mean, std, .ofQ (-10 ^ 9), .ofQ (10 ^ 9)⟩ = true := by
    rw [e9, e9']
    unfold ParInfo.isValid
    simp only [Bool.and_eq_true, not_and]
    rcases h with rfl | h | h | h | rfl
    · intro h1; cases h1.1.1.1
    · intro h1; rw [hle _ _ h] at h1; cases h1.2
    · intro _; rw [hle _ _ h]; simp
    · intro h1; rw [hle _ _ h] at h1; cases h1.1.1.2
    · intro h1; cases h1.1.1.2
  have := (C19_make d mean std (.ofQ (-10 ^ 9)) (.ofQ (10 ^ 9))).1 hd hv
  constructor
  · unfold makeSphere FnObjective.make; rw [this]; rfl
  · unfold makeEllipsoid FnObjective.make; rw [this]; rfl

/-- **C90.** `make_objectives` returns for each dimension, in the order given, sphere, Rosenbrock, Rastrigin and Schwefel. -/
theorem C90_make_objectives [Libm] [Trig Dbl] : ∀ dims : List Nat, ∃ os, makeObjectives dims = .ok os ∧ os.length = 4 * dims.length ∧
    os.map (fun o => (o.info.name, o.info.dim)) = dims.flatMap fun d => [(dimName "sphere" d, d), (dimName "rosenbrock" d, d), (dimName "rastrigin" d, d), (dimName "schwefel" d, d)]
  | [] => ⟨[], rfl, rfl, rfl⟩
  | d :: ds => by
    obtain ⟨os, h1, h2, h3⟩ := C90_make_objectives ds
    obtain ⟨⟨a, ha, ha'⟩, -, -, ⟨b, hb, hb'⟩, ⟨e, he, he'⟩, ⟨c, hc, hc'⟩⟩ := C90_constructed d
    have e0 : Dbl.ofQ 0 = .fin 0 := by decide +kernel
    have e1 : Dbl.ofQ 1 = .fin 1 := by decide +kernel
    refine ⟨a :: b :: c :: e :: os, ?_, by simp [h2]; omega, ?_⟩
    · unfold makeObjectives
      rw [e0, e1, ha, hb, hc, he, h1]
      rfl
    · simp [h3, ha'.2.1, ha'.2.2.1, hb'.2.1, hb'.2.2.1, hc'.2.1, hc'.2.2.1, he'.2.1, he'.2.2.1]

theorem uniform_feasible {o : FnObjective} {fn : List Dbl → Res Dbl} {d : Nat} {name : Str} {mean std lower upper x : Dbl} (h : Uniform o fn d name mean std lower upper)
    (h1 : Dbl.lt upper x = false) (h2 : Dbl.lt x lower = false) : o.info.isFeasible (List.replicate d x) = .ok true := by
  obtain ⟨b, hb, hb'⟩ := C17_is_feasible o.info (List.replicate d x) (by rw [List.length_replicate]; exact h.2.1.symm)
  have : b = true := hb'.2 (by
    intro k p y hp hy
    have hy' : y = x := List.eq_of_mem_replicate (List.mem_of_getElem? hy)
    rw [h.2.2.2.2.2.2.2 k p hp, hy']
    exact ⟨h1, h2⟩)
  rw [hb, this]

theorem foldl_zero {α : Type} (f : α → Dbl) : ∀ l : List α, (∀ x ∈ l, f x = .fin 0) → l.foldl (fun s x => Dbl.add s (f x)) (.fin 0) = .fin 0
  | [], _ => rfl
  | x :: l, h => by
    rw [List.foldl_cons, h x (by simp), show Dbl.add (.fin 0) (.fin 0) = .fin 0 by decide +kernel]
    exact foldl_zero f l fun x hx => h x (by simp [hx])

/-- An integer below 2^53 is a double. -/
theorem bin64_int (n : Int) (h : |n| < 2 ^ 53) : bin64 (n : ℚ) = n := by
  unfold bin64
  by_cases h0 : n = 0
  · subst h0; simp
  have hpos : (0 : ℚ) < |(n : ℚ)| := by simpa using h0
  have hlog : Int.log 2 |(n : ℚ)| < 53 := by
    rw [← Int.lt_zpow_iff_log_lt (by norm_num) hpos]
    have : |(n : ℚ)| < 2 ^ 53 := by exact_mod_cast h
    exact_mod_cast this
  have hf : fexp64 (Int.log 2 |(n : ℚ)|) ≤ 0 := by
    unfold fexp64
    omega
  obtain ⟨k, hk⟩ := Int.eq_ofNat_of_zero_le (show 0 ≤ -fexp64 (Int.log 2 |(n : ℚ)|) by omega)
  refine rnd_of_grid one_lt_two' validExp_64 (n := n * 2 ^ k) ?_
  have : fexp64 (Int.log 2 |(n : ℚ)|) = -(k : Int) := by omega
  rw [this]
  push_cast
  rw [zpow_neg, zpow_natCast]
  field_simp

theorem ofQ_int (n : Int) (h : |n| < 2 ^ 53) : Dbl.ofQ (n : ℚ) = .fin n := by
  unfold Dbl.ofQ
  dsimp only
  rw [bin64_int n h]
  have hm : ((2 : ℚ) ^ 53) ≤ Dbl.maxQ := by decide +kernel
  have : |(n : ℚ)| < 2 ^ 53 := by exact_mod_cast h
  rw [abs_lt] at this
  rw [if_neg (by linarith), if_neg (by linarith)]

/-- **C90.** The documented optima are feasible and evaluate to exactly 0, in floating-point arithmetic and in every dimension: (0, ..., 0) for sphere and ellipsoid, (1, ..., 1) for Rosenbrock's function,
(3, 2) for Himmelblau's; and (0, ..., 0) for Rastrigin's if `cos( 0 )` is 1, `pi` is a number between 0 and 4 and the dimension is below 2^49. -/
theorem C90_optimum_exact [Libm] [Trig Dbl] (d : Nat) (hcos : Trig.cos (.fin 0) = (.fin 1 : Dbl)) (hpi : ∃ q, (Trig.pi : Dbl) = .fin q ∧ 0 ≤ q ∧ q ≤ 4) (hd : d < 2 ^ 49) :
    (∃ o, makeSphere d (.fin 0) (.fin 1) = .ok o ∧ o.info.isFeasible (List.replicate d (.fin 0)) = .ok true ∧ o.evaluate ⟨o.info, List.replicate d (.fin 0)⟩ = .ok (.fin 0)) ∧
    (∃ o, makeEllipsoid d (.fin 0) (.fin 1) = .ok o ∧ o.info.isFeasible (List.replicate d (.fin 0)) = .ok true ∧ o.evaluate ⟨o.info, List.replicate d (.fin 0)⟩ = .ok (.fin 0)) ∧
    (∃ o, makeHimmelblau = .ok o ∧ o.info.isFeasible [.fin 3, .fin 2] = .ok true ∧ o.evaluate ⟨o.info, [.fin 3, .fin 2]⟩ = .ok (.fin 0)) ∧
    (d ≠ 0 → ∃ o, makeRosenbrock d = .ok o ∧ o.info.isFeasible (List.replicate d (.fin 1)) = .ok true ∧ o.evaluate ⟨o.info, List.replicate d (.fin 1)⟩ = .ok (.fin 0)) ∧
    (∃ o, makeRastrigin d = .ok o ∧ o.info.isFeasible (List.replicate d (.fin 0)) = .ok true ∧ o.evaluate ⟨o.info, List.replicate d (.fin 0)⟩ = .ok (.fin 0)) := by
  obtain ⟨⟨a, ha, ha'⟩, ⟨b, hb, hb'⟩, ⟨c, hc, hc'⟩, ⟨e, he, he'⟩, -, ⟨f, hf, hf'⟩⟩ := C90_constructed d
  have hsq : ∀ x : Dbl, x = .fin 0 → (squared x : Dbl) = .fin 0 := by
    rintro _ rfl
    show Dbl.mul (.fin 0) (.fin 0) = _
    decide +kernel
  have hl0 : (lit 0 : Dbl) = .fin 0 := by
    show Dbl.ofQ 0 = _
    decide +kernel
  have hmul : ∀ q : ℚ, Dbl.mul (.fin q) (.fin 0) = .fin 0 := by
    intro q
    show Dbl.ofQ (q * 0) = _
    rw [mul_zero]
    decide +kernel
  refine ⟨⟨a, ha, uniform_feasible ha' (by decide) (by decide), ?_⟩, ⟨b, hb, uniform_feasible hb' (by decide) (by decide), ?_⟩, ⟨c, hc, ?_, ?_⟩,
    fun hd0 => ⟨e, he, uniform_feasible he' (by decide) (by decide), ?_⟩, ⟨f, hf, uniform_feasible hf' (by decide +kernel) (by decide +kernel), ?_⟩⟩
  · rw [ha'.1]
    show Res.ok (sphere _) = _
    unfold sphere
    rw [hl0]
    exact congrArg Res.ok (foldl_zero (fun x => (squared x : Dbl)) _ fun x hx => hsq x (List.eq_of_mem_replicate hx))
  · rw [hb'.1]
    show Res.ok (ellipsoid _) = _
    unfold ellipsoid
    rw [hl0]
    refine congrArg Res.ok (foldl_zero (fun x : Dbl × ℕ => (lit ((x.2 : ℚ) + 1) * squared x.1 : Dbl)) _ fun x hx => ?_)
    obtain ⟨h1, h2⟩ := List.mem_zipIdx' hx
    dsimp only at h1 h2
    rw [hsq x.1 (by rw [h2]; simp)]
    show Dbl.mul (Dbl.ofQ ((x.2 : ℚ) + 1)) (.fin 0) = _
    have : Dbl.ofQ ((x.2 : ℚ) + 1) = .fin ((x.2 : ℚ) + 1) := by
      have := ofQ_int ((x.2 : Int) + 1) (by
        rw [List.length_replicate] at h1
        rw [abs_of_nonneg (by omega)]
        have : (2 : Nat) ^ 49 = 562949953421312 := by norm_num
        have : (2 : Int) ^ 53 = 9007199254740992 := by norm_num
        omega)
      push_cast at this
      exact this
    rw [this]
    exact hmul _
  · obtain ⟨r, hr, hr'⟩ := C17_is_feasible c.info [.fin 3, .fin 2] (by rw [hc'.2.1]; rfl)
    have : r = true := hr'.2 (by
      intro k p y hp hy
      have hp' := hc'.2.2.2.2.2.2.2 k p hp
      have hmin : p.min = .fin (-5) := by rw [hp']
      have hmax : p.max = .fin 5 := by rw [hp']
      rw [hmin, hmax]
      have : y = .fin 3 ∨ y = .fin 2 := by
        have := List.mem_of_getElem? hy
        simpa using this
      rcases this with rfl | rfl <;> exact ⟨by decide, by decide⟩)
    rw [hr, this]
  · rw [hc'.1]
    show himmelblau [Dbl.fin 3, Dbl.fin 2] = _
    refine congrArg Res.ok ?_
    show Dbl.add (Dbl.mul (Dbl.sub (Dbl.add (Dbl.mul (.fin 3) (.fin 3)) (.fin 2)) (Dbl.ofQ 11)) (Dbl.sub (Dbl.add (Dbl.mul (.fin 3) (.fin 3)) (.fin 2)) (Dbl.ofQ 11)))
      (Dbl.mul (Dbl.sub (Dbl.add (.fin 3) (Dbl.mul (.fin 2) (.fin 2))) (Dbl.ofQ 7)) (Dbl.sub (Dbl.add (.fin 3) (Dbl.mul (.fin 2) (.fin 2))) (Dbl.ofQ 7))) = _
    decide +kernel
  · rw [he'.1]
    show rosenbrock (List.replicate d (Dbl.fin 1)) = _
    unfold rosenbrock
    rw [if_neg (by simpa using hd0), hl0]
    refine congrArg Res.ok (foldl_zero (fun x : Dbl × Dbl => (lit 100 * squared (x.2 - squared x.1) + squared (lit 1 - x.1) : Dbl)) _ fun x hx => ?_)
    have h1 := List.eq_of_mem_replicate (List.of_mem_zip hx).1
    have h2 := List.eq_of_mem_replicate (List.mem_of_mem_tail (List.of_mem_zip hx).2)
    rw [h1, h2]
    show Dbl.add (Dbl.mul (Dbl.ofQ 100) (Dbl.mul (Dbl.sub (.fin 1) (Dbl.mul (.fin 1) (.fin 1))) (Dbl.sub (.fin 1) (Dbl.mul (.fin 1) (.fin 1)))))
      (Dbl.mul (Dbl.sub (Dbl.ofQ 1) (.fin 1)) (Dbl.sub (Dbl.ofQ 1) (.fin 1))) = _
    decide +kernel
  · rw [hf'.1]
    show Res.ok (rastrigin _) = _
    unfold rastrigin
    obtain ⟨q, hq, hq0, hq4⟩ := hpi
    have hterm : (squared (.fin 0) - lit 10 * Trig.cos (lit 2 * Trig.pi * (.fin 0)) : Dbl) = .fin (-10) := by
      have h2 : (lit 2 * Trig.pi * (.fin 0) : Dbl) = .fin 0 := by
        show Dbl.mul (Dbl.mul (Dbl.ofQ 2) Trig.pi) (.fin 0) = _
        rw [hq, show Dbl.ofQ 2 = .fin 2 by decide +kernel]
        show Dbl.mul (Dbl.ofQ (2 * q)) (.fin 0) = _
        have b1 : 0 ≤ bin64 (2 * q) := by
          have := bin64_mono (show 0 ≤ 2 * q by linarith)
          rwa [bin64_zero] at this
        have b2 : bin64 (2 * q) ≤ 8 := by
          have := bin64_mono (show 2 * q ≤ 8 by linarith)
          rwa [show bin64 8 = 8 by decide +kernel] at this
        have hm : (8 : ℚ) ≤ Dbl.maxQ := by decide +kernel
        unfold Dbl.ofQ
        dsimp only
        rw [if_neg (by linarith), if_neg (by linarith)]
        exact hmul _
      rw [h2, hcos]
      show Dbl.sub (Dbl.mul (.fin 0) (.fin 0)) (Dbl.mul (Dbl.ofQ 10) (.fin 1)) = _
      decide +kernel
    have hint : ∀ n : Nat, n < 2 ^ 49 → Dbl.ofQ (10 * n) = .fin (10 * n) := by
      intro n hn
      have := ofQ_int (10 * (n : Int)) (by
        rw [abs_of_nonneg (by omega)]
        have : (2 : Nat) ^ 49 = 562949953421312 := by norm_num
        have : (2 : Int) ^ 53 = 9007199254740992 := by norm_num
        omega)
      push_cast at this
      exact this
    have hloop : ∀ n : Nat, n < 2 ^ 49 → (List.replicate n (Dbl.fin 0)).foldl (fun s x => s + (squared x - lit 10 * Trig.cos (lit 2 * Trig.pi * x))) (.fin (10 * n)) = .fin 0 := by
      intro n
      induction n with
      | zero => intro _; simp
      | succ n ih =>
        intro hn
        rw [List.replicate_succ, List.foldl_cons, hterm]
        have : (Dbl.fin (10 * ((n + 1 : Nat) : ℚ)) + .fin (-10) : Dbl) = .fin (10 * n) := by
          show Dbl.ofQ (10 * ((n + 1 : Nat) : ℚ) + -10) = _
          rw [← hint n (by omega)]
          congr 1
          push_cast
          ring
        rw [this]
        exact ih (by omega)
    have hstart : (lit 10 * lit (((List.replicate d (Dbl.fin 0)).length : ℕ) : ℚ) : Dbl) = .fin (10 * d) := by
      show Dbl.mul (Dbl.ofQ 10) (Dbl.ofQ _) = _
      rw [List.length_replicate]
      have h1 : Dbl.ofQ (d : ℚ) = .fin d := by
        have := ofQ_int (d : Int) (by
          rw [abs_of_nonneg (by omega)]
          have : (2 : Nat) ^ 49 = 562949953421312 := by norm_num
          have : (2 : Int) ^ 53 = 9007199254740992 := by norm_num
          omega)
        push_cast at this
        exact this
      rw [h1, show Dbl.ofQ 10 = .fin 10 by decide +kernel, ← hint d hd]
      rfl
    rw [hstart, hloop d hd]

/-- **C90 (finding).** In floating point the converse fails: far from the smallest numbers, but closer than 1e-162 to the optimum, squares underflow, and the sphere function is 0 there too. -/
theorem C90_underflow [Libm] : (Dbl.ofQ (1 / 10 ^ 200) ≠ .fin 0) ∧ sphere [Dbl.ofQ (1 / 10 ^ 200)] = .fin 0 := by
  constructor
  · decide +kernel
  · show Dbl.add (Dbl.ofQ 0) (Dbl.mul (Dbl.ofQ (1 / 10 ^ 200)) (Dbl.ofQ (1 / 10 ^ 200))) = _
    decide +kernel

/-- **C90.** A data objective with the default ranges can be constructed in every dimension; evaluating it at a point of another size throws, and at a point of its size is the mean squared error (C81). -/
theorem C90_data_objective [Libm] {X : Type} (dim : Nat) (model : List Dbl → X → Dbl) (data : List (X × Dbl)) :
    (∃ i, dataInfo dim = .ok i ∧ i.dim = dim ∧ NamesUnique i ∧ i.locked = [] ∧ ∀ p ∈ i.pars, p.isValid = true ∧ p.mean = .fin 0 ∧ p.min = .fin (-1000000000000) ∧ p.max = .fin 1000000000000) ∧
    (∀ p : SearchPoint, p.values.length ≠ dim → dataEvaluate dim model data p = .err) ∧
    ∀ p : SearchPoint, p.values.length = dim → dataEvaluate dim model data p = .ok (dataFitness (model p.values) data) := by
  have e0 : Dbl.ofQ 0 = .fin 0 := by decide +kernel
  have e1 : Dbl.ofQ (-10 ^ 12) = .fin (-1000000000000) := by decide +kernel
  have e2 : Dbl.ofQ (10 ^ 12) = .fin 1000000000000 := by decide +kernel
  refine ⟨?_, fun p hp => if_neg hp, fun p hp => if_pos hp⟩
  have hv : ParInfo.isValid ⟨[], .ofQ 0, .ofQ (1 / 10), .ofQ (-10 ^ 12), .ofQ (10 ^ 12)⟩ = true := by decide +kernel
  obtain ⟨i, h1, h2, h3, h4, h5⟩ := (C19_make dim (.ofQ 0) (.ofQ (1 / 10)) (.ofQ (-10 ^ 12)) (.ofQ (10 ^ 12))).2 hv
  refine ⟨i, ?_, h2, h3, h4, ?_⟩
  · unfold dataInfo makeObjectiveInfoVec
    rw [if_pos (by simp)]
    exact h1
  · intro p hp
    obtain ⟨k, hk, hp⟩ := List.getElem_of_mem hp
    rw [h5 k p (by rw [List.getElem?_eq_getElem hk, hp])]
    exact ⟨hv, e0, e1, e2⟩

end Spot
