import Verif.Model.FileReporter
import Verif.Props.Best
import Verif.Props.Points
import Verif.Props.Start

/-!
# C107: vectors of other sizes and objectives without parameters

What the calls do where nothing is documented: which of them throw, which read out of bounds, which ignore what is superfluous. Also C59: the numbers in file names.
-/

namespace Spot

/-- **C107.** An optimizer for an objective without parameters throws from `step` and `run`, always, and stays as it was: no evaluation, no callback. -/
theorem C107_no_parameters (E : OptEnv) (internal : Opt → Opt × Res Bool) (env : Opt → In) (n : Nat) (s : Opt) (h : s.vis.info.pars = []) :
    s.step E internal = (s, .err) ∧ s.run E env n = (s, .err) := by
  have hd : s.vis.info.dim = 0 := by unfold ObjInfo.dim; rw [h]; rfl
  unfold Opt.step Opt.run
  rw [if_pos hd, if_pos hd]
  exact ⟨rfl, rfl⟩

/-- **C107.** The calls that assert the size of a vector: right sizes give a point with these values (at 8 digits), or an info with these means and standard deviations and everything
else unchanged; with any other size the assertion fails. -/
theorem C107_asserted (i : ObjInfo) (s : SearchPoint) (v w : List Dbl) :
    (v.length = i.pars.length → SearchPoint.ofValues i v = .ok ⟨i, v.map rounded⟩) ∧ (v.length ≠ i.pars.length → SearchPoint.ofValues i v = .ub) ∧
    (v.length = s.values.length → s.setValues v = .ok ⟨s.info, v.map rounded⟩) ∧ (v.length ≠ s.values.length → s.setValues v = .ub) ∧
    ((v.length ≠ i.pars.length ∨ w.length ≠ i.pars.length) → (i.setMeanStd v w).2 = .ub) ∧
    (v.length = i.pars.length → w.length = i.pars.length → ∃ j, i.setMeanStd v w = (j, .ok ()) ∧ j.pars.map ParInfo.mean = v ∧ j.pars.map ParInfo.std = w ∧
      j.pars.map (fun p => (p.name, p.min, p.max)) = i.pars.map (fun p => (p.name, p.min, p.max)) ∧ j.locked = i.locked ∧ j.minimize = i.minimize) := by
  refine ⟨fun h => ?_, fun h => ?_, fun h => ?_, fun h => ?_, fun h => ?_, fun h1 h2 => ?_⟩
  · unfold SearchPoint.ofValues ObjInfo.dim; rw [if_pos h.symm]
  · unfold SearchPoint.ofValues ObjInfo.dim; rw [if_neg (fun hh => h hh.symm)]
  · unfold SearchPoint.setValues; rw [if_pos h.symm]
  · unfold SearchPoint.setValues; rw [if_neg (fun hh => h hh.symm)]
  · unfold ObjInfo.setMeanStd ObjInfo.dim; rw [if_neg (by tauto)]
  · unfold ObjInfo.setMeanStd ObjInfo.dim
    rw [if_pos ⟨h1, h2⟩]
    refine ⟨_, rfl, ?_, ?_, ?_, rfl, rfl⟩
    · dsimp only
      generalize i.pars = ps at h1 h2
      induction ps generalizing v w with
      | nil => cases v <;> simp_all [ObjInfo.zipMeanStd]
      | cons p ps ih =>
        cases v with
        | nil => simp at h1
        | cons a v => cases w with
          | nil => simp at h2
          | cons b w => simp [ObjInfo.zipMeanStd, ih v w (by simpa using h1) (by simpa using h2)]
    · dsimp only
      generalize i.pars = ps at h1 h2
      induction ps generalizing v w with
      | nil => cases w <;> simp_all [ObjInfo.zipMeanStd]
      | cons p ps ih =>
        cases v with
        | nil => simp at h1
        | cons a v => cases w with
          | nil => simp at h2
          | cons b w => simp [ObjInfo.zipMeanStd, ih v w (by simpa using h1) (by simpa using h2)]
    · dsimp only
      generalize i.pars = ps at h1 h2
      induction ps generalizing v w with
      | nil => cases v <;> simp [ObjInfo.zipMeanStd]
      | cons p ps ih =>
        cases v with
        | nil => simp at h1
        | cons a v => cases w with
          | nil => simp at h2
          | cons b w => simp only [ObjInfo.zipMeanStd, List.map_cons, ih v w (by simpa using h1) (by simpa using h2)]

theorem feasibleLoop_take : ∀ (ps : List ParInfo) (v : List Dbl), ps.length ≤ v.length → ObjInfo.feasibleLoop ps v = ObjInfo.feasibleLoop ps (v.take ps.length)
  | [], v, _ => by cases v <;> rfl
  | p :: ps, [], h => by simp at h
  | p :: ps, a :: v, h => by
    simp only [ObjInfo.feasibleLoop, List.length_cons, List.take_succ_cons]
    rw [feasibleLoop_take ps v (by simpa using h)]

theorem clampLoop_take : ∀ (ps : List ParInfo) (v : List Dbl), ps.length ≤ v.length → ∃ w, ObjInfo.clampLoop ps (v.take ps.length) = .ok w ∧ ObjInfo.clampLoop ps v = .ok (w ++ v.drop ps.length)
  | [], v, _ => ⟨[], by simp [ObjInfo.clampLoop], by simp [ObjInfo.clampLoop]⟩
  | p :: ps, [], h => by simp at h
  | p :: ps, a :: v, h => by
    obtain ⟨w, h1, h2⟩ := clampLoop_take ps v (by simpa using h)
    exact ⟨ObjInfo.clamp1 p a :: w, by simp [ObjInfo.clampLoop, h1], by simp [ObjInfo.clampLoop, h2]⟩

theorem clampLoop_short : ∀ (ps : List ParInfo) (v : List Dbl), v.length < ps.length → ObjInfo.clampLoop ps v = .ub
  | [], v, h => by simp at h
  | p :: ps, [], _ => rfl
  | p :: ps, a :: v, h => by simp [ObjInfo.clampLoop, clampLoop_short ps v (by simpa using h)]

/-- **C107.** `is_feasible` and `clamp` do not check the size. They ignore values after the last parameter, which `clamp` leaves as they are. If there are too few, `clamp` reads and writes out of
bounds; `is_feasible` too, unless one of those present is out of its bounds. -/
theorem C107_unchecked (i : ObjInfo) (v : List Dbl) :
    (i.pars.length ≤ v.length → i.isFeasible v = i.isFeasible (v.take i.pars.length) ∧ ∃ w, i.clamp (v.take i.pars.length) = .ok w ∧ i.clamp v = .ok (w ++ v.drop i.pars.length)) ∧
    (v.length < i.pars.length → i.clamp v = .ub ∧
      i.isFeasible v = if (i.pars.zip v).any (fun x => Dbl.lt x.1.max x.2 || Dbl.lt x.2 x.1.min) then .ok false else .ub) := by
  refine ⟨fun h => ⟨feasibleLoop_take _ _ h, clampLoop_take _ _ h⟩, fun h => ⟨clampLoop_short _ _ h, ?_⟩⟩
  unfold ObjInfo.isFeasible
  generalize i.pars = ps at h
  induction ps generalizing v with
  | nil => simp at h
  | cons p ps ih =>
    cases v with
    | nil => rfl
    | cons a v =>
      have hz : ((p :: ps).zip (a :: v)).any (fun x => Dbl.lt x.1.max x.2 || Dbl.lt x.2 x.1.min) =
          ((Dbl.lt p.max a || Dbl.lt a p.min) || (ps.zip v).any (fun x => Dbl.lt x.1.max x.2 || Dbl.lt x.2 x.1.min)) := rfl
      by_cases hc : (Dbl.lt p.max a || Dbl.lt a p.min) = true
      · have h1 : ((p :: ps).zip (a :: v)).any (fun x => Dbl.lt x.1.max x.2 || Dbl.lt x.2 x.1.min) = true := by rw [hz, hc]; rfl
        rw [if_pos h1]
        unfold ObjInfo.feasibleLoop
        exact if_pos hc
      · rw [Bool.eq_false_iff.mpr hc, Bool.false_or] at hz
        rw [hz, ← ih v (by simpa using h)]
        conv_lhs => unfold ObjInfo.feasibleLoop
        exact if_neg hc

/-- A vector with one value too many is clamped and its last value kept; one value too few is not read if the first one is out of bounds. -/
example : (ObjInfo.clamp { minimize := true, pars := [⟨"a".toList, .fin 0, .fin 1, .fin 0, .fin 1⟩] } [.fin 7, .fin 9] = .ok [.fin 1, .fin 9]) ∧
    (ObjInfo.isFeasible { minimize := true, pars := [⟨"a".toList, .fin 0, .fin 1, .fin 0, .fin 1⟩, ⟨"b".toList, .fin 0, .fin 1, .fin 0, .fin 1⟩] } [.fin 7] = .ok false) ∧
    ObjInfo.isFeasible { minimize := true, pars := [⟨"a".toList, .fin 0, .fin 1, .fin 0, .fin 1⟩, ⟨"b".toList, .fin 0, .fin 1, .fin 0, .fin 1⟩] } [.fin 1] = .ub := by
  decide +kernel

/-- **C107.** Without options (which a program cannot reach with scoped options only, C11) a request for a parameter by node fails an assertion, before anything is registered. -/
theorem C107_no_options {σ : Type} (B : Backend σ) (env : Env) (io : IOState) (s : σ) (n : Str) (pn : PNode) (h : io.options = []) : getNode B env io s n pn = (s, .ub) := by
  unfold getNode IOState.opts
  rw [h]

/-! ## C59: the numbers in the names of par files -/

/-- **C59.** The median and the best fitness in the name of a par file are limited to +-999999.999 (as a double): in between they are the fitnesses themselves. -/
theorem C59_name_limits : ∃ m : ℚ, Dbl.ofQ (999999999 / 1000) = .fin m ∧ |m - 999999999 / 1000| ≤ 1 / 10 ^ 10 ∧ ∀ v : Dbl,
    (v = .nan → repClamp v = .nan) ∧ (v = .pinf → repClamp v = .fin m) ∧ (v = .ninf → repClamp v = .fin (-m)) ∧
    ∀ q, v = .fin q → repClamp v = .fin (max (-m) (min m q)) := by
  have h1 : Dbl.ofQ (999999999 / 1000) = .fin (8589934583410065 / 8589934592) := by decide +kernel
  have h2 : Dbl.ofQ (-999999999 / 1000) = .fin (-(8589934583410065 / 8589934592)) := by decide +kernel
  refine ⟨_, h1, by norm_num [abs_le], fun v => ?_⟩
  unfold repClamp
  rw [h1, h2]
  generalize hm : (8589934583410065 / 8589934592 : ℚ) = m
  have hm0 : 0 < m := by rw [← hm]; norm_num
  refine ⟨fun h => ?_, fun h => ?_, fun h => ?_, fun q h => ?_⟩
  · subst h; simp [Dbl.lt]
  · subst h; simp [Dbl.lt]
  · subst h; simp [Dbl.lt]
  · subst h
    by_cases h3 : q < -m
    · simp [Dbl.lt, h3, max_eq_left (le_of_lt h3 |>.trans' (min_le_right m q))]
    · by_cases h4 : m < q
      · simp [Dbl.lt, h3, h4, min_eq_left h4.le, max_eq_right (by linarith : -m ≤ m)]
      · simp [Dbl.lt, h3, h4, min_eq_right (_root_.not_lt.mp h4), max_eq_right (_root_.not_lt.mp h3)]

/-! ## C74: the defaults -/

/-- **C74.** What MES and EVA do if no options are given, exact arithmetic, for selected individuals `sel`: the offset of an individual along the momentum has mean and standard deviation 1
(see `C74_offspring`), and all rates are 0.2. -/
theorem C74_default_options {n : Nat} (eps : ℝ) (mu : Int) (s : Es ℝ n) (sel : List (Fin n → ℝ)) (j : Fin n) :
    ((EsAlg.mes (MesOpts.default : MesOpts ℝ)).ofs = (1, 1) ∧ (EsAlg.eva (EvaOpts.default : EvaOpts ℝ)).ofs = (1, 1)) ∧
    (let t := mesUpdateWith eps MesOpts.default mu s sel
     t.mom j = 4 / 5 * s.mom j + 1 / 5 * (selMean sel mu j - s.mean j) ∧ t.mean j = s.mean j + 1 / 5 * t.mom j ∧ t.var j = 4 / 5 * s.var j + 1 / 5 * selVar eps s sel mu j) ∧
    (let t := evaUpdateWith eps EvaOpts.default mu s sel
     t.mean j = 4 / 5 * s.mean j + 1 / 5 * selMean sel mu j ∧ t.mom j = 4 / 5 * s.mom j + 1 / 5 * (selMean sel mu j - s.mean j) ∧
       t.var j = 4 / 5 * s.var j + 1 / 5 * selVar eps s sel mu j) := by
  have hl : (Arith.lt (lit 0) (MesOpts.default : MesOpts ℝ).momSigma) = true := by
    simp only [MesOpts.default, lit_real, lt_real]; norm_num
  refine ⟨⟨?_, ?_⟩, ?_, ?_⟩
  · simp only [EsAlg.ofs, MesOpts.default, lit_real]; norm_num
  · simp only [EsAlg.ofs, EvaOpts.default, lit_real]; norm_num
  · unfold mesUpdateWith
    rw [if_pos hl]
    simp only [MesOpts.default, upd, lit_real]
    refine ⟨?_, ?_, ?_⟩ <;> push_cast <;> ring
  · unfold evaUpdateWith
    simp only [EvaOpts.default, upd, lit_real]
    refine ⟨?_, ?_, ?_⟩ <;> push_cast <;> ring

end Spot
