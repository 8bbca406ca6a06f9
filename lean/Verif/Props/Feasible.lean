import Verif.Props.CmaTotal
import Verif.Props.CmaSample
import Verif.Props.Points

/-! # Evaluated points and the bounds (C16)

The optimizers sample within the bounds (C43, C56), then the search point rounds to 8 digits. So what holds for evaluated points is stated with the bounds as
the same rounding leaves them. -/

namespace Spot

/-- A bound with the 8 digits of a stored value; infinite bounds stay. -/
def bound8 : Dbl → Dbl
  | .fin q => rounded (.fin q)
  | b => b

/-- The evaluated point `x` is the 8-digit rounding of a sampled vector `y`, and every coordinate that was sampled as a finite number is within the bounds of its parameter
(at 8 digits). An infinite number is sampled only towards an infinite bound; NaN only if `nan` allows it. (`rounded` stores 0 for these.) -/
def EvaluatedWithin (nan : Prop) (info : ObjInfo) (x : Pt) : Prop :=
  ∃ y : List Dbl, y.length = info.dim ∧ x = y.map rounded ∧ ∀ (k : Nat) (p : ParInfo) (u : Dbl), info.pars[k]? = some p → y[k]? = some u →
    ((∃ q, u = .fin q) → Dbl.le (bound8 p.min) (rounded u) = true ∧ Dbl.le (rounded u) (bound8 p.max) = true) ∧
    (u = .pinf → p.max = .pinf) ∧ (u = .ninf → p.min = .ninf) ∧ (u = .nan → nan)

/-- Rounding keeps the order between a number and a bound. -/
theorem rounded_ge {m : Dbl} {q : ℚ} (hm : m ≠ .nan) (h : Dbl.lt (.fin q) m = false) : Dbl.le (bound8 m) (rounded (.fin q)) = true := by
  cases m with
  | fin a => exact C15_monotone a q (by simpa using h)
  | nan => exact absurd rfl hm
  | ninf => rfl
  | pinf => simp [Dbl.lt] at h

theorem rounded_le {m : Dbl} {q : ℚ} (hm : m ≠ .nan) (h : Dbl.lt m (.fin q) = false) : Dbl.le (rounded (.fin q)) (bound8 m) = true := by
  cases m with
  | fin a => exact C15_monotone q a (by simpa using h)
  | nan => exact absurd rfl hm
  | ninf => simp [Dbl.lt] at h
  | pinf => rfl

theorem evaluatedWithin_of_feasible {nan : Prop} {info : ObjInfo} (hb : ∀ p ∈ info.pars, p.min ≠ .nan ∧ p.max ≠ .nan) {y : List Dbl} (hl : y.length = info.dim)
    (hf : info.isFeasible y = .ok true) (hn : .nan ∈ y → nan) : EvaluatedWithin nan info (y.map rounded) := by
  obtain ⟨b, e, he⟩ := C17_is_feasible info y hl
  rw [hf] at e
  have hw := he.1 (by simpa using e.symm)
  refine ⟨y, hl, rfl, fun k p u hp hu => ?_⟩
  obtain ⟨h1, h2⟩ := hw k p u hp hu
  obtain ⟨hmin, hmax⟩ := hb p (List.mem_of_getElem? hp)
  refine ⟨?_, ?_, ?_, fun h => hn (h ▸ List.mem_of_getElem? hu)⟩
  · rintro ⟨q, rfl⟩
    exact ⟨rounded_ge hmin h2, rounded_le hmax h1⟩
  · rintro rfl
    cases hm : p.max with
    | nan => exact absurd hm hmax
    | pinf => rfl
    | _ => rw [hm] at h1; simp [Dbl.lt] at h1
  · rintro rfl
    cases hm : p.min with
    | nan => exact absurd hm hmin
    | ninf => rfl
    | _ => rw [hm] at h2; simp [Dbl.lt] at h2

theorem bounds_not_nan {info : ObjInfo} (hv : ∀ p ∈ info.pars, p.isValid = true) : ∀ p ∈ info.pars, p.min ≠ .nan ∧ p.max ≠ .nan := by
  intro p hp
  have := hv p hp
  constructor <;> intro h
  · simp [ParInfo.isValid, h] at this
  · simp [ParInfo.isValid, h] at this

/-- One step of MES or EVA, from any state. -/
theorem es_within [Libm] {R : Rng Dbl} (hR : R.NoNaN) (E : OptEnv) (info : ObjInfo) (hv : ∀ p ∈ info.pars, p.isValid = true) (c : EsCfg R info.dim)
    (hc : c.bounds = Bounds.ofInfo info) (F : Pt → Option Dbl) {t t' : EsOpt R info.dim} {pop : List Pt} (st : EsOpt.Internal E c F t pop t') :
    ∀ x ∈ pop, EvaluatedWithin False info x := by
  intro x hx
  have hp : ∃ e, samplePopulation R c.bounds c.alg.ofs.1 c.alg.ofs.2 c.lambda t.dist t.eng = (pop, e) := by
    cases st with
    | ok hp _ _ _ => exact ⟨_, hp⟩
    | failed hp _ => exact ⟨_, hp⟩
  obtain ⟨e', hp⟩ := hp
  have := (C43_population R hR info hv c.alg.ofs.1 c.alg.ofs.2 c.lambda t.dist t.eng).2 x (by rw [← hc, hp]; exact hx)
  obtain ⟨v, rfl, hl, hf, hn⟩ := this
  exact evaluatedWithin_of_feasible (bounds_not_nan hv) hl hf fun h => hn _ h rfl

/-- **C16.** MES and EVA: every point ever evaluated, in every run and whatever the objective returns, is within the bounds at 8 digits (random numbers are not NaN). -/
theorem C16_mes_eva [Libm] {R : Rng Dbl} (hR : R.NoNaN) (E : OptEnv) (info : ObjInfo) (hv : ∀ p ∈ info.pars, p.isValid = true) (c : EsCfg R info.dim)
    (hc : c.bounds = Bounds.ofInfo info) (F : Pt → Option Dbl) (e : R.Eng) {ps : List (List Pt)} {t : EsOpt R info.dim}
    (h : EsOpt.Runs E c F (EsOpt.make info e) ps t) : ∀ pop ∈ ps, ∀ x ∈ pop, EvaluatedWithin False info x := by
  induction h with
  | nil => simp
  | @snoc ps pop t t' h st ih =>
    intro pop' hpop x hx
    rw [List.mem_append, List.mem_singleton] at hpop
    rcases hpop with hpop | rfl
    · exact ih pop' hpop x hx
    exact es_within hR E info hv c hc F st x hx

/-- **C16.** CMA, with any boundary transformer and eigenvalue decomposition: every point ever evaluated, in every run and whatever the objective returns, is within the bounds at 8
digits, except for coordinates sampled as NaN. -/
theorem C16_cma [Libm] {G : GaussSrc Dbl} (E : OptEnv) (info : ObjInfo) (hv : ∀ p ∈ info.pars, p.isValid = true) (c : CmaCfg info.dim)
    (hc : c.bounds = Bounds.ofInfo info) (F : Pt → Option Dbl) (s : CmaOpt G info.dim) {ps : List (List Pt)} {t : CmaOpt G info.dim}
    (h : CmaOpt.Runs E c F s ps t) : ∀ pop ∈ ps, ∀ x ∈ pop, EvaluatedWithin True info x := by
  induction h with
  | nil => simp
  | @snoc ps pop t t' h st ih =>
    intro pop' hpop x hx
    rw [List.mem_append, List.mem_singleton] at hpop
    rcases hpop with hpop | rfl
    · exact ih pop' hpop x hx
    have hp : ∃ d xs, t.cma.sample c.tr c.bounds c.eig c.par = (d, xs) ∧ pop' = toPoints xs := by
      generalize hq : pop' = q at st
      cases st with
      | ok _ hp _ _ => exact ⟨_, _, hp, rfl⟩
      | failed _ hp _ => exact ⟨_, _, hp, rfl⟩
    obtain ⟨d, xs, hp, rfl⟩ := hp
    unfold toPoints at hx
    rw [List.mem_map] at hx
    obtain ⟨v, hv', rfl⟩ := hx
    obtain ⟨k, hk⟩ := List.getElem?_of_mem hv'
    have hb : ∀ i : Fin info.dim, Dbl.lt (info.pars.get i).max (info.pars.get i).min = false := by
      intro i
      have := hv _ (List.get_mem info.pars i)
      simp only [ParInfo.isValid, Bool.and_eq_true] at this
      exact le_imp_not_lt (by tauto)
    have := ((C56_feasible info hb c.tr c.eig c.par t.cma).2.1 k v (by rw [← hc, hp]; exact hk)).1
    exact evaluatedWithin_of_feasible (bounds_not_nan hv) (by simp) this fun _ => trivial

/-- **C16.** Between finite bounds of at most 8 digits nothing is left of the exceptions but NaN: each coordinate is within the bounds themselves. -/
theorem C16_short_bounds (nan : Prop) (info : ObjInfo) (x : Pt) (h : EvaluatedWithin nan info x) (k : Nat) (p : ParInfo) (v : Dbl) (hp : info.pars[k]? = some p)
    (hv : x[k]? = some v) (hmin : ∃ a, p.min = .fin a ∧ rounded (.fin a) = .fin a) (hmax : ∃ b, p.max = .fin b ∧ rounded (.fin b) = .fin b) :
    (Dbl.le p.min v = true ∧ Dbl.le v p.max = true) ∨ nan := by
  obtain ⟨y, -, rfl, hy⟩ := h
  rw [List.getElem?_map, Option.map_eq_some_iff] at hv
  obtain ⟨u, hu, rfl⟩ := hv
  obtain ⟨h1, h2, h3, h4⟩ := hy k p u hp hu
  obtain ⟨a, ha, ha'⟩ := hmin
  obtain ⟨b, hb, hb'⟩ := hmax
  cases u with
  | fin q => left; have := h1 ⟨q, rfl⟩; rw [ha, hb] at this ⊢; rwa [bound8, bound8, ha', hb'] at this
  | pinf => rw [hb] at h2; simpa using h2 rfl
  | ninf => rw [ha] at h3; simpa using h3 rfl
  | nan => exact .inr (h4 rfl)

/-- **C16.** How far a bound is from its 8 digits: at most a relative amount of 5.1e-8 (plus half the smallest subnormal). -/
theorem C16_bound_moves (b : ℚ) : ∃ r, bound8 (.fin b) = .fin r ∧ |r - b| ≤ |b| * (51 / 10 ^ 9) + 2 ^ (-1075 : ℤ) := C15_accurate b

/-- **C16 (finding).** An infinite sample is stored as 0, even where 0 is outside of the bounds: a parameter with bounds from 5 to infinity. -/
theorem C16_infinite_sample : ∃ p : ParInfo, p.isValid = true ∧ p.isWithinRange .pinf = true ∧ Dbl.lt (rounded .pinf) p.min = true :=
  ⟨⟨"a".toList, .fin 6, .fin 1, .fin 5, .pinf⟩, by decide +kernel, by decide +kernel, by decide +kernel⟩

/-- The infos of the examples: bounds that 8 digits express, and one that is rounded up. -/
def boundsInfo : ObjInfo := { minimize := true, pars := [⟨"a".toList, .fin 0, .fin 1, .fin (-1), .fin 5⟩, ⟨"b".toList, .fin 0, .fin 1, .ninf, .fin (1 + 1 / 2 ^ 24)⟩] }

example : (∀ p ∈ boundsInfo.pars, p.isValid = true) ∧ bound8 (.fin (-1)) = .fin (-1) ∧ bound8 (.fin 5) = .fin 5 ∧ Dbl.lt (.fin (1 + 1 / 2 ^ 24)) (bound8 (.fin (1 + 1 / 2 ^ 24))) = true := by
  decide +kernel

-- runs of every length exist for this objective, with MES and EVA (`C72_runs`)
example [Libm] {R : Rng Dbl} (E : OptEnv) (alg : EsAlg Dbl) (F : Pt → Option Dbl) (e : R.Eng) (k : Nat) :
    ∃ ps t, ps.length = k ∧ EsOpt.Runs E ⟨alg, .fin 0, 10, 5, Bounds.ofInfo boundsInfo⟩ F (EsOpt.make boundsInfo e) ps t :=
  C72_runs E boundsInfo ⟨alg, .fin 0, 10, 5, Bounds.ofInfo boundsInfo⟩ (by simp) (by simp) (by simp) F e k

-- and with CMA (`C75_constructor`, `C75_runs`)
example [Libm] {G : GaussSrc Dbl} (E : OptEnv) (eig : Eig Dbl boundsInfo.dim) (F : Pt → Option Dbl) (rng : G.St) (k : Nat) : ∃ p s ps t, ps.length = k ∧
    CmaOpt.make boundsInfo 6 (.fin 1) rng = .ok (p, s) ∧ CmaOpt.Runs E ⟨p, Bounds.ofInfo boundsInfo, eig, id⟩ F s ps t := by
  obtain ⟨p, s, h, hl⟩ := (C75_constructor (G := G) boundsInfo 6 (.fin 1) rng (by decide)).1 (by decide +kernel)
  obtain ⟨ps, t, hk, ht⟩ := C75_runs E boundsInfo (by decide) ⟨p, Bounds.ofInfo boundsInfo, eig, id⟩ (by show 1 ≤ p.lambda; omega) F 6 (.fin 1) rng s h k
  exact ⟨p, s, ps, t, hk, h, ht⟩

end Spot
