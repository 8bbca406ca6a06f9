import Verif.Model.Restart
import Verif.Props.Start
import Verif.Props.EsTotal
import Verif.Props.Points
import Verif.Props.Boundary

/-! # C86: restarting from the updated objective info; C87: the state columns -/

namespace Spot

theorem setMeanStd_get {i j : ObjInfo} {n : Nat} {m s : Fin n → Dbl} (hn : i.dim = n) (h : i.setMeanStd (List.ofFn m) (List.ofFn s) = (j, .ok ())) :
    j.dim = n ∧ ∀ (k : Fin j.dim) (hk : (k : Nat) < n), (j.pars.get k).mean = m ⟨k, hk⟩ ∧ (j.pars.get k).std = s ⟨k, hk⟩ := by
  obtain ⟨j', h1, h2, -, -, -, -, h3, h4⟩ := C65_set_mean_std i (List.ofFn m) (List.ofFn s) (by simp [hn]) (by simp [hn])
  rw [h] at h1
  have hj : j = j' := congrArg Prod.fst h1
  subst hj
  have hd : j.dim = n := by
    have := congrArg List.length h3
    simpa [ObjInfo.dim] using this
  refine ⟨hd, fun k hk => ?_⟩
  have e1 : (j.pars.map ParInfo.mean)[(k : Nat)]'(by simp only [List.length_map]; exact k.2) = (List.ofFn m)[(k : Nat)]'(by simp [hk]) := by simp only [h3]
  have e2 : (j.pars.map ParInfo.std)[(k : Nat)]'(by simp only [List.length_map]; exact k.2) = (List.ofFn s)[(k : Nat)]'(by simp [hk]) := by simp only [h4]
  simp only [List.getElem_map, List.getElem_ofFn] at e1 e2
  exact ⟨e1, e2⟩

/-- **C86.** After any run of MES or EVA, `make_updated_objective_info` succeeds, keeps the parameters with their names and bounds, and an optimizer constructed from
it starts with exactly the mean of the old one (floating point), with the squares of its `current_std` as variances, and without momentum. -/
theorem C86_es_restart [Libm] {R : Rng Dbl} (E : OptEnv) (info : ObjInfo) (c : EsCfg R info.dim) (F : Pt → Option Dbl) (e e' : R.Eng) {ps : List (List Pt)}
    {t : EsOpt R info.dim} (h : EsOpt.Runs E c F (EsOpt.make info e) ps t) :
    ∃ j, t.updatedInfo = (j, .ok ()) ∧ j.pars.map frame = info.pars.map frame ∧ j.minimize = info.minimize ∧ j.dim = info.dim ∧
      ∀ (k : Fin j.dim) (hk : (k : Nat) < info.dim), (EsOpt.make j e').dist.mean k = t.dist.mean ⟨k, hk⟩ ∧
        (EsOpt.make j e').dist.var k = Dbl.mul (t.dist.std ⟨k, hk⟩) (t.dist.std ⟨k, hk⟩) ∧ (EsOpt.make j e').dist.mom k = .fin 0 := by
  have hw : t.opt.vis.WF info 0 := by
    refine runs_WF E info c F ?_ h
    show ((Opt.init info).addCond _).vis.WF info 0
    exact new_WF info 0
  obtain ⟨j, h1, h2, -, h4, -⟩ := C65_set_mean_std info (List.ofFn t.dist.mean) (List.ofFn t.dist.std) (by simp) (by simp)
  obtain ⟨g1, g2⟩ := setMeanStd_get (n := info.dim) rfl h1
  refine ⟨j, ?_, h2, h4, g1, fun k hk => ?_⟩
  · unfold EsOpt.updatedInfo
    rw [hw.info_eq]
    exact h1
  · obtain ⟨a1, a2, a3⟩ := C74_starts_at_info (R := R) j e' k
    rw [a1, a2, (g2 k hk).1, (g2 k hk).2]
    exact ⟨rfl, rfl, a3⟩

/-- **C86.** In exact arithmetic the variances are those of the old optimizer as well, if they are not negative (C44): nothing but the momentum is lost. -/
theorem C86_es_exact {n : Nat} (s : Es ℝ n) (h : ∀ i, 0 ≤ s.var i) : Es.init s.mean s.std = { s with mom := fun _ => 0 } := by
  unfold Es.init Es.std
  simp only [squared_real, sqrt_real, lit_real, Rat.cast_zero, Es.mk.injEq, true_and, and_true]
  funext i
  exact Real.sq_sqrt (h i)

/-- **C86.** After any run of CMA-ES, `make_updated_objective_info` succeeds, keeps names and bounds, and an optimizer constructed from it starts with the mean of the old one as
transformed by the boundary transformer (floating point). -/
theorem C86_cma_restart [Libm] {G : GaussSrc Dbl} (E : OptEnv) (info : ObjInfo) (c : CmaCfg info.dim) (F : Pt → Option Dbl) (opt opt' : Int) (modulo modulo' : Dbl) (rng rng' : G.St)
    {p : CmaPar Dbl} {s t : CmaOpt G info.dim} (hs : CmaOpt.make info opt modulo rng = .ok (p, s)) {ps : List (List Pt)} (h : CmaOpt.Runs E c F s ps t) :
    ∃ j, t.updatedInfo c = (j, .ok ()) ∧ j.pars.map frame = info.pars.map frame ∧ j.minimize = info.minimize ∧ j.dim = info.dim ∧
      ∀ p' (s' : CmaOpt G j.dim), CmaOpt.make j opt' modulo' rng' = .ok (p', s') →
        ∀ (k : Fin j.dim) (hk : (k : Nat) < info.dim), s'.cma.mean k = c.tr t.cma.mean ⟨k, hk⟩ := by
  have hw : t.opt.vis.WF info 0 := by
    refine cma_runs_WF E info c F ?_ h
    rw [(make_ok hs).1]
    show ((Opt.init info).addCond _).vis.WF info 0
    exact new_WF info 0
  obtain ⟨j, h1, h2, -, h4, -⟩ := C65_set_mean_std info (List.ofFn (c.tr t.cma.mean)) (List.ofFn t.cma.std) (by simp) (by simp)
  obtain ⟨g1, g2⟩ := setMeanStd_get (n := info.dim) rfl h1
  refine ⟨j, ?_, h2, h4, g1, fun p' s' hs' k hk => ?_⟩
  · unfold CmaOpt.updatedInfo
    rw [hw.info_eq]
    exact h1
  · rw [C74_cma_mean j opt' modulo' rng' p' s' hs' k, (g2 k hk).1]

/-- **C86.** In exact arithmetic a CMA optimizer started from mean and `current_std` of another (step size and variances positive, C53 and C54) has the same mean and `current_std`,
and no correlations. -/
theorem C86_cma_exact {n : Nat} (hn : 0 < n) {G G' : GaussSrc ℝ} (s : Cma G n) (hsig : 0 < s.sigma) (hC : ∀ i, 0 < s.C i i) (p : CmaPar ℝ) (e : G'.St) (i : Fin n) :
    (Cma.init p s.mean s.std e : Cma G' n).mean i = s.mean i ∧ (Cma.init p s.mean s.std e : Cma G' n).std i = s.std i ∧
    ∀ j, i ≠ j → (Cma.init p s.mean s.std e : Cma G' n).C i j = 0 := by
  have hpos : ∀ i, 0 < s.std i := fun i => mul_pos hsig (Real.sqrt_pos.2 (hC i))
  obtain ⟨h1, h2, h3⟩ := C74_cma_std (G := G') p s.mean s.std e (fun i => (hpos i).le) ⟨⟨0, hn⟩, hpos _⟩ i
  exact ⟨h2, h1, h3⟩

/-- **C86 (finding).** With the boundary transformer of CMA-ES a restart moves a mean close to a bound away from it: the new optimizer starts at the transformed mean `y` and
transforms it again, into `z`. If `y` is within the boundary layer at the lower bound, `z` is `(lb + al - y)^2 / (4 al)` larger; at the upper bound that much smaller;
in between it is `y`. -/
theorem C86_transformed_restart {b : ℝ × ℝ} (hb : b.1 < b.2) {y z : ℝ} (h1 : b.1 ≤ y) (h2 : y ≤ b.2) (hz : Transformed b y z) :
    let al := min ((b.2 - b.1) / 2) ((1 + |b.1|) / 20)
    let au := min ((b.2 - b.1) / 2) ((1 + |b.2|) / 20)
    (y < b.1 + al → z = y + (b.1 + al - y) ^ 2 / (4 * al) ∧ y < z) ∧ (b.2 - au < y → z = y - (y - (b.2 - au)) ^ 2 / (4 * au) ∧ z < y) ∧
    (b.1 + al ≤ y → y ≤ b.2 - au → z = y) := by
  intro al au
  have hal : 0 < al := by
    have := abs_nonneg b.1
    exact lt_min (by linarith) (by positivity)
  have hau : 0 < au := by
    have := abs_nonneg b.2
    exact lt_min (by linarith) (by positivity)
  have hal2 : al ≤ (b.2 - b.1) / 2 := min_le_left _ _
  have hau2 : au ≤ (b.2 - b.1) / 2 := min_le_left _ _
  obtain ⟨u, hu, hzu⟩ := hz
  have hy : Reflected (b.1 - al) (b.2 + au) y y := ⟨⟨by linarith, by linarith⟩, 0, .inl (by simp)⟩
  have huy : u = y := hu.unique (by linarith) hy
  subst huy
  refine ⟨fun h => ?_, fun h => ?_, fun h h' => ?_⟩
  · have e : z = u + (b.1 + al - u) ^ 2 / (4 * al) := by
      rw [hzu, if_pos h]
      show b.1 + (u - (b.1 - al)) ^ 2 / (4 * al) = _
      field_simp
      ring
    refine ⟨e, ?_⟩
    have : 0 < (b.1 + al - u) ^ 2 / (4 * al) := by
      have : 0 < b.1 + al - u := by linarith
      positivity
    linarith
  · have e : z = u - (u - (b.2 - au)) ^ 2 / (4 * au) := by
      rw [hzu, if_neg (by show ¬ u < b.1 + al; linarith), if_pos h]
      show b.2 - (b.2 + au - u) ^ 2 / (4 * au) = _
      field_simp
      ring
    refine ⟨e, ?_⟩
    have : 0 < (u - (b.2 - au)) ^ 2 / (4 * au) := by
      have : 0 < u - (b.2 - au) := by linarith
      positivity
    linarith
  · rw [hzu, if_neg (not_lt.2 h), if_neg (not_lt.2 h')]

/-- Bounds 0 and 1: a mean at 0 is moved to 1/80 by the restart. -/
example (z : ℝ) (hz : Transformed (0, 1) 0 z) : z = 1 / 80 := by
  have := ((C86_transformed_restart (b := (0, 1)) (by norm_num) (by norm_num) (by norm_num) hz).1 (by rw [example_lo]; norm_num)).1
  rw [this]
  simp only [example_lo]
  norm_num

/-! ## C87 -/

theorem stateLabels_get (third : Str) : ∀ (ps : List ParInfo) (i : Nat) (p : ParInfo), ps[i]? = some p →
    (stateLabels third ps)[3 * i]? = some (p.name ++ ".mean".toList) ∧ (stateLabels third ps)[3 * i + 1]? = some (p.name ++ ".std".toList) ∧
    (stateLabels third ps)[3 * i + 2]? = some (p.name ++ third)
  | [], i, p, h => by simp at h
  | q :: ps, 0, p, h => by
    simp only [List.getElem?_cons_zero, Option.some.injEq] at h
    subst h
    simp [stateLabels]
  | q :: ps, i + 1, p, h => by
    have := stateLabels_get third ps i p (by simpa using h)
    rw [show 3 * (i + 1) = 3 * i + 1 + 1 + 1 by ring]
    simpa [stateLabels, add_assoc] using this

theorem stateValues_get {K : Type} [Arith K] {n : Nat} (s : Es K n) : ∀ (is : List (Fin n)) (i : Nat) (k : Fin n), is[i]? = some k →
    (stateValues s is)[3 * i]? = some (s.mean k) ∧ (stateValues s is)[3 * i + 1]? = some (s.std k) ∧ (stateValues s is)[3 * i + 2]? = some (s.mom k)
  | [], i, p, h => by simp at h
  | q :: ps, 0, p, h => by
    simp only [List.getElem?_cons_zero, Option.some.injEq] at h
    subst h
    exact ⟨rfl, rfl, rfl⟩
  | q :: ps, i + 1, p, h => by
    have := stateValues_get s ps i p (by simpa using h)
    rw [show 3 * (i + 1) = 3 * i + 1 + 1 + 1 by ring]
    simpa [stateValues, add_assoc] using this

theorem stateLabels_length (third : Str) (ps : List ParInfo) : (stateLabels third ps).length = 3 * ps.length := by
  induction ps with
  | nil => rfl
  | cons p ps ih => simp only [stateLabels, List.length_cons, ih]; omega

theorem stateValues_length {K : Type} [Arith K] {n : Nat} (s : Es K n) (is : List (Fin n)) : (stateValues s is).length = 3 * is.length := by
  induction is with
  | nil => rfl
  | cons p ps ih => simp only [stateValues, List.length_cons, ih]; omega

/-- **C87.** `optimizer_state_labels` and `optimizer_state_values` of MES and EVA have the same number of entries, three for each parameter, and
name `i` belongs to value `i`: mean, standard deviation and momentum of the parameter in the label. -/
theorem C87_labels_match {K : Type} [Arith K] (third : Str) (info : ObjInfo) (s : Es K info.dim) :
    (stateLabels third info.pars).length = 3 * info.dim ∧ (stateValues s (List.finRange info.dim)).length = 3 * info.dim ∧
    ∀ k : Fin info.dim, (stateLabels third info.pars)[3 * (k : Nat)]? = some ((info.pars.get k).name ++ ".mean".toList) ∧
      (stateLabels third info.pars)[3 * (k : Nat) + 1]? = some ((info.pars.get k).name ++ ".std".toList) ∧
      (stateLabels third info.pars)[3 * (k : Nat) + 2]? = some ((info.pars.get k).name ++ third) ∧
      (stateValues s (List.finRange info.dim))[3 * (k : Nat)]? = some (s.mean k) ∧
      (stateValues s (List.finRange info.dim))[3 * (k : Nat) + 1]? = some (s.std k) ∧
      (stateValues s (List.finRange info.dim))[3 * (k : Nat) + 2]? = some (s.mom k) := by
  refine ⟨stateLabels_length _ _, by rw [stateValues_length, List.length_finRange], fun k => ?_⟩
  obtain ⟨a1, a2, a3⟩ := stateLabels_get third info.pars k (info.pars.get k) (by rw [List.getElem?_eq_getElem k.2]; rfl)
  obtain ⟨b1, b2, b3⟩ := stateValues_get s (List.finRange info.dim) k k (by rw [List.getElem?_eq_getElem (by simp)]; simp)
  exact ⟨a1, a2, a3, b1, b2, b3⟩

/-- **C87.** If the names of the parameters are distinct (C04), no two labels are equal. -/
theorem C87_labels_distinct (third : Str) (h : third = ".mom".toList ∨ third = ".ev".toList) (ps : List ParInfo) (hn : (ps.map ParInfo.name).Nodup) :
    (stateLabels third ps).Nodup := by
  have hsuf : ∀ {a b x y : Str} {c d : Char}, a ++ (x ++ [c]) = b ++ (y ++ [d]) → c = d := by
    intro a b x y c d he
    have := congrArg List.getLast? he
    simpa using this
  have hm : ".mean".toList = ".mea".toList ++ ['n'] := rfl
  have hs : ".std".toList = ".st".toList ++ ['d'] := rfl
  have ht : ∃ x c, third = x ++ [c] ∧ c ≠ 'n' ∧ c ≠ 'd' := by
    rcases h with rfl | rfl
    · exact ⟨".mo".toList, 'm', rfl, by decide, by decide⟩
    · exact ⟨".e".toList, 'v', rfl, by decide, by decide⟩
  obtain ⟨x, c, hx, hc1, hc2⟩ := ht
  have hmem : ∀ (ps : List ParInfo) (l : Str), l ∈ stateLabels third ps → ∃ p ∈ ps, l = p.name ++ ".mean".toList ∨ l = p.name ++ ".std".toList ∨ l = p.name ++ third := by
    intro ps
    induction ps with
    | nil => intro l hl; cases hl
    | cons p ps ih =>
      intro l hl
      simp only [stateLabels, List.mem_cons] at hl
      rcases hl with hl | hl | hl | hl
      · exact ⟨p, by simp, .inl hl⟩
      · exact ⟨p, by simp, .inr (.inl hl)⟩
      · exact ⟨p, by simp, .inr (.inr hl)⟩
      · obtain ⟨q, hq, hl⟩ := ih l hl
        exact ⟨q, by simp [hq], hl⟩
  induction ps with
  | nil => exact List.nodup_nil
  | cons p ps ih =>
    rw [List.map_cons, List.nodup_cons] at hn
    have hname : ∀ q ∈ ps, p.name ≠ q.name := fun q hq he => hn.1 (by rw [he]; exact List.mem_map_of_mem hq)
    simp only [stateLabels]
    rw [List.nodup_cons, List.nodup_cons, List.nodup_cons]
    refine ⟨?_, ?_, ?_, ih hn.2⟩
    · intro hl
      simp only [List.mem_cons] at hl
      rcases hl with hl | hl | hl
      · rw [hm, hs] at hl; exact absurd (hsuf hl) (by decide)
      · rw [hm, hx] at hl; exact hc1 (hsuf hl).symm
      · obtain ⟨q, hq, hl⟩ := hmem ps _ hl
        rcases hl with hl | hl | hl
        · exact hname q hq (List.append_cancel_right hl)
        · rw [hm, hs] at hl; exact absurd (hsuf hl) (by decide)
        · rw [hm, hx] at hl; exact hc1 (hsuf hl).symm
    · intro hl
      simp only [List.mem_cons] at hl
      rcases hl with hl | hl
      · rw [hs, hx] at hl; exact hc2 (hsuf hl).symm
      · obtain ⟨q, hq, hl⟩ := hmem ps _ hl
        rcases hl with hl | hl | hl
        · rw [hm, hs] at hl; exact absurd (hsuf hl) (by decide)
        · exact hname q hq (List.append_cancel_right hl)
        · rw [hs, hx] at hl; exact hc2 (hsuf hl).symm
    · intro hl
      obtain ⟨q, hq, hl⟩ := hmem ps _ hl
      rcases hl with hl | hl | hl
      · rw [hm, hx] at hl; exact hc1 (hsuf hl)
      · rw [hs, hx] at hl; exact hc2 (hsuf hl)
      · exact hname q hq (List.append_cancel_right hl)

/-- Two parameters: the labels of MES. -/
example : stateLabels ".mom".toList [{ name := "a".toList, mean := .fin 0, std := .fin 1, min := .fin 0, max := .fin 1 }, { name := "b".toList, mean := .fin 0, std := .fin 1, min := .fin 0, max := .fin 1 }] =
    ["a.mean".toList, "a.std".toList, "a.mom".toList, "b.mean".toList, "b.std".toList, "b.mom".toList] := rfl

end Spot
