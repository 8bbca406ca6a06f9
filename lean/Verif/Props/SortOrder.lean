import Verif.Props.EsTotal

/-! # What individuals and members of a pool are sorted by (C91)

`xo::sorted_indices` hands `is_better` to `std::sort`, whose behaviour is only defined if it is a strict weak order on the values sorted. -/

namespace Spot

/-- What `std::sort` requires of the comparison `lt` on the values `l` (C++ standard, [alg.sorting]): irreflexive, transitive, and "neither is before the
other" is transitive too. -/
structure Spec.StrictWeakOn {α : Type} (lt : α → α → Bool) (l : List α) : Prop where
  irrefl : ∀ x ∈ l, lt x x = false
  trans : ∀ x ∈ l, ∀ y ∈ l, ∀ z ∈ l, lt x y = true → lt y z = true → lt x z = true
  incomp : ∀ x ∈ l, ∀ y ∈ l, ∀ z ∈ l, lt x y = false → lt y x = false → lt y z = false → lt z y = false → lt x z = false ∧ lt z x = false

/-- **C91.** `is_better` is a strict weak order on the fitnesses `fs` if and only if none of them is NaN or all that are not NaN are equal; minimizing or maximizing. -/
theorem C91_strict_weak_iff (info : ObjInfo) (fs : List Dbl) :
    Spec.StrictWeakOn info.isBetter fs ↔ Dbl.nan ∉ fs ∨ ∀ x ∈ fs, ∀ y ∈ fs, x ≠ .nan → y ≠ .nan → x = y := by
  have hkey : ∀ x y : Dbl, x ≠ .nan → y ≠ .nan → Dbl.lt x y = false → Dbl.lt y x = false → x = y := fun x y hx hy h1 h2 =>
    Dbl.le_antisymm ((Dbl.not_lt hy hx).1 h2) ((Dbl.not_lt hx hy).1 h1)
  have hb : ∀ x y, info.isBetter x y = false → info.isBetter y x = false → Dbl.lt x y = false ∧ Dbl.lt y x = false := by
    intro x y h1 h2
    unfold ObjInfo.isBetter at h1 h2
    split at h1
    · rename_i h; rw [if_pos h] at h2; exact ⟨h1, h2⟩
    · rename_i h; rw [if_neg h] at h2; exact ⟨h2, h1⟩
  have hb' : ∀ x y, Dbl.lt x y = false → Dbl.lt y x = false → info.isBetter x y = false := by
    intro x y h1 h2
    unfold ObjInfo.isBetter
    split <;> assumption
  constructor
  · intro h
    by_cases hn : Dbl.nan ∈ fs
    · right
      intro x hx y hy hxn hyn
      have := h.incomp x hx .nan hn y hy (hb' _ _ (by simp) (by simp)) (hb' _ _ (by simp) (by simp)) (hb' _ _ (by simp) (by simp)) (hb' _ _ (by simp) (by simp))
      obtain ⟨h1, h2⟩ := hb _ _ this.1 this.2
      exact hkey x y hxn hyn h1 h2
    · exact .inl hn
  · intro h
    refine ⟨fun x _ => hb' _ _ (Dbl.lt_irrefl x) (Dbl.lt_irrefl x), fun x _ y _ z _ h1 h2 => ?_, fun x hx y hy z hz h1 h2 h3 h4 => ?_⟩
    · unfold ObjInfo.isBetter at *
      split
      · rename_i hm; rw [if_pos hm] at h1 h2; exact Dbl.lt_trans h1 h2
      · rename_i hm; rw [if_neg hm] at h1 h2; exact Dbl.lt_trans h2 h1
    · rcases h with hn | ha
      · have hne : ∀ u ∈ fs, u ≠ .nan := fun u hu he => hn (he ▸ hu)
        obtain ⟨a1, a2⟩ := hb _ _ h1 h2
        obtain ⟨b1, b2⟩ := hb _ _ h3 h4
        obtain rfl := hkey x y (hne x hx) (hne y hy) a1 a2
        exact ⟨h3, h4⟩
      · by_cases hxn : x = .nan
        · subst hxn; exact ⟨hb' _ _ (by simp) (by simp), hb' _ _ (by simp) (by simp)⟩
        by_cases hzn : z = .nan
        · subst hzn; exact ⟨hb' _ _ (by simp) (by simp), hb' _ _ (by simp) (by simp)⟩
        obtain rfl := ha x hx z hz hxn hzn
        exact ⟨hb' _ _ (Dbl.lt_irrefl x) (Dbl.lt_irrefl x), hb' _ _ (Dbl.lt_irrefl x) (Dbl.lt_irrefl x)⟩

/-- **C91.** In every completed step of a MES or EVA optimizer, in every run, the values that are sorted are what the objective returned for the individuals, in order: sorting is well
defined if no result is NaN. -/
theorem C91_step_sorts [Libm] {R : Rng Dbl} (E : OptEnv) (info : ObjInfo) (c : EsCfg R info.dim) (F : Pt → Option Dbl) (e : R.Eng) {ps : List (List Pt)} {s t : EsOpt R info.dim}
    (h : EsOpt.Runs E c F (EsOpt.make info e) ps s) (pop : List Pt) (st : EsOpt.Internal E c F s pop t) (hc : ∀ p ∈ pop, F p ≠ none) :
    t.opt.vis.curFitnesses.map some = pop.map F ∧ ((∀ p ∈ pop, F p ≠ some .nan) → Spec.StrictWeakOn info.isBetter t.opt.vis.curFitnesses) := by
  have hw : s.opt.vis.WF info 0 := runs_WF E info c F ⟨by simp [EsOpt.make, Opt.init, Opt.addCond, Cond.minWindow], by simp [EsOpt.make, Opt.init, Opt.addCond, Cond.minWindow],
    by simp [EsOpt.make, Opt.init, Opt.addCond, Cond.minWindow, SearchPoint.ofInfo, ObjInfo.dim]⟩ h
  have hlen : ∀ x ∈ (samplePopulation R c.bounds c.alg.ofs.1 c.alg.ofs.2 c.lambda s.dist s.eng).1, x.length = info.dim := by
    intro x hx
    obtain ⟨v, rfl, hv⟩ := (samplePop_all R c.bounds s.dist (fun _ _ => True) (fun _ _ _ _ => trivial) c.lambda _ _).2 x hx
    rw [List.length_map, ← hv.length_eq, List.length_finRange]
  have hnf : ¬ ({ pop := pop, res := pop.map F } : In).Failed s.opt.vis.maxErrors := by
    rw [hw.maxErr]; unfold In.Failed
    have : failures (pop.map F) = 0 := by
      unfold failures
      rw [List.countP_eq_zero]
      intro r hr
      obtain ⟨p, hp, rfl⟩ := List.mem_map.1 hr
      have := hc p hp
      cases hF : F p with
      | none => exact absurd hF this
      | some a => simp
    simp [this]
  have hres : t.opt.vis.curFitnesses = pop.map fun p => fitOf info (F p) := by
    have hev : ∀ o b, s.opt.evaluateStep E pop (pop.map F) = (o, .ok b) → pop ≠ [] → (∀ x ∈ pop, x.length = info.dim) →
        o.vis.curFitnesses = pop.map fun p => fitOf info (F p) := by
      intro o b hev hpop hsz
      have hv : ({ pop := pop, res := pop.map F } : In).Valid s.opt.vis.info := ⟨hpop, by simp, fun p hp' => by rw [hw.info_eq]; exact hsz p hp'⟩
      have := evaluateStep_completed E s.opt { pop := pop, res := pop.map F } hv (by rw [hw.info_eq]; exact hw.len) hnf
      rw [hev] at this
      have ho : o = _ := congrArg Prod.fst this
      rw [ho]
      simp only [Opt.signal]
      have : ∀ v : Vis, (v.track E).curFitnesses = v.curFitnesses := by intro v; unfold Vis.track; split <;> rfl
      rw [this]
      simp [Vis.evaluated, hw.info_eq]
    have hempty : ∀ o b, s.opt.evaluateStep E [] [] ≠ (o, .ok b) := by
      intro o b hh
      have hh2 := congrArg Prod.snd hh
      unfold Opt.evaluateStep at hh2
      simp [errorCount, allowedErrors, signal_vis, hw.maxErr] at hh2
    cases st with
    | @ok e o order d hp he ho hu =>
      rw [hp] at hlen
      by_cases hpop : pop = []
      · subst hpop; exact absurd he (hempty _ _)
      · exact hev _ _ he hpop hlen
    | @failed e o hp he =>
      rw [hp] at hlen
      by_cases hpop : pop = []
      · subst hpop; exact absurd he (hempty _ _)
      · exact hev _ _ he hpop hlen
  constructor
  · rw [hres, List.map_map]
    refine List.map_congr_left fun p hp => ?_
    cases hF : F p with
    | none => exact absurd hF (hc p hp)
    | some a => simp [hF, fitOf]
  · intro hnan
    refine (C91_strict_weak_iff _ _).2 (.inl fun hm => ?_)
    rw [hres] at hm
    obtain ⟨p, hp, he⟩ := List.mem_map.1 hm
    cases hF : F p with
    | none => exact hc p hp hF
    | some a => rw [hF] at he; exact hnan p hp (by rw [hF]; exact congrArg some he)

/-- **C91 (finding).** A NaN together with two different numbers makes the order invalid: `std::sort` is called with a comparison for which its behaviour is undefined. -/
theorem C91_nan_breaks_sorting (info : ObjInfo) (fs : List Dbl) (x y : Dbl) (hn : Dbl.nan ∈ fs) (hx : x ∈ fs) (hy : y ∈ fs) (hxn : x ≠ .nan) (hyn : y ≠ .nan) (hxy : x ≠ y) :
    ¬ Spec.StrictWeakOn info.isBetter fs := fun h => by
  rcases (C91_strict_weak_iff info fs).1 h with h | h
  · exact h hn
  · exact hxy (h x hx y hy hxn hyn)

-- without NaN the order is valid, whatever the numbers are; with NaN it is not
example : Spec.StrictWeakOn ({} : ObjInfo).isBetter [.fin 3, .pinf, .fin 1, .fin 3] := (C91_strict_weak_iff _ _).2 (.inl (by decide))
example : ¬ Spec.StrictWeakOn ({} : ObjInfo).isBetter [.fin 3, .nan, .fin 1] :=
  C91_nan_breaks_sorting _ _ (.fin 3) (.fin 1) (by decide) (by decide) (by decide) (by decide) (by decide) (by decide)

end Spot
