import Verif.Lemmas.Evolution

/-! # Two optimizers whose fitnesses are ordered in the same way -/

namespace Spot

/-- Values of two objectives that correspond to each other: they are ordered in the same way. -/
structure FitRel (i1 i2 : ObjInfo) (Rel : Dbl → Dbl → Prop) : Prop where
  better : ∀ {a b a' b'}, Rel a b → Rel a' b' → i2.isBetter b b' = i1.isBetter a a'
  nan : ∀ {a b}, Rel a b → (b = .nan ↔ a = .nan)
  worst : Rel i1.worstFitness i2.worstFitness

theorem FitRel.flip {i1 i2 : ObjInfo} {Rel : Dbl → Dbl → Prop} (h : FitRel i1 i2 Rel) : FitRel i2 i1 (fun b a => Rel a b) :=
  ⟨fun h1 h2 => (h.better h1 h2).symm, fun h1 => (h.nan h1).symm, h.worst⟩

theorem minElemLoop_congr {c1 c2 : Dbl → Dbl → Bool} {Rel : Dbl → Dbl → Prop}
    (h : ∀ {a b a' b'}, Rel a b → Rel a' b' → c2 b b' = c1 a a') {l1 l2 : List Dbl} (hl : List.Forall₂ Rel l1 l2) :
    ∀ (k bi : Nat) (b1 b2 : Dbl), Rel b1 b2 → ObjInfo.minElemLoop c2 l2 k bi b2 = ObjInfo.minElemLoop c1 l1 k bi b1 := by
  induction hl with
  | nil => intro k bi b1 b2 _; rfl
  | @cons x y l1 l2 hxy hl ih =>
    intro k bi b1 b2 hb
    simp only [ObjInfo.minElemLoop, h hxy hb]
    split
    · exact ih _ _ _ _ hxy
    · exact ih _ _ _ _ hb

theorem findBest_minElem (i : ObjInfo) (f : List Dbl) : i.findBestFitness f = ObjInfo.minElem i.isBetter f := by
  unfold ObjInfo.findBestFitness ObjInfo.isBetter
  by_cases h : i.minimize <;> simp [h]

theorem findBest_congr {i1 i2 : ObjInfo} {Rel : Dbl → Dbl → Prop} (h : FitRel i1 i2 Rel) {l1 l2 : List Dbl} (hl : List.Forall₂ Rel l1 l2) :
    i2.findBestFitness l2 = i1.findBestFitness l1 := by
  rw [findBest_minElem, findBest_minElem]
  cases hl with
  | nil => rfl
  | cons hxy hl => exact minElemLoop_congr (Rel := Rel) h.better hl _ _ _ _ hxy

theorem sortedOrder_congr {i1 i2 : ObjInfo} {Rel : Dbl → Dbl → Prop} (h : FitRel i1 i2 Rel) {l1 l2 : List Dbl} (hl : List.Forall₂ Rel l1 l2)
    {order : List Nat} (ho : SortedOrder i1 l1 order) : SortedOrder i2 l2 order := by
  have hn : Dbl.nan ∉ l2 → Dbl.nan ∉ l1 := by
    intro hn hm
    apply hn
    clear hn ho
    induction hl with
    | nil => cases hm
    | cons hxy hl ih =>
      rcases List.mem_cons.1 hm with rfl | hm
      · rw [(h.nan hxy).2 rfl]; exact List.mem_cons_self
      · exact List.mem_cons_of_mem _ (ih hm)
  refine ⟨by rw [← hl.length_eq]; exact ho.1, fun hn2 => (ho.2 (hn hn2)).imp (fun {i j} hij x y hx hy => ?_)⟩
  have hi := (List.getElem?_eq_some_iff.1 hx)
  have hj := (List.getElem?_eq_some_iff.1 hy)
  obtain ⟨hi2, rfl⟩ := hi
  obtain ⟨hj2, rfl⟩ := hj
  have hi1 : i < l1.length := hl.length_eq ▸ hi2
  have hj1 : j < l1.length := hl.length_eq ▸ hj2
  have := h.better (hl.get hj1 hj2) (hl.get hi1 hi2)
  simp only [List.get_eq_getElem] at this
  rw [this]
  exact hij _ _ (List.getElem?_eq_getElem hi1) (List.getElem?_eq_getElem hj1)

/-- Two optimizers in corresponding states. -/
structure OptRel (i1 i2 : ObjInfo) (Rel : Dbl → Dbl → Prop) (o1 o2 : Opt) : Prop where
  info1 : o1.vis.info = i1
  info2 : o2.vis.info = i2
  errs : o2.vis.maxErrors = o1.vis.maxErrors
  best : Rel o1.vis.bestFitness o2.vis.bestFitness
  bestPt : o2.vis.bestPoint = o1.vis.bestPoint
  cur : Rel o1.vis.curFitness o2.vis.curFitness
  curPt : o2.vis.curPoint = o1.vis.curPoint
  fits : List.Forall₂ Rel o1.vis.curFitnesses o2.vis.curFitnesses

theorem OptRel.flip {i1 i2 : ObjInfo} {Rel : Dbl → Dbl → Prop} {o1 o2 : Opt} (h : OptRel i1 i2 Rel o1 o2) :
    OptRel i2 i1 (fun b a => Rel a b) o2 o1 :=
  ⟨h.info2, h.info1, h.errs.symm, h.best, h.bestPt.symm, h.cur, h.curPt.symm, h.fits.flip⟩

theorem forall₂_getElem? {α β : Type} {R : α → β → Prop} {l1 : List α} {l2 : List β} (h : List.Forall₂ R l1 l2) (k : Nat) :
    (l1[k]? = none ∧ l2[k]? = none) ∨ ∃ a b, l1[k]? = some a ∧ l2[k]? = some b ∧ R a b := by
  by_cases hk : k < l1.length
  · have hk2 : k < l2.length := h.length_eq ▸ hk
    exact .inr ⟨_, _, List.getElem?_eq_getElem hk, List.getElem?_eq_getElem hk2, h.get hk hk2⟩
  · exact .inl ⟨List.getElem?_eq_none (by omega), List.getElem?_eq_none (by rw [← h.length_eq]; omega)⟩

/-- One `evaluate_step` of two optimizers on the same population with corresponding results. -/
theorem evaluateStep_congr (E : OptEnv) {i1 i2 : ObjInfo} {Rel : Dbl → Dbl → Prop} (h : FitRel i1 i2 Rel) {o1 o2 : Opt}
    (ho : OptRel i1 i2 Rel o1 o2) (pop : List Pt) (F1 F2 : Pt → Option Dbl)
    (hF : ∀ p, (F1 p = none ∧ F2 p = none) ∨ ∃ a b, F1 p = some a ∧ F2 p = some b ∧ Rel a b) :
    (o2.evaluateStep E pop (pop.map F2)).2 = (o1.evaluateStep E pop (pop.map F1)).2 ∧
    ((o1.evaluateStep E pop (pop.map F1)).2 ≠ .ub →
      OptRel i1 i2 Rel (o1.evaluateStep E pop (pop.map F1)).1 (o2.evaluateStep E pop (pop.map F2)).1) := by
  have hc : errorCount (pop.map F2) = errorCount (pop.map F1) := by
    unfold errorCount
    induction pop with
    | nil => rfl
    | cons p pop ih =>
      simp only [List.map_cons, List.filter_cons]
      rcases hF p with ⟨h1, h2⟩ | ⟨a, b, h1, h2, -⟩ <;> simp [h1, h2, ih]
  have hfs : List.Forall₂ Rel ((pop.map F1).map (fun r => r.getD i1.worstFitness)) ((pop.map F2).map (fun r => r.getD i2.worstFitness)) := by
    clear hc
    induction pop with
    | nil => exact .nil
    | cons p pop ih =>
      refine .cons ?_ ih
      rcases hF p with ⟨h1, h2⟩ | ⟨a, b, h1, h2, hab⟩
      · rw [h1, h2]; exact h.worst
      · rw [h1, h2]; exact hab
  unfold Opt.evaluateStep
  simp only [Opt.signal, ho.info1, ho.info2, ho.errs, hc, List.length_map]
  split
  · exact ⟨rfl, fun _ => ⟨ho.info1, ho.info2, ho.errs, ho.best, ho.bestPt, ho.cur, ho.curPt, ho.fits⟩⟩
  · rw [findBest_congr h hfs]
    generalize i1.findBestFitness _ = k
    rcases forall₂_getElem? hfs k with ⟨h1, h2⟩ | ⟨a, b, h1, h2, hab⟩
    · rw [h1, h2]
      exact ⟨rfl, fun hh => absurd rfl hh⟩
    · rw [h1, h2]
      cases hp : pop[k]? with
      | none => exact ⟨rfl, fun hh => absurd rfl hh⟩
      | some p =>
        dsimp only
        rw [h.better hab ho.best, ho.bestPt]
        by_cases hb : i1.isBetter a o1.vis.bestFitness = true
        · simp only [hb, if_true]
          by_cases hl : o1.vis.bestPoint.length = p.length
          · simp only [hl, if_true]
            refine ⟨trivial, fun _ => ?_⟩
            constructor <;> simp only [Vis.track] <;> (repeat' split) <;>
              first | exact ho.info1 | exact ho.info2 | exact ho.errs | exact hab | rfl | exact hfs
          · simp only [hl, if_false]
            exact ⟨trivial, fun hh => absurd rfl hh⟩
        · simp only [hb, Bool.false_eq_true, if_false]
          refine ⟨trivial, fun _ => ?_⟩
          constructor <;> simp only [Vis.track] <;> (repeat' split) <;>
            first | exact ho.info1 | exact ho.info2 | exact ho.errs | exact ho.best | exact ho.bestPt | exact hab | rfl | exact hfs

section
variable [Libm] {n : Nat} {R : Rng Dbl}

/-- Whole runs: the second optimizer can do what the first one does. -/
theorem runs_congr (E : OptEnv) (c : EsCfg R n) {i1 i2 : ObjInfo} {Rel : Dbl → Dbl → Prop} (h : FitRel i1 i2 Rel) {F1 F2 : Pt → Option Dbl}
    (hF : ∀ p, (F1 p = none ∧ F2 p = none) ∨ ∃ a b, F1 p = some a ∧ F2 p = some b ∧ Rel a b) {s1 s2 : EsOpt R n}
    (hs : OptRel i1 i2 Rel s1.opt s2.opt) (hd : s2.dist = s1.dist) (he : s2.eng = s1.eng) {ps : List (List Pt)} {t1 : EsOpt R n}
    (hr : EsOpt.Runs E c F1 s1 ps t1) :
    ∃ t2, EsOpt.Runs E c F2 s2 ps t2 ∧ OptRel i1 i2 Rel t1.opt t2.opt ∧ t2.dist = t1.dist ∧ t2.eng = t1.eng := by
  induction hr with
  | nil => exact ⟨s2, .nil, hs, hd, he⟩
  | @snoc ps pop t t' hr st ih =>
    obtain ⟨t2, h1, h2, h3, h4⟩ := ih
    cases st with
    | @ok e o order d hp hev ho hu =>
      have hk := evaluateStep_congr E h h2 pop F1 F2 hF
      rw [hev] at hk
      have hrel := hk.2 (by simp)
      refine ⟨⟨_, d, e⟩, h1.snoc (.ok (by rw [h3, h4]; exact hp) (Prod.ext rfl hk.1) ?_ (by rw [h3]; exact hu)), hrel, rfl, rfl⟩
      rw [hrel.info2]
      rw [hrel.info1] at ho
      exact sortedOrder_congr h hrel.fits ho
    | @failed e o hp hev =>
      have hk := evaluateStep_congr E h h2 pop F1 F2 hF
      rw [hev] at hk
      exact ⟨⟨_, t2.dist, e⟩, h1.snoc (.failed (by rw [h3, h4]; exact hp) (Prod.ext rfl hk.1)), hk.2 (by simp), h3, rfl⟩

end

end Spot
