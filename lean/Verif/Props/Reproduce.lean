import Verif.Props.FileReporter
import Verif.Props.StaticPars
import Verif.Props.PoolSession
import Verif.Props.PoolFiles
import Verif.Lemmas.Float
import Verif.Props.Restart

/-!
# C109: the files of an optimization reproduce its result

What the file reporter leaves behind (C59), read with the readers of par files (C12, C14, C96): the best point of the optimizer, exactly, and what is needed to continue from it.
-/

namespace Spot
open Notation ObjInfo

/-! ## The newest announced best is the best point -/

/-- The point and fitness of `on_new_best`. -/
def newBestOf : Event × Vis → Option (Pt × Dbl)
  | (.newBest p f, _) => some (p, f)
  | _ => none

theorem newBests_protocol (first failed improved : Bool) (stop : Option Nat) (pop : List Pt) (fs : List Dbl) (best : Pt) (f : Dbl) (new : List (Event × Vis))
    (h : new.map Prod.fst = protocol first failed improved stop pop fs best f) :
    new.filterMap newBestOf = if !failed && improved then [(best, f)] else [] := by
  have : new.filterMap newBestOf = (new.map Prod.fst).filterMap (fun e => match e with | .newBest p f => some (p, f) | _ => none) := by
    rw [List.filterMap_map]
    refine List.filterMap_congr fun x _ => ?_
    obtain ⟨e, v⟩ := x
    cases e <;> rfl
  rw [this, h]
  unfold protocol
  cases first <;> cases failed <;> cases improved <;> cases stop <;> rfl

/-- The newest best that was announced is the best point of the optimizer; before the first one, the best fitness is the worst there is. -/
theorem newest_best (E : OptEnv) (info : ObjInfo) (m : Int) (hd : info.dim ≠ 0) (h : List Op) (hv : ∀ o ∈ h, o.Valid info) :
    let s := (Opt.new info m).after E h
    (s.log.filterMap newBestOf = [] ∧ s.vis.bestFitness = info.worstFitness) ∨ (s.log.filterMap newBestOf).getLast? = some (s.vis.bestPoint, s.vis.bestFitness) := by
  induction h using List.reverseRecOn with
  | nil =>
    left
    exact ⟨rfl, by simp [Opt.after, Opt.new, Opt.init, Opt.addCond, Cond.minWindow]⟩
  | append_singleton h o ih =>
    have hvh : ∀ o ∈ h, o.Valid info := fun o ho => hv o (by simp [ho])
    have ho : o.Valid info := hv o (by simp)
    have ih := ih hvh
    have hw := (history_facts E info m hd h hvh).1
    rw [after_append]
    have e0 : (((Opt.new info m).after E h).after E [o]) = o.apply E ((Opt.new info m).after E h) := rfl
    rw [e0]
    dsimp only at ih ⊢
    have hc := apply_core E ((Opt.new info m).after E h) o hd hw ho
    obtain ⟨-, -, c3, c4, -⟩ := core_ext hc
    by_cases hs : ∃ i, o = .step i
    · obtain ⟨i, rfl⟩ := hs
      obtain ⟨new, e1, -, stop, -, -, e2, -⟩ := C28_protocol E info m hd h i hvh ho
      have e3 := newBests_protocol _ _ _ _ _ _ _ _ _ e2
      have ea : ((Op.step i).apply E ((Opt.new info m).after E h)) = (((Opt.new info m).after E h).step E (Opt.internal E i)).1 := rfl
      rw [ea] at c3 c4 ⊢
      generalize (((Opt.new info m).after E h).step E (Opt.internal E i)).1 = t at *
      generalize (Opt.new info m).after E h = s at *
      rw [e1, List.filterMap_append, e3]
      by_cases hcase : (!decide (i.Failed m) && info.isBetter t.vis.bestFitness s.vis.bestFitness) = true
      · rw [if_pos hcase]
        right
        simp
      · rw [if_neg hcase, List.append_nil]
        have hkeep : t.vis.bestFitness = s.vis.bestFitness ∧ t.vis.bestPoint = s.vis.bestPoint := by
          have h4 : (Op.onVis E s.vis (.step i)) = s.vis.stepped E i := rfl
          rw [h4] at c3 c4
          by_cases hf : i.Failed s.vis.maxErrors
          · rw [stepped_failed E hf] at c3 c4
            rw [c3, c4]
            cases i.interrupt <;> exact ⟨rfl, rfl⟩
          · obtain ⟨d1, d2, -⟩ := stepped_completed E hf
            rw [d1] at c3
            rw [d2] at c4
            rw [hw.maxErr] at hf
            have hb : ¬ info.isBetter t.vis.bestFitness s.vis.bestFitness = true := by
              intro hh; apply hcase; simp [hf, hh]
            by_cases hb2 : s.vis.info.isBetter (i.best s.vis.info) s.vis.bestFitness = true
            · rw [if_pos hb2] at c3
              rw [← c3, hw.info_eq] at hb2
              exact absurd hb2 hb
            · rw [if_neg hb2] at c3 c4
              exact ⟨c3, c4⟩
        rw [hkeep.1, hkeep.2]
        exact ih
    · push Not at hs
      have hlog : (o.apply E ((Opt.new info m).after E h)).log.filterMap newBestOf = ((Opt.new info m).after E h).log.filterMap newBestOf := by
        rcases C28_only_steps E ((Opt.new info m).after E h) o hs with e | ⟨k, v, -, -, e⟩
        · rw [e]
        · rw [e, List.filterMap_append]; simp [newBestOf]
      have hkeep : (Op.onVis E ((Opt.new info m).after E h).vis o).bestFitness = ((Opt.new info m).after E h).vis.bestFitness ∧
          (Op.onVis E ((Opt.new info m).after E h).vis o).bestPoint = ((Opt.new info m).after E h).vis.bestPoint := by
        cases o with
        | step i => exact absurd rfl (hs i)
        | addCond c => unfold Op.onVis; dsimp only; split <;> exact ⟨rfl, rfl⟩
        | _ => exact ⟨rfl, rfl⟩
      rw [hlog, c3, c4, hkeep.1, hkeep.2]
      exact ih

/-! ## Reading a saved point -/

/-- The records of the file of a point. -/
def savedRecs (s : SearchPoint) : List Rec := (s.info.pars.zip s.values).map fun x => ⟨x.1.name, x.2, rounded x.1.mean, rounded x.1.std⟩

/-- A finite binary64 number. -/
def IsFinite (v : Dbl) : Prop := ∃ q : ℚ, v = .fin q ∧ |q| ≤ Dbl.maxQ

theorem saved_scan (s : SearchPoint) (hs : s.WF) (hst : s.Stored) (hn : ∀ p ∈ s.info.pars, FileName p.name) (hv : ∀ v ∈ s.values, IsFinite v)
    (hp : ∀ p ∈ s.info.pars, IsFinite p.mean ∧ IsFinite p.std) :
    scanGood strtodReader ((s.write fmt8).length + 1) { rest := s.write fmt8 } = savedRecs s ∧
    scanStrict strtodReader ((s.write fmt8).length + 1) { rest := s.write fmt8 } = (savedRecs s, false) ∧ (s.info.dim ≠ 0 → (s.write fmt8).isEmpty = false) := by
  obtain ⟨i, vs⟩ := s
  simp only [SearchPoint.WF, dim] at hs
  simp only at hn hv hp ⊢
  let l : List (ParInfo × Dbl × Dbl × Dbl × Dbl) := (i.pars.zip vs).map fun x => (x.1, x.2, x.2, rounded x.1.mean, rounded x.1.std)
  have hl : ∀ x ∈ l, FileName x.1.name ∧ PrintsAs strtodReader fmt8 x.2.1 x.2.2.1 ∧ PrintsAs strtodReader fmt8 x.1.mean x.2.2.2.1 ∧
      PrintsAs strtodReader fmt8 x.1.std x.2.2.2.2 := by
    intro x hx
    obtain ⟨⟨p, v⟩, hz, rfl⟩ := List.mem_map.1 hx
    have h1 := (List.of_mem_zip hz).1
    have h2 := (List.of_mem_zip hz).2
    obtain ⟨⟨m, hm, hm'⟩, ⟨d, hd, hd'⟩⟩ := hp p h1
    obtain ⟨q, hq, hq'⟩ := hv v h2
    refine ⟨hn p h1, ?_, ?_, ?_⟩
    · have := C14_prints q hq'
      rw [← hq, hst v h2] at this
      exact this
    · change PrintsAs _ _ p.mean (rounded p.mean); rw [hm]; exact C14_prints m hm'
    · change PrintsAs _ _ p.std (rounded p.std); rw [hd]; exact C14_prints d hd'
  have hr : (l.map fun x => (⟨x.1.name, x.2.2.1, x.2.2.2.1, x.2.2.2.2⟩ : Rec)) = savedRecs ⟨i, vs⟩ := by
    simp only [savedRecs, l, List.map_map]; rfl
  obtain ⟨r, hr1, hr2⟩ := write_fileText (w := SearchPoint.nameWidth i) l hl [] (by simp [Blank])
  have hw : SearchPoint.write fmt8 ⟨i, vs⟩ = [] ++ (l.map fun x => SearchPoint.line fmt8 (SearchPoint.nameWidth i) x.1 x.2.1).flatten := by
    simp only [SearchPoint.write, l, List.map_map]; rfl
  have hg := scanGood_lines l hl (w := SearchPoint.nameWidth i) [] ((SearchPoint.write fmt8 ⟨i, vs⟩).length + 1) (by simp [Blank]) (by rw [hw]; simp)
  rw [← hw, hr] at hg
  rw [← hw, hr] at hr2
  refine ⟨hg, scan_file hr2 hr1, fun hdim => ?_⟩
  have h0 : 0 < l.length := by simp only [dim] at hdim; simp [l, hs]; omega
  rw [hw]
  cases hll : l with
  | nil => simp [hll] at h0
  | cons x l' => simp [SearchPoint.line]

theorem savedRecs_names (s : SearchPoint) (hs : s.WF) : (savedRecs s).map Rec.name = s.info.pars.map ParInfo.name := by
  simp only [savedRecs, List.map_map]
  change (s.info.pars.zip s.values).map (ParInfo.name ∘ Prod.fst) = _
  rw [← List.map_map, List.map_fst_zip]
  simp only [SearchPoint.WF, dim] at hs
  omega

/-- Reading the file of a point into a point over an info with the same names. -/
theorem saved_values (s t : SearchPoint) (hu : (t.info.pars.map ParInfo.name).Nodup) (hi : s.info.pars.map ParInfo.name = t.info.pars.map ParInfo.name) (hs : s.WF) (ht : t.WF) (hst : s.Stored)
    (hd : s.info.dim ≠ 0) (hn : ∀ p ∈ s.info.pars, FileName p.name) (hv : ∀ v ∈ s.values, IsFinite v) (hp : ∀ p ∈ s.info.pars, IsFinite p.mean ∧ IsFinite p.std) :
    t.importValues strtodReader (some (s.write fmt8)) = (⟨t.info, s.values⟩, .ok (t.info.dim, 0)) := by
  obtain ⟨h1, -, h3⟩ := saved_scan s hs hst hn hv hp
  obtain ⟨j, ws⟩ := t
  have hlen : s.info.pars.length = j.pars.length := by
    have := congrArg List.length hi
    simpa using this
  simp only [SearchPoint.WF, dim] at hs ht
  simp only [SearchPoint.importValues, h3 hd, Bool.false_eq_true, if_false, h1]
  have hrl : (savedRecs s).length = j.pars.length := by simp [savedRecs, hs, hlen]
  have := import_fold_values (i := j) hu (savedRecs s) 0 [] ws 0 0 (by rw [savedRecs_names s (by simpa [SearchPoint.WF, dim] using hs), hi, List.drop_zero]) rfl (by rw [hrl, ht])
  simp only [List.nil_append] at this
  rw [this, hrl, Nat.zero_add]
  have hvals : (savedRecs s).map Rec.value = s.values := by
    simp only [savedRecs, List.map_map]
    change (s.info.pars.zip s.values).map (fun x => x.2) = _
    exact List.map_snd_zip (by omega)
  rw [hvals]
  rfl

/-! ## Importing a saved point into an objective -/

theorem updateFirst_at {n : Str} {g : ParInfo → ParInfo} {p : ParInfo} (done : List ParInfo) (todo : List ParInfo) (hd : ∀ q ∈ done, q.name ≠ n) (hp : p.name = n) :
    updateFirst n g (done ++ p :: todo) = done ++ g p :: todo := by
  induction done with
  | nil => simp [updateFirst, hp]
  | cons q done ih =>
    rw [List.cons_append, updateFirst, if_neg (hd q (by simp)), ih fun x hx => hd x (by simp [hx])]
    rfl

theorem import_fold_pars (st : ImportSettings) (h1 : st.incl = none) (h2 : st.excl = none) (i : ObjInfo) (rs : List Rec) :
    ∀ (done todo : List ParInfo) (a b : Nat), ((done ++ todo).map ParInfo.name).Nodup → rs.map Rec.name = todo.map ParInfo.name → (∀ r ∈ rs, Dbl.eq r.std (.fin 0) = false) →
      rs.foldl (importRec st) ({ i with pars := done ++ todo }, a, b) = ({ i with pars := done ++ List.zipWith (importPar st) rs todo }, a + rs.length, b) := by
  induction rs with
  | nil =>
    intro done todo a b _ ht _
    have : todo = [] := by simpa using ht.symm
    simp [this]
  | cons r rs ih =>
    intro done todo a b hn ht hs
    cases todo with
    | nil => simp at ht
    | cons p todo =>
      simp only [List.map_cons, List.cons.injEq] at ht
      have hne : ∀ q ∈ done, q.name ≠ r.name := by
        intro q hq he
        rw [List.map_append, List.nodup_append] at hn
        exact hn.2.2 q.name (List.mem_map.2 ⟨q, hq, rfl⟩) p.name (by simp) (by rw [he, ht.1])
      have hacc : accepted st.incl st.excl r.name = true := by rw [h1, h2]; rfl
      have hfind : (ObjInfo.find { i with pars := done ++ p :: todo } r.name).isSome = true := by
        simp only [ObjInfo.find]
        rw [List.find?_isSome]
        exact ⟨p, by simp, by simp [ht.1]⟩
      have hstep : importRec st ({ i with pars := done ++ p :: todo }, a, b) r = ({ i with pars := (done ++ [importPar st r p]) ++ todo }, a + 1, b) := by
        simp only [importRec, hacc, hs r (by simp), hfind, Bool.not_true, Bool.false_eq_true, if_false, if_true]
        rw [updateFirst_at done todo hne ht.1.symm]
        simp
      rw [List.foldl_cons, hstep, ih (done ++ [importPar st r p]) todo (a + 1) b ?_ ht.2 fun x hx => hs x (by simp [hx])]
      · simp only [List.zipWith_cons_cons, List.length_cons, List.append_assoc, List.cons_append, List.nil_append, Prod.mk.injEq, true_and, and_true]
        omega
      · simpa [(importPar_name st r p).1] using hn

/-- The factor 1 and the offset 0 do not change a double. -/
theorem affine_id {q : ℚ} (h : IsDouble q) : Dbl.add (.fin 0) (Dbl.mul (.fin 1) (.fin q)) = .fin q := by
  have e1 : Dbl.mul (.fin 1) (.fin q) = Dbl.ofQ (1 * q) := rfl
  rw [e1, one_mul, Dbl.ofQ_double h]
  have e2 : Dbl.add (.fin 0) (.fin q) = Dbl.ofQ (0 + q) := rfl
  rw [e2, zero_add, Dbl.ofQ_double h]

theorem isDouble_p8 {q : ℚ} (h : |q| ≤ Dbl.maxQ) : IsDouble (p8 q) := by
  obtain ⟨r, h1, h2⟩ := C15_binary64 q
  have e : p8 q = r := by
    have : rounded (.fin q) = .fin (p8 q) := rfl
    rw [this] at h1
    exact Dbl.fin.inj h1
  rw [e]
  refine ⟨h2, ?_⟩
  rw [← e]
  exact lt_of_le_of_lt (p8_in_range h) (by decide +kernel)

theorem rounded_double {v : Dbl} (h : ∀ q, v = .fin q → |q| ≤ Dbl.maxQ) : ∃ q, rounded v = .fin q ∧ IsDouble q := by
  cases v with
  | fin q => exact ⟨_, rfl, isDouble_p8 (h q rfl)⟩
  | _ => exact ⟨0, rfl, by decide +kernel⟩

/-- Printing with 8 digits does not turn a double into zero. -/
theorem rounded_ne_zero {q : ℚ} (h : IsDouble q) (h0 : q ≠ 0) : p8 q ≠ 0 := by
  have hk : 0 < p8 ((2:ℚ) ^ (-1074:ℤ)) := by decide +kernel
  have main : ∀ q : ℚ, IsDouble q → 0 < q → 0 < p8 q := by
    intro q h hq
    obtain ⟨n, hn⟩ := double_mult h.1
    have hp : (0:ℚ) < (2:ℚ) ^ (-1074:ℤ) := by positivity
    have hn1 : 1 ≤ n := by
      by_contra hc
      have : (n:ℚ) ≤ 0 := by exact_mod_cast (by omega : n ≤ 0)
      nlinarith
    have hge : (2:ℚ) ^ (-1074:ℤ) ≤ q := by
      have : (1:ℚ) ≤ n := by exact_mod_cast hn1
      rw [hn]; nlinarith
    exact lt_of_lt_of_le hk (p8_mono hge)
  rcases lt_or_gt_of_ne h0 with hq | hq
  · have hd : IsDouble (-q) := ⟨by rw [bin64_neg, h.1], by rw [abs_neg]; exact h.2⟩
    have := main (-q) hd (by linarith)
    rw [p8_neg] at this
    intro hc; rw [hc] at this; simp at this
  · exact (main q h hq).ne'

/-- What `make_updated_objective_info` must give for its result to be read back: the parameters of the objective, with finite mean and finite nonzero std. -/
def Continues (info u : ObjInfo) : Prop :=
  u.pars.map frame = info.pars.map frame ∧ ∀ p ∈ u.pars, ∃ m s : ℚ, p.mean = .fin m ∧ p.std = .fin s ∧ IsDouble m ∧ IsDouble s ∧ s ≠ 0

theorem Continues.names {info u : ObjInfo} (h : Continues info u) : u.pars.map ParInfo.name = info.pars.map ParInfo.name := by
  have := congrArg (List.map Prod.fst) h.1
  rw [List.map_map, List.map_map] at this
  exact this

theorem Continues.dim_eq {info u : ObjInfo} (h : Continues info u) : u.dim = info.dim := by
  have := congrArg List.length h.1
  simpa [dim] using this

theorem Continues.finite {info u : ObjInfo} (h : Continues info u) : ∀ p ∈ u.pars, IsFinite p.mean ∧ IsFinite p.std := by
  intro p hp
  obtain ⟨m, s, h1, h2, h3, h4, -⟩ := h.2 p hp
  exact ⟨⟨m, h1, isDouble_max h3⟩, ⟨s, h2, isDouble_max h4⟩⟩

/-- Importing the file of a point over `u` into the objective. -/
theorem saved_import {info u : ObjInfo} (hu : NamesUnique info) (hup : Continues info u) (hn : ∀ p ∈ info.pars, FileName p.name) {vs : List Dbl} (hl : vs.length = info.dim)
    (hst : ∀ v ∈ vs, rounded v = v) (hv : ∀ v ∈ vs, ∃ q, v = .fin q ∧ IsDouble q) (b : Bool) :
    ∃ j, info.importMeanStd strtodReader (some ((SearchPoint.mk u vs).write fmt8)) { useBestAsMean := b } = (j, .ok (info.dim, 0)) ∧
      j.pars.map frame = info.pars.map frame ∧ j.locked = info.locked ∧ j.minimize = info.minimize ∧ j.target = info.target ∧ j.name = info.name ∧
      j.pars.map ParInfo.mean = (if b then vs else u.pars.map fun p => rounded p.mean) ∧ j.pars.map ParInfo.std = u.pars.map fun p => rounded p.std := by
  have hud : u.pars.length = info.pars.length := hup.dim_eq
  have hwf : (SearchPoint.mk u vs).WF := by simp only [SearchPoint.WF]; rw [hl, hup.dim_eq]
  have hnu : ∀ p ∈ u.pars, FileName p.name := by
    intro p hp
    have : p.name ∈ info.pars.map ParInfo.name := by rw [← hup.names]; exact List.mem_map.2 ⟨p, hp, rfl⟩
    obtain ⟨q, hq, he⟩ := List.mem_map.1 this
    rw [← he]; exact hn q hq
  have hfin : ∀ v ∈ vs, IsFinite v := fun v hm => by obtain ⟨q, h1, h2⟩ := hv v hm; exact ⟨q, h1, isDouble_max h2⟩
  obtain ⟨-, hscan, -⟩ := saved_scan ⟨u, vs⟩ hwf hst hnu hfin hup.finite
  have hrn := savedRecs_names ⟨u, vs⟩ hwf
  have hstd : ∀ r ∈ savedRecs ⟨u, vs⟩, Dbl.eq r.std (.fin 0) = false := by
    intro r hr
    obtain ⟨⟨p, v⟩, hz, rfl⟩ := List.mem_map.1 hr
    obtain ⟨m, s, -, h2, -, h4, h5⟩ := hup.2 p (List.of_mem_zip hz).1
    change Dbl.eq (rounded p.std) (.fin 0) = false
    rw [h2]
    exact decide_eq_false (rounded_ne_zero h4 h5)
  have hfold := import_fold_pars { useBestAsMean := b } rfl rfl info (savedRecs ⟨u, vs⟩) [] info.pars 0 0 hu.free (by rw [hrn]; exact hup.names) hstd
  have hrl : (savedRecs ⟨u, vs⟩).length = info.dim := by simp [savedRecs, hl, hud, dim]
  rw [hrl] at hfold
  simp only [List.nil_append, Nat.zero_add] at hfold
  refine ⟨{ info with pars := List.zipWith (importPar { useBestAsMean := b }) (savedRecs ⟨u, vs⟩) info.pars }, ?_, ?_, rfl, rfl, rfl, rfl, ?_, ?_⟩
  · simp only [ObjInfo.importMeanStd, hscan]
    have e : info = { info with pars := info.pars } := rfl
    rw [← e] at hfold
    rw [hfold]
    rfl
  · apply List.ext_getElem
    · simp [hrl, dim]
    · intro k h1 h2
      have := importPar_name { useBestAsMean := b } ((savedRecs ⟨u, vs⟩)[k]'(by simp at h1; omega)) (info.pars[k]'(by simpa using h2))
      simp [frame, this]
  · apply List.ext_getElem
    · cases b <;> simp [hrl, dim, hl, hud]
    · intro k h1 h2
      have hk : k < info.pars.length := by simpa [hrl, dim] using h1
      have hku : k < u.pars.length := by omega
      have hkv : k < vs.length := by rw [hl]; exact hk
      obtain ⟨q, e1, e2⟩ := hv vs[k] (List.getElem_mem _)
      obtain ⟨m, s, e3, -, e4, -⟩ := hup.2 u.pars[k] (List.getElem_mem _)
      have e5 : rounded (u.pars[k]).mean = .fin (p8 m) := by rw [e3]; rfl
      have e6 := affine_id (isDouble_p8 (isDouble_max e4))
      have e7 := affine_id e2
      cases b
      · simp only [List.getElem_map, List.getElem_zipWith, importPar, savedRecs, List.getElem_zip, if_true, Bool.false_eq_true, if_false]
        rw [e5, e6]
      · simp only [List.getElem_map, List.getElem_zipWith, importPar, savedRecs, List.getElem_zip, if_true]
        rw [e1, e7]
  · apply List.ext_getElem
    · simp [hrl, dim, hud]
    · intro k h1 h2
      have hk : k < info.pars.length := by simpa [hrl, dim] using h1
      have hku : k < u.pars.length := by omega
      obtain ⟨m, s, -, e3, -, e4, -⟩ := hup.2 u.pars[k] (List.getElem_mem _)
      have e5 : rounded (u.pars[k]).std = .fin (p8 s) := by rw [e3]; rfl
      have e6 := affine_id (isDouble_p8 (isDouble_max e4))
      simp only [List.getElem_map, List.getElem_zipWith, importPar, savedRecs, List.getElem_zip, if_true]
      rw [e5, e6]

/-! ## C109 -/

/-- All values of the evaluated points are doubles. -/
def DoublePoints (h : List Op) : Prop := ∀ i, Op.step i ∈ h → ∀ p ∈ i.pop, ∀ v ∈ p, ∀ q : ℚ, v = .fin q → |q| ≤ Dbl.maxQ

/-- The values of a best point are stored values: doubles with 8 digits. -/
theorem best_stored (E : OptEnv) (info : ObjInfo) (m : Int) (hd : info.dim ≠ 0) (h : List Op) (hv : ∀ o ∈ h, o.Valid info) (hq : DoublePoints h)
    (hm : ∀ p ∈ info.pars, ∀ q : ℚ, p.mean = .fin q → |q| ≤ Dbl.maxQ) :
    let s := (Opt.new info m).after E h
    s.vis.bestPoint.length = info.dim ∧ ∀ v ∈ s.vis.bestPoint, rounded v = v ∧ ∃ q, v = .fin q ∧ IsDouble q := by
  have hr : ∀ l : List Dbl, (∀ v ∈ l, ∀ q : ℚ, v = .fin q → |q| ≤ Dbl.maxQ) → ∀ v ∈ l.map rounded, rounded v = v ∧ ∃ q, v = .fin q ∧ IsDouble q := by
    intro l hl v hv
    obtain ⟨w, hw, rfl⟩ := List.mem_map.1 hv
    exact ⟨C15_idempotent w, rounded_double (hl w hw)⟩
  have := history_induction (E := E) hd (new_WF info m) (fun h s => DoublePoints h → ∀ v ∈ s.vis.bestPoint, rounded v = v ∧ ∃ q, v = .fin q ∧ IsDouble q) ?_ ?_ h hv
  · exact ⟨this.1.len, this.2 hq⟩
  · intro _
    refine hr _ fun v hv => ?_
    obtain ⟨p, hp, rfl⟩ := List.mem_map.1 hv
    exact hm p hp
  · intro h s o hw ho ih hq
    have ih := ih fun i hi => hq i (by simp [hi])
    obtain ⟨-, -, -, c4, -⟩ := core_ext (apply_core E s o hd hw ho)
    rw [c4]
    cases o with
    | step i =>
      have e : (Op.onVis E s.vis (.step i)) = s.vis.stepped E i := rfl
      rw [e]
      by_cases hf : i.Failed s.vis.maxErrors
      · rw [stepped_failed E hf]
        cases i.interrupt <;> exact ih
      · obtain ⟨-, d2, -⟩ := stepped_completed E hf
        rw [d2]
        split
        · refine hr _ ?_
          have hb := (In.bestPt_get (info := s.vis.info) (i := i) (by rw [hw.info_eq]; exact ho)).1
          exact hq i (by simp) _ (List.mem_of_getElem? hb)
        · exact ih
    | addCond c => unfold Op.onVis; dsimp only; split <;> exact ih
    | _ => exact ih

/-- What the par file `text` gives to its readers: `import_values` gives the point `best`, a `static_par_set` finds its values by name, and `import_mean_std` continues from it: the
objective keeps its parameters, bounds and locked parameters, with the standard deviations of `u` and - depending on `use_best_as_mean` - `best` or the means of `u` (all at 8 digits). -/
def Reproduces (text : Str) (info u : ObjInfo) (best : Pt) : Prop :=
  (∀ t : SearchPoint, t.WF → t.info.pars.map ParInfo.name = info.pars.map ParInfo.name →
    t.importValues strtodReader (some text) = (⟨t.info, best⟩, .ok (info.dim, 0))) ∧
  (∀ (k : Nat) (p : ParInfo), info.pars[k]? = some p → (StaticPars.load strtodReader [] text).lookup p.name = best[k]?) ∧
  ∀ b : Bool, ∃ j, info.importMeanStd strtodReader (some text) { useBestAsMean := b } = (j, .ok (info.dim, 0)) ∧
    j.pars.map frame = info.pars.map frame ∧ j.locked = info.locked ∧ j.minimize = info.minimize ∧ j.target = info.target ∧ j.name = info.name ∧
    j.pars.map ParInfo.mean = (if b then best else u.pars.map fun p => rounded p.mean) ∧ j.pars.map ParInfo.std = (u.pars.map fun p => rounded p.std) ∧
    (b = true → (SearchPoint.ofInfo j).values = best)

theorem saved_reproduces {info u : ObjInfo} (hd : info.dim ≠ 0) (hu : NamesUnique info) (hup : Continues info u) (hn : ∀ p ∈ info.pars, FileName p.name) {vs : List Dbl} (hl : vs.length = info.dim)
    (hst : ∀ v ∈ vs, rounded v = v ∧ ∃ q, v = .fin q ∧ IsDouble q) : Reproduces ((SearchPoint.mk u vs).write fmt8) info u vs := by
  have hud : u.pars.length = info.pars.length := hup.dim_eq
  have hwf : (SearchPoint.mk u vs).WF := by simp only [SearchPoint.WF]; rw [hl, hup.dim_eq]
  have hnu : ∀ p ∈ u.pars, FileName p.name := by
    intro p hp
    have : p.name ∈ info.pars.map ParInfo.name := by rw [← hup.names]; exact List.mem_map.2 ⟨p, hp, rfl⟩
    obtain ⟨q, hq, he⟩ := List.mem_map.1 this
    rw [← he]; exact hn q hq
  have hfin : ∀ v ∈ vs, IsFinite v := fun v hm => by obtain ⟨-, q, h1, h2⟩ := hst v hm; exact ⟨q, h1, isDouble_max h2⟩
  refine ⟨fun t ht htn => ?_, fun k p hk => ?_, fun b => ?_⟩
  · have := saved_values ⟨u, vs⟩ t (by rw [htn]; exact hu.free) (by rw [htn]; exact hup.names) hwf ht (fun v hv => (hst v hv).1) (by rw [hup.dim_eq]; exact hd) hnu hfin hup.finite
    rw [this]
    have : t.info.dim = info.dim := by simpa [dim] using congrArg List.length htn
    rw [this]
  · have hun : NamesUnique { u with locked := [] } := ⟨by rw [hup.names]; exact hu.free, List.nodup_nil, by simp⟩
    have hload := (C96_load_saved_point ⟨{ u with locked := [] }, vs⟩ hun hwf (fun v hv => (hst v hv).1) hnu hfin hup.finite).1
    have hku : k < u.pars.length := by rw [hud]; exact (List.getElem?_eq_some_iff.1 hk).1
    have := hload k u.pars[k] (List.getElem?_eq_getElem hku)
    have hname : u.pars[k].name = p.name := by
      have e := congrArg (fun l : List Str => l[k]?) hup.names
      simp only [List.getElem?_map, hk, List.getElem?_eq_getElem hku, Option.map_some, Option.some.injEq] at e
      exact e
    rw [hname] at this
    exact this
  · obtain ⟨j, h1, h2, h3, h4, h5, h6, h7, h8⟩ := saved_import hu hup hn hl (fun v hv => (hst v hv).1) (fun v hv => (hst v hv).2) b
    refine ⟨j, h1, h2, h3, h4, h5, h6, h7, h8, fun hb => ?_⟩
    subst hb
    rw [if_pos rfl] at h7
    simp only [SearchPoint.ofInfo]
    rw [h7]
    exact (List.map_congr_left fun v hv => (hst v hv).1).trans (List.map_id _)

theorem bests_newBest (xs : List Call) : (bests xs).map (fun x => newBestOf (x.event, x.vis)) = ((xs.map fun x => (x.event, x.vis)).filterMap newBestOf).map some := by
  induction xs with
  | nil => rfl
  | cons x xs ih =>
    have e : bests (x :: xs) = bests [x] ++ bests xs := by unfold bests; rw [← List.filter_append]; rfl
    rw [e, List.map_append, ih]
    obtain ⟨ev, v, a, b, d⟩ := x
    cases ev <;> rfl

/-- **C109.** For every history of an optimizer and every file reporter that was added to it at some time and has heard of a new best since: the file of the newest best is there, and gives the
best point of the optimizer to every reader, exactly. -/
theorem C109_best_file (E : OptEnv) (info : ObjInfo) (m : Int) (hd : info.dim ≠ 0) (hu : NamesUnique info) (hn : ∀ p ∈ info.pars, FileName p.name)
    (hmean : ∀ p ∈ info.pars, ∀ q : ℚ, p.mean = .fin q → |q| ≤ Dbl.maxQ) (h0 h : List Op) (hv : ∀ o ∈ h0 ++ h, o.Valid info) (hq : DoublePoints (h0 ++ h))
    (c : FileCfg) (hm : 1 ≤ c.maxSteps) (hf : c.fmt = fmt8) (xs : List Call) (hx : Receives E info m h0 h xs) (hup : ∀ x ∈ xs, Continues info x.upd) (fs : Str → Option Str)
    (hb : bests xs ≠ []) :
    ∃ r x text, FileRep.run c E { files := fs } xs = .ok r ∧ (bests xs).getLast? = some x ∧ r.files (c.parName x.vis) = some text ∧
      x.event = .newBest ((Opt.new info m).after E (h0 ++ h)).vis.bestPoint ((Opt.new info m).after E (h0 ++ h)).vis.bestFitness ∧
      Reproduces text info x.upd ((Opt.new info m).after E (h0 ++ h)).vis.bestPoint := by
  obtain ⟨r, hr, -, hlast, -⟩ := C59_best_files c E info m hd h0 h hv hm xs hx (fun x hx => (hup x hx).dim_eq) fs
  obtain ⟨x, hx1⟩ : ∃ x, (bests xs).getLast? = some x := ⟨_, List.getLast?_eq_some_getLast hb⟩
  have hxm : x ∈ xs := (List.mem_filter.1 (List.mem_of_getLast? hx1)).1
  obtain ⟨q, f, he, hfile⟩ := hlast x hx1
  have hnew := newest_best E info m hd (h0 ++ h) hv
  obtain ⟨hl, hst⟩ := best_stored E info m hd (h0 ++ h) hv hq hmean
  unfold Receives at hx
  dsimp only at hnew
  rw [hx, List.filterMap_append] at hnew
  have hbn := bests_newBest xs
  generalize hL : (xs.map fun x => (x.event, x.vis)).filterMap newBestOf = L at hnew hbn
  have hLlast : L.getLast? = some (q, f) := by
    have := congrArg List.getLast? hbn
    rw [List.getLast?_map, List.getLast?_map, hx1] at this
    simp only [Option.map_some, he, newBestOf] at this
    cases hgl : L.getLast? with
    | none => rw [hgl] at this; simp at this
    | some y => rw [hgl] at this; simp at this; rw [this]
  have hqf : (q, f) = (((Opt.new info m).after E (h0 ++ h)).vis.bestPoint, ((Opt.new info m).after E (h0 ++ h)).vis.bestFitness) := by
    rcases hnew with ⟨h1, -⟩ | h1
    · have : L = [] := (List.append_eq_nil_iff.1 h1).2
      rw [this] at hLlast; simp at hLlast
    · rw [List.getLast?_append, hLlast] at h1
      exact Option.some.inj h1
  obtain ⟨h1, h2⟩ := Prod.mk.inj hqf
  refine ⟨r, x, _, hr, hx1, hfile, ?_, ?_⟩
  · rw [he, h1, h2]
  · rw [hf, h1]
    exact saved_reproduces hd hu (hup x hxm) hn hl hst

/-- **C109.** A reporter that was there from the start has heard of a new best unless the best fitness is still the worst there is. -/
theorem C109_heard (E : OptEnv) (info : ObjInfo) (m : Int) (hd : info.dim ≠ 0) (h0 h : List Op) (hv : ∀ o ∈ h0 ++ h, o.Valid info) (hs : ∀ i, Op.step i ∉ h0)
    (xs : List Call) (hx : Receives E info m h0 h xs) : bests xs ≠ [] ∨ ((Opt.new info m).after E (h0 ++ h)).vis.bestFitness = info.worstFitness := by
  have h0log : ((Opt.new info m).after E h0).log.filterMap newBestOf = [] := by
    clear hx hv
    induction h0 using List.reverseRecOn with
    | nil => rfl
    | append_singleton h0 o ih =>
      have ih := ih fun i hi => hs i (by simp [hi])
      rw [after_append]
      have e0 : (((Opt.new info m).after E h0).after E [o]) = o.apply E ((Opt.new info m).after E h0) := rfl
      rw [e0]
      rcases C28_only_steps E ((Opt.new info m).after E h0) o (fun i hi => hs i (by simp [hi])) with e | ⟨k, v, -, -, e⟩
      · rw [e]; exact ih
      · rw [e, List.filterMap_append, ih]; simp [newBestOf]
  have hnew := newest_best E info m hd (h0 ++ h) hv
  unfold Receives at hx
  dsimp only at hnew
  rw [hx, List.filterMap_append, h0log, List.nil_append] at hnew
  by_cases hb : bests xs = []
  · right
    have hbn := bests_newBest xs
    rw [hb] at hbn
    have hL : (xs.map fun x => (x.event, x.vis)).filterMap newBestOf = [] := by simpa using hbn.symm
    rw [hL] at hnew
    rcases hnew with h1 | h1
    · exact h1.2
    · simp at h1
  · exact .inl hb

/-- **C109.** After any session of an algorithm with a file reporter that was added at the start: if any fitness was better than the worst there is, the newest par file gives the result of the
optimization to every reader: a point that was evaluated, lies within the bounds, and has the best fitness. -/
theorem Machine.Good.reproduce [Libm] {S : Type} {E : OptEnv} {F : Pt → Option Dbl} {M : Machine S} {info : ObjInfo} {nan : Prop} (hM : M.Good E F info nan) (hd : info.dim ≠ 0)
    (hF : ∀ x, F x ≠ some .nan) (hu : NamesUnique info) (hn : ∀ p ∈ info.pars, FileName p.name) (hmean : ∀ p ∈ info.pars, ∀ q : ℚ, p.mean = .fin q → |q| ≤ Dbl.maxQ)
    {s t : S} (h0 : Fresh info (M.opt s)) {l : List Op} (h : M.Session E F s l t) (hq : DoublePoints l)
    (c : FileCfg) (hm : 1 ≤ c.maxSteps) (hf : c.fmt = fmt8) (xs : List Call) (hx : (M.opt t).log = xs.map fun x => (x.event, x.vis)) (hup : ∀ x ∈ xs, Continues info x.upd)
    (fs : Str → Option Str) (hw : (M.opt t).vis.bestFitness ≠ info.worstFitness) :
    ∃ r x text, FileRep.run c E { files := fs } xs = .ok r ∧ x ∈ xs ∧ r.files (c.parName x.vis) = some text ∧ Reproduces text info x.upd (M.opt t).vis.bestPoint ∧
      F (M.opt t).vis.bestPoint = some (M.opt t).vis.bestFitness ∧ EvaluatedWithin nan info (M.opt t).vis.bestPoint := by
  have hsol := hM.result hd hF h0 h
  obtain ⟨h1, -⟩ := hM.session h
  have hval := hM.valid h
  rw [fresh_after h0] at h1
  have hv : ∀ o ∈ [Op.addCond (.flat (lit (1 / 10 ^ 9)))] ++ l, o.Valid info := by
    intro o ho
    rcases List.mem_append.1 ho with ho | ho
    · rw [List.mem_singleton] at ho; subst ho; trivial
    · exact hval o ho
  have hq' : DoublePoints ([Op.addCond (.flat (lit (1 / 10 ^ 9)))] ++ l) := by
    intro i hi
    rcases List.mem_append.1 hi with hi | hi
    · rw [List.mem_singleton] at hi; cases hi
    · exact hq i hi
  have hr : Receives E info 0 [Op.addCond (.flat (lit (1 / 10 ^ 9)))] l xs := by
    unfold Receives
    have e : ((Opt.new info 0).after E [Op.addCond (.flat (lit (1 / 10 ^ 9)))]).log = [] := rfl
    rw [e, List.nil_append, ← hx, h1]
    rfl
  have e1 : (Opt.new info 0).after E ([Op.addCond (.flat (lit (1 / 10 ^ 9)))] ++ l) = M.opt t := h1.symm
  have hb : bests xs ≠ [] := by
    rcases C109_heard E info 0 hd _ l hv (by simp) xs hr with hb | hb
    · exact hb
    · rw [e1] at hb; exact absurd hb hw
  obtain ⟨r, x, text, g1, g2, g3, -, g5⟩ := C109_best_file E info 0 hd hu hn hmean _ l hv hq' c hm hf xs hr hup fs hb
  rw [e1] at g5
  refine ⟨r, x, text, g1, (List.mem_filter.1 (List.mem_of_getLast? g2)).1, g3, g5, ?_⟩
  rcases hsol.2 with ⟨h2, -⟩ | ⟨h2, h3, -⟩
  · exact absurd h2 hw
  · exact ⟨h2, h3⟩

/-- **C109** for MES and EVA. -/
theorem C109_mes_eva [Libm] {R : Rng Dbl} (hR : R.NoNaN) (E : OptEnv) (info : ObjInfo) (hd : info.dim ≠ 0) (hv : ∀ p ∈ info.pars, p.isValid = true) (c : EsCfg R info.dim)
    (hc : c.bounds = Bounds.ofInfo info) (hl : 1 ≤ c.lambda) (h0 : 0 ≤ c.mu) (h1 : c.mu ≤ c.lambda) (F : Pt → Option Dbl) (hF : ∀ x, F x ≠ some .nan) (e : R.Eng)
    (hu : NamesUnique info) (hn : ∀ p ∈ info.pars, FileName p.name) (hmean : ∀ p ∈ info.pars, ∀ q : ℚ, p.mean = .fin q → |q| ≤ Dbl.maxQ)
    {l : List Op} {t : EsOpt R info.dim} (h : (esMachine E c).Session E F (EsOpt.make info e) l t) (hq : DoublePoints l)
    (g : FileCfg) (hm : 1 ≤ g.maxSteps) (hf : g.fmt = fmt8) (xs : List Call) (hx : t.opt.log = xs.map fun x => (x.event, x.vis)) (hup : ∀ x ∈ xs, Continues info x.upd)
    (fs : Str → Option Str) (hw : t.opt.vis.bestFitness ≠ info.worstFitness) :
    ∃ r x text, FileRep.run g E { files := fs } xs = .ok r ∧ x ∈ xs ∧ r.files (g.parName x.vis) = some text ∧ Reproduces text info x.upd t.opt.vis.bestPoint ∧
      F t.opt.vis.bestPoint = some t.opt.vis.bestFitness ∧ EvaluatedWithin False info t.opt.vis.bestPoint :=
  (es_good hR E info hv c hc hl h0 h1 F).reproduce hd hF hu hn hmean (show Fresh info ((esMachine E c).opt (EsOpt.make info e)) from rfl) h hq g hm hf xs hx hup fs hw

/-- **C109** for CMA. -/
theorem C109_cma [Libm] {G : GaussSrc Dbl} (E : OptEnv) (info : ObjInfo) (hd : info.dim ≠ 0) (hv : ∀ p ∈ info.pars, p.isValid = true) (c : CmaCfg info.dim)
    (hc : c.bounds = Bounds.ofInfo info) (hl : 1 ≤ c.par.lambda) (F : Pt → Option Dbl) (hF : ∀ x, F x ≠ some .nan) (opt : Int) (modulo : Dbl) (rng : G.St) (s0 : CmaOpt G info.dim)
    (hs0 : CmaOpt.make info opt modulo rng = .ok (c.par, s0))
    (hu : NamesUnique info) (hn : ∀ p ∈ info.pars, FileName p.name) (hmean : ∀ p ∈ info.pars, ∀ q : ℚ, p.mean = .fin q → |q| ≤ Dbl.maxQ)
    {l : List Op} {t : CmaOpt G info.dim} (h : (cmaMachine E c).Session E F s0 l t) (hq : DoublePoints l)
    (g : FileCfg) (hm : 1 ≤ g.maxSteps) (hf : g.fmt = fmt8) (xs : List Call) (hx : t.opt.log = xs.map fun x => (x.event, x.vis)) (hup : ∀ x ∈ xs, Continues info x.upd)
    (fs : Str → Option Str) (hw : t.opt.vis.bestFitness ≠ info.worstFitness) :
    ∃ r x text, FileRep.run g E { files := fs } xs = .ok r ∧ x ∈ xs ∧ r.files (g.parName x.vis) = some text ∧ Reproduces text info x.upd t.opt.vis.bestPoint ∧
      F t.opt.vis.bestPoint = some t.opt.vis.bestFitness ∧ EvaluatedWithin True info t.opt.vis.bestPoint :=
  (cma_good (G := G) E info hd hv c hc hl F).reproduce hd hF hu hn hmean (make_ok hs0).1 h hq g hm hf xs hx hup fs hw

/-- **C109** for a pool: the file of the last announced best gives the announced point to every reader (if the files of the bests have different names, see C105). -/
theorem C109_pool_file {E : OptEnv} (info : ObjInfo) (hd : info.dim ≠ 0) (hu : NamesUnique info) (hn : ∀ p ∈ info.pars, FileName p.name) (cfg : PoolCfg)
    {ls : List (List Nat × List Nat)} {xs : List Call} {p : Pool} (h : Pool.Hears E (Opt.Unused E info) (Pool.init cfg info) ls xs p) (c : FileCfg) (hm : 1 ≤ c.maxSteps) (hf : c.fmt = fmt8)
    (hup : ∀ x ∈ xs, Continues info x.upd) (hq : ∀ x ∈ xs, ∀ v ∈ x.vis.curPoint, ∀ q : ℚ, v = .fin q → |q| ≤ Dbl.maxQ) (fs : Str → Option Str)
    (hnames : ((bests xs).map fun x => c.parName x.vis).Nodup) :
    ∃ r, FileRep.run c E { files := fs } xs = .ok r ∧ ∀ x, (bests xs).getLast? = some x → ∀ q f, x.event = .newBest q f → f ≠ info.worstFitness →
      ∃ text, r.files (c.parName x.vis) = some text ∧ Reproduces text info x.upd q := by
  obtain ⟨r, h1, h2⟩ := C105_files info hd cfg h c hm (fun x hx => (hup x hx).dim_eq) fs hnames
  refine ⟨r, h1, fun x hx q f he hne => ⟨_, h2 x (.inr hx) q f he hne, ?_⟩⟩
  have hxm : x ∈ xs := (List.mem_filter.1 (List.mem_of_getLast? hx)).1
  obtain ⟨k, -, hg⟩ := (hears_ok h hd).2.2.good x hxm
  unfold Call.Good at hg
  rw [he] at hg
  obtain ⟨-, -, hl, hg⟩ := hg
  rcases hg with hg | ⟨-, hg⟩
  · exact absurd hg hne
  rw [hf]
  subst hg
  refine saved_reproduces hd hu (hup x hxm) hn (by rw [List.length_map, hl]) fun v hv => ?_
  obtain ⟨w, hw, rfl⟩ := List.mem_map.1 hv
  exact ⟨C15_idempotent w, rounded_double (hq x hxm w hw)⟩

/-! ## concrete cases -/

def reproCfg : FileCfg := { repCfg with fmt := fmt8 }
/-- The best of four steps is the point 1/3, at the second step; the third one fails. -/
def reproHist : List Op := [(.fin 1, some (.fin 7)), (.fin (1 / 3), some (.fin 3)), (.fin 2, none), (.fin 4, some (.fin 5))].map fun x : Dbl × Option Dbl => .step { pop := [[x.1]], res := [x.2] }
def reproUpd : ObjInfo := { optInfo with pars := optInfo.pars.map fun p => { p with mean := .fin (1 / 4), std := .fin (1 / 8) } }
def reproCalls : List Call := ((Opt.new optInfo 0).after optEnv reproHist).log.map fun e => ⟨e.1, e.2, reproUpd, [], []⟩

/-- The hypotheses of `C109_best_file`. -/
example : optInfo.dim ≠ 0 ∧ NamesUnique optInfo ∧ (∀ p ∈ optInfo.pars, FileName p.name) ∧ (∀ p ∈ optInfo.pars, ∀ q : ℚ, p.mean = .fin q → |q| ≤ Dbl.maxQ) ∧
    (∀ o ∈ reproHist, o.Valid optInfo) ∧ DoublePoints reproHist ∧ 1 ≤ reproCfg.maxSteps ∧ reproCfg.fmt = fmt8 ∧ Receives optEnv optInfo 0 [] reproHist reproCalls ∧
    (∀ x ∈ reproCalls, Continues optInfo x.upd) ∧ bests reproCalls ≠ [] := by
  refine ⟨by decide, ⟨by decide +kernel, by decide +kernel, by decide +kernel⟩, ?_, ?_, ?_, ?_, by decide, rfl, ?_, ?_, ?_⟩
  · intro p hp; rw [List.mem_singleton.1 hp]; exact ⟨by decide, by decide⟩
  · intro p hp q hq; rw [List.mem_singleton.1 hp] at hq; cases hq; decide +kernel
  · intro o ho
    obtain ⟨f, -, rfl⟩ := List.mem_map.1 ho
    exact ⟨by simp, rfl, by simp; rfl⟩
  · intro i hi p hp v hv q hq
    simp only [reproHist, List.map_cons, List.map_nil, List.mem_cons, Op.step.injEq, List.not_mem_nil, or_false] at hi
    rcases hi with rfl | rfl | rfl | rfl <;> (rw [List.mem_singleton.1 hp, List.mem_singleton] at hv; rw [hq] at hv; cases hv; decide +kernel)
  · unfold Receives reproCalls
    rw [List.map_map]
    exact (List.map_id _).symm.trans (List.nil_append _).symm
  · intro x hx
    obtain ⟨e, -, rfl⟩ := List.mem_map.1 hx
    refine ⟨rfl, fun p hp => ?_⟩
    rw [List.mem_singleton.1 hp]
    exact ⟨1 / 4, 1 / 8, rfl, rfl, by decide +kernel, by decide +kernel, by decide +kernel⟩
  · have : (bests reproCalls).length ≠ 0 := by decide +kernel
    intro h; rw [h] at this; exact this rfl

/-- The best point is 1/3 at 8 digits, its file holds it, and so it is read back, with the std of `reproUpd`. -/
example : ((Opt.new optInfo 0).after optEnv reproHist).vis.bestPoint = [rounded (.fin (1 / 3))] ∧ ((Opt.new optInfo 0).after optEnv reproHist).vis.bestFitness = .fin 3 ∧
    (SearchPoint.mk reproUpd [rounded (.fin (1 / 3))]).write fmt8 = "x\t0.33333333\t0.25\t0.125\t\n".toList ∧
    ((optInfo.importMeanStd strtodReader (some "x\t0.33333333\t0.25\t0.125\t\n".toList) { useBestAsMean := true }).1.pars.map fun p => (p.mean, p.std)) =
      [(rounded (.fin (1 / 3)), .fin (1 / 8))] := by
  refine ⟨by decide +kernel, by decide +kernel, ?_, by decide +kernel⟩
  decide +kernel

end Spot
