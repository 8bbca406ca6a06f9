import Verif.Lemmas.Simulation
import Verif.Props.Selection

/-! # What the optimizers use of the fitness: only its order (C47, C48; MES and EVA) -/

namespace Spot

variable [Libm] {R : Rng Dbl}

/-- A transformation `g` of fitness values that keeps their order on a set `V` of values, to which the objective is confined. All values
are better than the fitness an optimizer starts with. -/
structure Monotone (info : ObjInfo) (V : Set Dbl) (g : Dbl → Dbl) : Prop where
  order : ∀ a ∈ V, ∀ b ∈ V, Dbl.lt (g a) (g b) = Dbl.lt a b
  numbers : ∀ a ∈ V, a ≠ .nan ∧ g a ≠ .nan
  below : ∀ a ∈ V, info.isBetter a info.worstFitness = true ∧ info.isBetter (g a) info.worstFitness = true

omit [Libm] in
theorem isBetter_irrefl (i : ObjInfo) (a : Dbl) : i.isBetter a a = false := by
  unfold ObjInfo.isBetter; split <;> cases a <;> simp [Dbl.lt]

omit [Libm] in
theorem isBetter_asymm (i : ObjInfo) {a b : Dbl} (h : i.isBetter a b = true) : i.isBetter b a = false := by
  unfold ObjInfo.isBetter at *
  split at h <;> simp_all <;> cases a <;> cases b <;> simp_all [Dbl.lt, le_of_lt]

omit [Libm] in
theorem monotone_fitRel {info : ObjInfo} {V : Set Dbl} {g : Dbl → Dbl} (h : Monotone info V g) :
    FitRel info info (fun a b => (a ∈ V ∧ b = g a) ∨ (a = info.worstFitness ∧ b = info.worstFitness)) where
  better := by
    rintro a b a' b' (⟨h1, rfl⟩ | ⟨rfl, rfl⟩) (⟨h2, rfl⟩ | ⟨rfl, rfl⟩)
    · unfold ObjInfo.isBetter; split <;> simp [h.order _ h1 _ h2, h.order _ h2 _ h1]
    · rw [(h.below a h1).1, (h.below a h1).2]
    · rw [isBetter_asymm _ (h.below a' h2).1, isBetter_asymm _ (h.below a' h2).2]
    · rfl
  nan := by
    rintro a b (⟨h1, rfl⟩ | ⟨rfl, rfl⟩)
    · exact iff_of_false (h.numbers a h1).2 (h.numbers a h1).1
    · rfl
  worst := .inr ⟨rfl, rfl⟩

omit [Libm] in
theorem make_rel [Libm] (info : ObjInfo) (e : R.Eng) {Rel : Dbl → Dbl → Prop} (hw : Rel info.worstFitness info.worstFitness) :
    OptRel info info Rel (EsOpt.make (R := R) info e).opt (EsOpt.make (R := R) info e).opt :=
  ⟨rfl, rfl, rfl, hw, rfl, hw, rfl, .nil⟩

/-- **C47.** Let `g` be strictly increasing on the values of the objective `F`. Whatever run a MES or EVA optimizer does with `F`, it can do
with `g ∘ F`: the same populations, the same distribution and random engine after every number of steps, the same best point, and the best
fitness `g` of the best fitness; and conversely. -/
theorem C47_mes_eva (E : OptEnv) (info : ObjInfo) (c : EsCfg R info.dim) (V : Set Dbl) (g : Dbl → Dbl) (hg : Monotone info V g)
    (F : Pt → Option Dbl) (hF : ∀ p a, F p = some a → a ∈ V) (e : R.Eng) (ps : List (List Pt)) :
    (∀ t, EsOpt.Runs E c F (EsOpt.make info e) ps t → ∃ t', EsOpt.Runs E c (fun p => (F p).map g) (EsOpt.make info e) ps t' ∧
      t'.dist = t.dist ∧ t'.eng = t.eng ∧ t'.opt.vis.bestPoint = t.opt.vis.bestPoint ∧ t'.opt.vis.curPoint = t.opt.vis.curPoint ∧
      (t'.opt.vis.bestFitness = g t.opt.vis.bestFitness ∨ t.opt.vis.bestFitness = info.worstFitness ∧ t'.opt.vis.bestFitness = info.worstFitness)) ∧
    (∀ t', EsOpt.Runs E c (fun p => (F p).map g) (EsOpt.make info e) ps t' → ∃ t, EsOpt.Runs E c F (EsOpt.make info e) ps t ∧
      t'.dist = t.dist ∧ t'.eng = t.eng ∧ t'.opt.vis.bestPoint = t.opt.vis.bestPoint ∧ t'.opt.vis.curPoint = t.opt.vis.curPoint ∧
      (t'.opt.vis.bestFitness = g t.opt.vis.bestFitness ∨ t.opt.vis.bestFitness = info.worstFitness ∧ t'.opt.vis.bestFitness = info.worstFitness)) := by
  have hr := monotone_fitRel hg
  have hF' : ∀ p, (F p = none ∧ (F p).map g = none) ∨ ∃ a b, F p = some a ∧ (F p).map g = some b ∧
      ((a ∈ V ∧ b = g a) ∨ (a = info.worstFitness ∧ b = info.worstFitness)) := by
    intro p
    cases hp : F p with
    | none => exact .inl ⟨rfl, rfl⟩
    | some a => exact .inr ⟨a, g a, rfl, rfl, .inl ⟨hF p a hp, rfl⟩⟩
  constructor
  · intro t ht
    obtain ⟨t', h1, h2, h3, h4⟩ := runs_congr E c hr hF' (make_rel info e hr.worst) rfl rfl ht
    refine ⟨t', h1, h3, h4, h2.bestPt, h2.curPt, ?_⟩
    rcases h2.best with h | h
    · exact .inl h.2
    · exact .inr h
  · intro t' ht'
    obtain ⟨t, h1, h2, h3, h4⟩ := runs_congr E c hr.flip (F1 := fun p => (F p).map g) (F2 := F)
      (fun p => by rcases hF' p with h | ⟨a, b, h1, h2, h3⟩; exact .inl h.symm; exact .inr ⟨b, a, h2, h1, h3⟩) (make_rel info e hr.worst) rfl rfl ht'
    refine ⟨t, h1, h3.symm, h4.symm, h2.bestPt.symm, h2.curPt.symm, ?_⟩
    rcases h2.best with h | h
    · exact .inl h.2
    · exact .inr h

omit [Libm] in
/-- The hypotheses hold for doubling the fitness on small integers, which is exact. -/
example : Monotone { minimize := true } {a | ∃ k : Int, -1000 ≤ k ∧ k ≤ 1000 ∧ a = .fin k} (fun a => match a with | .fin q => .fin (2 * q) | x => x) where
  order := by rintro a ⟨k, -, -, rfl⟩ b ⟨l, -, -, rfl⟩; simp
  numbers := by rintro a ⟨k, -, -, rfl⟩; simp
  below := by
    rintro a ⟨k, h1, h2, rfl⟩
    have h3 : ((k : Int) : ℚ) ≤ 1000 := by exact_mod_cast h2
    have h4 : (2000 : ℚ) < Dbl.maxQ := by decide +kernel
    simp only [ObjInfo.isBetter, ObjInfo.worstFitness, if_true, Dbl.lt, decide_eq_true_eq]
    constructor <;> linarith

/-! ## C48 -/

omit [Libm] in
theorem neg_lt_neg' (a b : Dbl) : Dbl.lt (Dbl.neg a) (Dbl.neg b) = Dbl.lt b a := by
  cases a <;> cases b <;> simp [Dbl.neg, Dbl.lt]

/-- The same objective to be maximized instead of minimized, or the other way round. -/
def ObjInfo.opposite (i : ObjInfo) : ObjInfo := { i with minimize := !i.minimize }

omit [Libm] in
theorem neg_fitRel (info : ObjInfo) : FitRel info info.opposite (fun a b => b = Dbl.neg a) where
  better := by
    rintro a b a' b' rfl rfl
    unfold ObjInfo.isBetter ObjInfo.opposite
    cases info.minimize <;> simp [neg_lt_neg']
  nan := by rintro a b rfl; cases a <;> simp [Dbl.neg]
  worst := by
    unfold ObjInfo.worstFitness ObjInfo.opposite
    cases info.minimize <;> simp [Dbl.neg]

/-- **C48.** Whatever a MES or EVA optimizer does with an objective `F` that is minimized (maximized), it can do with `-F` maximized
(minimized): the same populations, distributions and best points, and the negated best fitness; and conversely. -/
theorem C48_mes_eva (E : OptEnv) (info : ObjInfo) (c : EsCfg R info.dim) (F : Pt → Option Dbl) (e : R.Eng) (ps : List (List Pt)) :
    (∀ t, EsOpt.Runs E c F (EsOpt.make info e) ps t → ∃ t',
      EsOpt.Runs E c (fun p => (F p).map Dbl.neg) (EsOpt.make info.opposite e : EsOpt R info.dim) ps t' ∧
      t'.dist = t.dist ∧ t'.eng = t.eng ∧ t'.opt.vis.bestPoint = t.opt.vis.bestPoint ∧ t'.opt.vis.bestFitness = t.opt.vis.bestFitness.neg ∧
      t'.opt.vis.curFitnesses = t.opt.vis.curFitnesses.map Dbl.neg) ∧
    (∀ t', EsOpt.Runs E c (fun p => (F p).map Dbl.neg) (EsOpt.make info.opposite e : EsOpt R info.dim) ps t' → ∃ t,
      EsOpt.Runs E c F (EsOpt.make info e) ps t ∧
      t'.dist = t.dist ∧ t'.eng = t.eng ∧ t'.opt.vis.bestPoint = t.opt.vis.bestPoint ∧ t'.opt.vis.bestFitness = t.opt.vis.bestFitness.neg ∧
      t'.opt.vis.curFitnesses = t.opt.vis.curFitnesses.map Dbl.neg) := by
  have hr := neg_fitRel info
  have hF' : ∀ p, (F p = none ∧ (F p).map Dbl.neg = none) ∨ ∃ a b, F p = some a ∧ (F p).map Dbl.neg = some b ∧ b = Dbl.neg a := by
    intro p
    cases hp : F p with
    | none => exact .inl ⟨rfl, rfl⟩
    | some a => exact .inr ⟨a, _, rfl, rfl, rfl⟩
  have hm : OptRel info info.opposite (fun a b => b = Dbl.neg a) (EsOpt.make (R := R) info e).opt (EsOpt.make (R := R) info.opposite e).opt :=
    ⟨rfl, rfl, rfl, hr.worst, rfl, hr.worst, rfl, .nil⟩
  have hmap : ∀ {l1 l2 : List Dbl}, List.Forall₂ (fun a b => b = Dbl.neg a) l1 l2 → l2 = l1.map Dbl.neg := by
    intro l1 l2 h
    induction h with
    | nil => rfl
    | cons h _ ih => rw [h, ih]; rfl
  constructor
  · intro t ht
    obtain ⟨t', h1, h2, h3, h4⟩ := runs_congr E c hr hF' hm rfl rfl ht
    exact ⟨t', h1, h3, h4, h2.bestPt, h2.best, hmap h2.fits⟩
  · intro t' ht'
    obtain ⟨t, h1, h2, h3, h4⟩ := runs_congr E c hr.flip (F1 := fun p => (F p).map Dbl.neg) (F2 := F) (s2 := EsOpt.make info e)
      (fun p => by rcases hF' p with h | ⟨a, b, h1, h2, h3⟩; exact .inl h.symm; exact .inr ⟨b, a, h2, h1, h3⟩) hm.flip rfl rfl ht'
    exact ⟨t, h1, h3.symm, h4.symm, h2.bestPt.symm, h2.best, hmap h2.fits.flip⟩

end Spot
