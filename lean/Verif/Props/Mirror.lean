import Verif.Lemmas.Mirror
import Verif.Model.Session
import Verif.Props.Best
import Verif.Props.CmaInvariance
import Verif.Props.Evolution

/-!
# C48 for everything an optimizer does

`C48_mes_eva` and `C48_cma` are about the populations. Here: the stop conditions, the progress and the predictions, what is announced to reporters and what `step` and `run` return.
-/

namespace Spot

/-- The negated objective. -/
def negated (F : Pt → Option Dbl) (p : Pt) : Option Dbl := (F p).map Dbl.neg

theorem negated_negated (F : Pt → Option Dbl) : negated (negated F) = F := by
  funext p
  unfold negated
  cases F p <;> simp [neg_neg']

/-- **C48.** The base class: after the mirrored calls the mirrored optimizer is the mirror image; `step` and `test_stop_conditions` return the same, `progress` too, and
`predicted_fitness` the negated value. -/
theorem C48_history (E : OptEnv) (hE : E.Odd) (info : ObjInfo) (m : Int) (l : List Op) :
    let s := (Opt.new info m).after E l
    let s' := (Opt.new info.opposite m).after E (l.map Op.mirror)
    s' = s.mirror ∧ (∀ i : In, (s'.step E (Opt.internal E i.mirror)).2 = (s.step E (Opt.internal E i)).2) ∧ (s'.testStop E).2 = (s.testStop E).2 ∧
    (s'.vis.progress E).2 = (s.vis.progress E).2 ∧ ∀ k x, (s.vis.predictedFitness E k).2 = .ok x → (s'.vis.predictedFitness E k).2 = .ok x.neg := by
  have h : (Opt.new info.opposite m).after E (l.map Op.mirror) = ((Opt.new info m).after E l).mirror := by
    rw [new_mirror]
    generalize Opt.new info m = s
    induction l generalizing s with
    | nil => rfl
    | cons o l ih => show Opt.after E (o.mirror.apply E s.mirror) (l.map Op.mirror) = _; rw [apply_mirror hE, ih]; rfl
  intro s s'
  rw [show s' = s.mirror from h]
  refine ⟨rfl, fun i => by rw [step_mirror hE], by rw [testStop_mirror hE], by rw [show s.mirror.vis = s.vis.mirror from rfl, progress_mirror hE], fun k x hx => ?_⟩
  rw [show s.mirror.vis = s.vis.mirror from rfl, predicted_mirror hE, hx]
  rfl

/-- An environment that is odd: the line given by the first and the last sample. -/
def oddEnv : OptEnv := { toFloat := id, regress := fun _ l => ⟨l.getLastD (.fin 0), l.headD (.fin 0)⟩, evalLin := fun l _ => l.intercept, relSlope := fun l _ _ => l.slope }

theorem oddEnv_odd : oddEnv.Odd where
  toFloat _ := rfl
  regress k l := by
    cases l with
    | nil => simp [oddEnv, Lin.mirror, neg_zero']
    | cons a l =>
      simp only [oddEnv, Lin.mirror, List.map_cons, List.headD_cons, Lin.mk.injEq, and_true]
      rw [List.getLastD_cons, List.getLastD_cons]
      induction l generalizing a with
      | nil => rfl
      | cons b l ih => rw [List.map_cons, List.getLastD_cons, List.getLastD_cons, ih]
  evalLin _ _ := rfl
  relSlope _ _ _ := rfl

/-- A target of 3 to be minimized is reached by the fitness 2 (condition 2), and a target of -3 to be maximized by -2. -/
example : ((Opt.new optInfo 0).after oddEnv [.addCond (.target (.fin 3)), .addCond (.minProgress (.fin 1) 5), .step { pop := [[.fin 1], [.fin 2]], res := [some (.fin 5), some (.fin 2)] }]).stopped = some 2 ∧
    ((Opt.new optInfo.opposite 0).after oddEnv [.addCond (.target (.fin (-3))), .addCond (.minProgress (.fin 1) 5),
      .step { pop := [[.fin 1], [.fin 2]], res := [some (.fin (-5)), some (.fin (-2))] }]).stopped = some 2 := by
  have h1 : ((Opt.new optInfo 0).after oddEnv [.addCond (.target (.fin 3)), .addCond (.minProgress (.fin 1) 5), .step { pop := [[.fin 1], [.fin 2]], res := [some (.fin 5), some (.fin 2)] }]).stopped = some 2 := by
    decide +kernel
  refine ⟨h1, ?_⟩
  have := (C48_history oddEnv oddEnv_odd optInfo 0 [.addCond (.target (.fin 3)), .addCond (.minProgress (.fin 1) 5), .step { pop := [[.fin 1], [.fin 2]], res := [some (.fin 5), some (.fin 2)] }]).1
  exact (congrArg Opt.stopped this).trans h1

/-! ## Derived classes -/

variable {S : Type}

/-- What is used about a derived class; `mir` mirrors what it inherits. -/
structure Machine.Mirrored (M : Machine S) (mir : S → S) : Prop where
  opt : ∀ s, M.opt (mir s) = (M.opt s).mirror
  put : ∀ s o, M.put (mir s) o.mirror = mir (M.put s o)
  internal : ∀ {F s pop t}, M.internal F s pop t → M.internal (negated F) (mir s) pop (mir t)

variable {M : Machine S} {mir : S → S} {E : OptEnv} {F : Pt → Option Dbl}

theorem map_negated (F : Pt → Option Dbl) (pop : List Pt) : pop.map (negated F) = (pop.map F).map (Option.map Dbl.neg) := by
  rw [List.map_map]; rfl

theorem opt_opening_mirror (s : Opt) : s.mirror.opening = s.opening.mirror := opening_mirror s

theorem opt_closing_mirror (hE : E.Odd) (ok intr : Bool) (s : Opt) : s.mirror.closing E ok intr = ((s.closing E ok intr).1.mirror, (s.closing E ok intr).2) := by
  have h : (if intr then s.mirror.interrupt else s.mirror) = (if intr then s.interrupt else s).mirror := by cases intr <;> rfl
  unfold Opt.closing
  rw [h]
  cases ok with
  | true => exact closing_mirror hE _
  | false => exact testStop_mirror hE _

theorem Machine.Mirrored.step (hM : M.Mirrored mir) (hE : E.Odd) {s t : S} {i : In} {r : Res (Option Nat)} (h : M.Step E F s i t r) :
    M.Step E (negated F) (mir s) i.mirror (mir t) r := by
  cases h with
  | @mk u pop intr ok o _ hd hi he hc =>
    rw [← hM.put]
    have key := Machine.Step.mk (M := M) (E := E) (F := negated F) (s := mir s) (u := mir u) (pop := pop) (intr := intr) (ok := ok) (o := o.mirror) (r := r)
      (by rw [hM.opt]; exact hd) (by rw [hM.opt, opt_opening_mirror, hM.put]; exact hM.internal hi)
      (by rw [hM.opt, opt_opening_mirror, map_negated, evaluateStep_mirror hE]; exact he)
      (by rw [hM.opt, opt_closing_mirror hE, hc])
    rw [map_negated] at key
    exact key

theorem Machine.Mirrored.session (hM : M.Mirrored mir) (hE : E.Odd) {s t : S} {l : List Op} (h : M.Session E F s l t) :
    M.Session E (negated F) (mir s) (l.map Op.mirror) (mir t) := by
  induction h with
  | nil => exact .nil
  | @step t t' l i r h st ih => rw [List.map_append]; exact ih.step (hM.step hE st)
  | @call t l o h ho ih =>
    rw [List.map_append, ← hM.put, ← apply_mirror hE, ← hM.opt]
    refine ih.call (fun i hi => ?_)
    cases o with
    | step j => exact ho j rfl
    | _ => simp [Op.mirror] at hi

theorem Machine.Mirrored.loop (hM : M.Mirrored mir) (hE : E.Odd) {n : Nat} {s t : S} {is : List In} {r : Res (Option Nat)} (h : M.Loop E F n s is t r) :
    M.Loop E (negated F) n (mir s) (is.map In.mirror) (mir t) r := by
  induction h with
  | done => exact .done
  | next st _ ih => exact .next (hM.step hE st) ih
  | stop st hr => exact .stop (hM.step hE st) hr

theorem Machine.Mirrored.run (hM : M.Mirrored mir) (hE : E.Odd) {n : Nat} {s t : S} {is : List In} {r : Res (Option Nat)} (h : M.Run E F n s is t r) :
    M.Run E (negated F) n (mir s) (is.map In.mirror) (mir t) r :=
  ⟨by rw [hM.opt]; exact h.1, hM.loop hE h.2⟩

theorem map_op_mirror (l : List Op) : (l.map Op.mirror).map Op.mirror = l := by
  rw [List.map_map]
  conv_rhs => rw [← List.map_id l]
  exact List.map_congr_left fun a _ => Op.mirror_mirror a

theorem in_mirror (i : In) : i.mirror.mirror = i := by
  have := Op.mirror_mirror (.step i)
  simpa [Op.mirror] using this

theorem map_in_mirror (l : List In) : (l.map In.mirror).map In.mirror = l := by
  rw [List.map_map]
  conv_rhs => rw [← List.map_id l]
  exact List.map_congr_left fun a _ => in_mirror a

theorem opt_mirror_mirror (s : Opt) : s.mirror.mirror = s := by
  have h1 : (s.conds.map Cond.mirror).map Cond.mirror = s.conds := by
    rw [List.map_map]
    conv_rhs => rw [← List.map_id s.conds]
    exact List.map_congr_left fun a _ => Cond.mirror_mirror a
  have h2 : (s.reps.map Rep.mirror).map Rep.mirror = s.reps := by
    rw [List.map_map]
    conv_rhs => rw [← List.map_id s.reps]
    exact List.map_congr_left fun a _ => by simp only [Function.comp, Rep.mirror, mirrorThrows_mirror, map_mirrorCall, id]
  simp only [Opt.mirror, Vis.mirror_mirror, h1, h2, map_mirrorCall]

variable [Libm]

/-- MES and EVA: only what is inherited has to do with the sign of the fitness. -/
def EsOpt.mirror {R : Rng Dbl} {n : Nat} (s : EsOpt R n) : EsOpt R n := { s with opt := s.opt.mirror }

/-- CMA, likewise. -/
def CmaOpt.mirror {G : GaussSrc Dbl} {n : Nat} (s : CmaOpt G n) : CmaOpt G n := { s with opt := s.opt.mirror }

theorem es_mirrored (hE : E.Odd) {R : Rng Dbl} {n : Nat} (c : EsCfg R n) : (esMachine E c).Mirrored EsOpt.mirror where
  opt _ := rfl
  put _ _ := rfl
  internal {F s pop t} st := by
    have hev := evaluateStep_mirror hE s.opt pop (pop.map F)
    rw [← map_negated] at hev
    cases st with
    | @ok e o order d hp he ho hu =>
      rw [he] at hev
      exact .ok hp hev (sortedOrder_congr (neg_fitRel o.vis.info) (forall₂_neg _) ho) hu
    | @failed e o hp he =>
      rw [he] at hev
      exact .failed hp hev

theorem cma_mirrored (hE : E.Odd) {G : GaussSrc Dbl} {n : Nat} (c : CmaCfg n) : (cmaMachine (G := G) E c).Mirrored CmaOpt.mirror where
  opt _ := rfl
  put _ _ := rfl
  internal {F s pop t} st := by
    have hev := evaluateStep_mirror hE s.opt pop (pop.map F)
    rw [← map_negated] at hev
    cases st with
    | @ok d d' xs o hn hp he hu =>
      rw [he] at hev
      refine .ok hn hp hev ?_
      exact (update_congr (neg_fitRel o.vis.info) c.par d (forall₂_neg _)).trans hu
    | @failed d xs o hn hp he =>
      rw [he] at hev
      exact .failed hn hp hev

/-- **C48.** MES and EVA, complete optimizations: any sequence of calls (with any stop conditions, interrupts and reporters) of an optimizer that minimizes (maximizes) `F` is, with the
other sign of all fitnesses, a sequence of calls of the optimizer that maximizes (minimizes) `-F`, and leads to the mirror image of the state. Every run makes the same number of
steps and returns the same. -/
theorem C48_session_mes_eva (hE : E.Odd) {R : Rng Dbl} (info : ObjInfo) (c : EsCfg R info.dim) (F : Pt → Option Dbl) (e : R.Eng) (l : List Op) (t : EsOpt R info.dim) :
    ((esMachine E c).Session E F (EsOpt.make info e) l t ↔
      (esMachine E c).Session E (negated F) (EsOpt.make info.opposite e : EsOpt R info.dim) (l.map Op.mirror) t.mirror) ∧
    ∀ n is u r, (esMachine E c).Run E F n t is u r ↔ (esMachine E c).Run E (negated F) n t.mirror (is.map In.mirror) u.mirror r := by
  have hmm : ∀ s : EsOpt R info.dim, s.mirror.mirror = s := fun s => by simp only [EsOpt.mirror, opt_mirror_mirror]
  have hmake : (EsOpt.make info.opposite e : EsOpt R info.dim) = (EsOpt.make info e).mirror := by
    have h : ((Opt.init info.opposite).addCond (.flat (lit (1 / 10 ^ 9)))) = ((Opt.init info).addCond (.flat (lit (1 / 10 ^ 9)))).mirror := by
      rw [← addCond_mirror]
      have := new_mirror info 0
      exact congrArg (fun o : Opt => o.addCond (.flat (lit (1 / 10 ^ 9)))) this
    show (⟨_, _, _⟩ : EsOpt R info.dim) = ⟨_, _, _⟩
    rw [h]
    rfl
  have hM := es_mirrored (E := E) hE c
  rw [hmake]
  constructor
  · refine ⟨hM.session hE, fun h => ?_⟩
    have := hM.session hE h
    rw [negated_negated, map_op_mirror, hmm, hmm] at this
    exact this
  · intro n is u r
    refine ⟨hM.run hE, fun h => ?_⟩
    have := hM.run hE h
    rw [negated_negated, map_in_mirror, hmm, hmm] at this
    exact this

/-- **C48.** The same for CMA, with any boundary transformer and eigenvalue decomposition. -/
theorem C48_session_cma (hE : E.Odd) {G : GaussSrc Dbl} (info : ObjInfo) (c : CmaCfg info.dim) (F : Pt → Option Dbl) (opt : Int) (modulo : Dbl) (rng : G.St) (s s' : CmaOpt G info.dim)
    (hs : CmaOpt.make info opt modulo rng = .ok (c.par, s)) (hs' : CmaOpt.make info.opposite opt modulo rng = .ok (c.par, s')) (l : List Op) (t : CmaOpt G info.dim) :
    ((cmaMachine E c).Session E F s l t ↔ (cmaMachine E c).Session E (negated F) s' (l.map Op.mirror) t.mirror) ∧
    ∀ n is u r, (cmaMachine E c).Run E F n t is u r ↔ (cmaMachine E c).Run E (negated F) n t.mirror (is.map In.mirror) u.mirror r := by
  have hmm : ∀ s : CmaOpt G info.dim, s.mirror.mirror = s := fun s => by simp only [CmaOpt.mirror, opt_mirror_mirror]
  have hmake : s' = s.mirror := by
    obtain ⟨a1, a2, -⟩ := make_ok hs
    obtain ⟨b1, b2, -⟩ := make_ok (info := info.opposite) hs'
    have h : ((Opt.init info.opposite).addCond (.flat (lit (1 / 10 ^ 9)))) = ((Opt.init info).addCond (.flat (lit (1 / 10 ^ 9)))).mirror := by
      rw [← addCond_mirror]
      have := new_mirror info 0
      exact congrArg (fun o : Opt => o.addCond (.flat (lit (1 / 10 ^ 9)))) this
    obtain ⟨o, d⟩ := s
    obtain ⟨o', d'⟩ := s'
    dsimp only at a1 a2 b1 b2
    subst a1 b1 a2 b2
    rw [h]
    rfl
  have hM := cma_mirrored (E := E) (G := G) hE c
  rw [hmake]
  constructor
  · refine ⟨hM.session hE, fun h => ?_⟩
    have := hM.session hE h
    rw [negated_negated, map_op_mirror, hmm, hmm] at this
    exact this
  · intro n is u r
    refine ⟨hM.run hE, fun h => ?_⟩
    have := hM.run hE h
    rw [negated_negated, map_in_mirror, hmm, hmm] at this
    exact this

/-! ## What is not invariant -/

/-- A tiny scale. -/
def halvings (a : Dbl) : Dbl :=
  match a with
  | .fin q => .fin (q / 2 ^ 40)
  | x => x

omit [Libm] in
/-- **C47 (finding).** When an optimizer stops is not invariant under monotone transformations: the constructors of MES, EVA and CMA add a `flat_fitness_condition` with the absolute epsilon
1e-9, so that a well scaled objective goes on and the same objective on a tiny scale stops after its first step. -/
theorem C47_default_stop : Monotone optInfo {a | ∃ k : Int, 0 ≤ k ∧ k ≤ 1000 ∧ a = .fin k} halvings ∧
    (letI := noLibm
     ((Opt.new optInfo 0).after optEnv [.addCond (.flat (lit (1 / 10 ^ 9))), .step { pop := [[.fin 1], [.fin 2]], res := [some (.fin 5), some (.fin 2)] }]).stopped = none ∧
     ((Opt.new optInfo 0).after optEnv [.addCond (.flat (lit (1 / 10 ^ 9))), .step { pop := [[.fin 1], [.fin 2]], res := [some (halvings (.fin 5)), some (halvings (.fin 2))] }]).stopped = some 2) := by
  refine ⟨⟨?_, ?_, ?_⟩, by decide +kernel⟩
  · rintro a ⟨k, -, -, rfl⟩ b ⟨l, -, -, rfl⟩
    simp only [halvings, Dbl.lt, decide_eq_decide]
    constructor
    · intro h; by_contra hh; rw [_root_.not_lt] at hh; exact absurd h (_root_.not_lt.2 (by gcongr))
    · intro h; gcongr
  · rintro a ⟨k, -, -, rfl⟩; simp [halvings]
  · rintro a ⟨k, h1, h2, rfl⟩
    have h3 : ((k : Int) : ℚ) ≤ 1000 := by exact_mod_cast h2
    have h5 : (0 : ℚ) ≤ k := by exact_mod_cast h1
    have h4 : (2000 : ℚ) < Dbl.maxQ := by decide +kernel
    have h6 : ((k : Int) : ℚ) / 2 ^ 40 ≤ 1000 := le_trans (div_le_self h5 (by norm_num)) h3
    simp only [halvings, optInfo, ObjInfo.isBetter, ObjInfo.worstFitness, if_true, Dbl.lt, decide_eq_true_eq]
    constructor
    · linarith
    · linarith

end Spot
