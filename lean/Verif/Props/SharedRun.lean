import Verif.Model.SharedRun
import Verif.Props.SharedPool
import Verif.Props.Session

/-!
# C114: runs of optimizers that share an evaluator
-/

namespace Spot.Evaluators

variable [Libm] {S : Type}

/-- What is used about the algorithms: results are only used for the population, and the population does not depend on its results. -/
structure Sampler (M : Machine S) (lam : Nat) : Prop where
  only : ∀ {F F' : Pt → Option Dbl} {s pop t}, pop.map F = pop.map F' → M.internal F s pop t → M.internal F' s pop t
  same : ∀ {F F' : Pt → Option Dbl} {s pop pop' t t'}, M.internal F s pop t → M.internal F' s pop' t' → pop = pop'
  size : ∀ {F : Pt → Option Dbl} {s pop t}, M.internal F s pop t → pop.length = lam

theorem es_sampler {R : Rng Dbl} {n : Nat} (E : OptEnv) (c : EsCfg R n) : Sampler (esMachine E c) c.lambda where
  only {F F' s pop t} hF h := by
    cases h with
    | ok hp he ho hu => exact .ok hp (hF ▸ he) ho hu
    | failed hp he => exact .failed hp (hF ▸ he)
  same {F F' s pop pop' t t'} h h' := by
    obtain ⟨_, _, h1⟩ := es_eval h
    obtain ⟨_, _, h2⟩ := es_eval h'
    rw [h1] at h2; simp at h2; exact h2.1
  size {F s pop t} h := by
    obtain ⟨_, _, h1⟩ := es_eval h
    have hall := samplePop_all R c.bounds s.dist (fun _ _ => True) (fun _ _ _ _ => trivial) c.lambda (R.normal c.alg.ofs.1 c.alg.ofs.2) s.eng
    have hp' : sampleLoopPop R c.bounds s.dist c.lambda (R.normal c.alg.ofs.1 c.alg.ofs.2) s.eng = (pop, _) := h1
    rw [hp'] at hall
    exact hall.1

theorem cma_sampled {G : GaussSrc Dbl} {n : Nat} {E : OptEnv} {c : CmaCfg n} {F : Pt → Option Dbl} {s t : CmaOpt G n} {pop : List Pt} (h : CmaOpt.Internal E c F s pop t) :
    pop = toPoints (s.cma.sample c.tr c.bounds c.eig c.par).2 := by
  cases h with
  | ok _ hp _ _ => rw [hp]
  | failed _ hp _ => rw [hp]

theorem cma_sampler {G : GaussSrc Dbl} {n : Nat} (E : OptEnv) (c : CmaCfg n) : Sampler (cmaMachine (G := G) E c) c.par.lambda where
  only {F F' s pop t} hF h := by
    cases h with
    | ok hn hp he hu => exact .ok hn hp (hF ▸ he) hu
    | failed hn hp he => exact .failed hn hp (hF ▸ he)
  same {F F' s pop pop' t t'} h h' := by rw [cma_sampled h, cma_sampled h']
  size {F s pop t} h := by
    rw [cma_sampled h, toPoints, List.length_map]
    have := boundedLoop_length c.tr c.bounds (List.range c.par.lambda) (s.cma.samplePopulation c.eig c.par)
    rwa [List.length_range] at this

variable {M : Machine S} {E : OptEnv} {F F' : Pt → Option Dbl} {lam : Nat} {quiet : Prop}

theorem Sampler.step (hS : Sampler M lam) {s t : S} {pop : List Pt} {r} (hF : pop.map F = pop.map F')
    {intr : Bool} (h : M.Step E F s { pop := pop, res := pop.map F, interrupt := intr } t r) : M.Step E F' s { pop := pop, res := pop.map F', interrupt := intr } t r := by
  generalize hi : ({ pop := pop, res := pop.map F, interrupt := intr } : In) = i at h
  cases h with
  | @mk u pop' intr ok o _ hd hi' he hc =>
    simp only [In.mk.injEq] at hi
    obtain ⟨rfl, -, rfl⟩ := hi
    exact .mk hd (hS.only hF hi') (hF ▸ he) hc

theorem Sampler.pop (hS : Sampler M lam) {s t t' : S} {i i' : In} {r r'} (h : M.Step E F s i t r) (h' : M.Step E F' s i' t' r') : i.pop = i'.pop := by
  cases h with
  | mk _ hi _ _ => cases h' with
    | mk _ hi' _ _ => exact hS.same hi hi'

theorem Sampler.length (hS : Sampler M lam) {s t : S} {i : In} {r} (h : M.Step E F s i t r) : i.pop.length = lam := by
  cases h with
  | mk _ hi _ _ => exact hS.size hi

theorem sequential_deterministic {α F : Type} {f : α → Outcome F} {ps : List α} {rs evs} (h : Sequential (deterministic f) ps rs evs) :
    rs = ps.map fun p => evaluateNoexcept (f p) := (C33_deterministic f ps rs).1 (.sequential evs h)

/-- The objective as the optimizer sees it: a value, or none if it returned an error or threw an exception. -/
def seen (f : Pt → Outcome Dbl) (p : Pt) : Option Dbl := match f p with
  | .returns (.ok v) => some v
  | .returns (.error _) | .throwsStd _ | .throwsOther => none

theorem seen_eq (f : Pt → Outcome Dbl) (p : Pt) : seen f p = valueOf (evaluateNoexcept (f p)) := by
  unfold seen
  rcases f p with (_ | _) | _ | _ <;> rfl

/-- A client that runs alone has made steps of the loop of `run`. -/
theorem alone_loop (hS : Sampler M lam) {f : Pt → Outcome Dbl} {k : Nat} {s : S} {ls : List (List Pt)} {x : Running S}
    (h : Alone (deterministic f) (runClient M E quiet) { opt := s, left := k } ls x) :
    ∃ is : List In, is.map In.pop = ls ∧ (quiet → ∀ i ∈ is, i.interrupt = false) ∧ x.left + is.length = k ∧ M.Session E (seen f) s (is.map .step) x.opt ∧
      (x.ret = none → ∀ js u r, M.Loop E (seen f) x.left x.opt js u r → M.Loop E (seen f) k s (is ++ js) u r) ∧
      ∀ r, x.ret = some r → r ≠ .ok none ∧ M.Loop E (seen f) k s is x.opt r := by
  induction h with
  | start => exact ⟨[], rfl, by simp, by simp, .nil, fun _ js u r h => h, by simp⟩
  | @next ls x ps rs evs y h ha hs ht ih =>
    obtain ⟨is, h1, h2, h3, h4, h5, h6⟩ := ih
    obtain ⟨hr, hl, -⟩ := ha
    obtain ⟨F, t, r, intr, hF, hq, st, rfl⟩ := ht
    rw [sequential_deterministic hs, List.map_map] at hF
    have hF' : ps.map F = ps.map (seen f) := hF.symm.trans (List.map_congr_left fun p _ => (seen_eq f p).symm)
    have st' := hS.step hF' st
    obtain ⟨m, hm⟩ : ∃ m, x.left = m + 1 := ⟨x.left - 1, by omega⟩
    refine ⟨is ++ [{ pop := ps, res := ps.map (seen f), interrupt := intr }], by simp [h1], ?_, ?_, ?_, ?_, ?_⟩
    · intro hqq i hi
      rcases List.mem_append.1 hi with hi | hi
      · exact h2 hqq i hi
      · rw [List.mem_singleton.1 hi]; exact hq hqq
    · simp only [List.length_append, List.length_singleton]; omega
    · rw [List.map_append]; exact h4.step st'
    · intro hn js u r' hj
      have hrn : r = .ok none := by
        revert hn; dsimp only; split <;> simp
      subst hrn
      rw [List.append_assoc]
      apply h5 hr
      rw [hm]
      have hj' : M.Loop E (seen f) m t js u r' := by
        dsimp only at hj; rw [hm] at hj; exact hj
      exact .next st' hj'
    · intro r' hr'
      have hrn : r ≠ .ok none ∧ r = r' := by
        revert hr'; dsimp only; split
        · simp
        · rename_i hne
          intro h'
          exact ⟨fun hh => hne hh, by simpa using h'⟩
      obtain ⟨hrn, rfl⟩ := hrn
      refine ⟨hrn, ?_⟩
      apply h5 hr
      rw [hm]
      exact .stop st' hrn

/-- Every `run` of the derived class ends, with at most `K` steps. -/
def RunsWithin (M : Machine S) (E : OptEnv) (F : Pt → Option Dbl) (K n : Nat) (s : S) : Prop := ∀ is t r, M.Run E F n s is t r → is.length ≤ K

variable {info : ObjInfo} {nan : Prop}

theorem alone_bounds (hd : info.dim ≠ 0) {f : Pt → Outcome Dbl} (hM : M.Good E (seen f) info nan) (hS : Sampler M lam) {n K : Nat} {s : S} (hw : (M.opt s).vis.WF info 0)
    (hK : RunsWithin M E (seen f) K n s) {ls : List (List Pt)} {x : Running S} {ps : List Pt}
    (h : Alone (deterministic f) (runClient M E quiet) (.start n s) ls x) (ha : (runClient M E quiet).ask x ps) : ls.length < K ∧ ps.length ≤ lam := by
  obtain ⟨is, h1, h2, h3, h4, h5, h6⟩ := alone_loop hS h
  obtain ⟨hr, hl, F, t, r, st⟩ := ha
  refine ⟨?_, (hS.length st).le⟩
  obtain ⟨i, t', r', st'⟩ := hM.next hd (hM.WF hd hw h4)
  obtain ⟨m, hm⟩ : ∃ m, x.left = m + 1 := ⟨x.left - 1, by omega⟩
  have hd' : (M.opt s).vis.info.dim ≠ 0 := by rw [hw.info_eq]; exact hd
  have key : ∃ js u r, js ≠ [] ∧ M.Loop E (seen f) x.left x.opt js u r := by
    rw [hm]
    by_cases hrn : r' = .ok none
    · subst hrn
      obtain ⟨js, u, r, hj⟩ := hM.loop hd m hw (h4.step st')
      exact ⟨_, _, _, by simp, .next st' hj⟩
    · exact ⟨_, _, _, by simp, .stop st' hrn⟩
  obtain ⟨js, u, r'', hne, hj⟩ := key
  have := hK _ _ _ ⟨hd', h5 hr js u r'' hj⟩
  have hl1 : ls.length = is.length := by rw [← h1, List.length_map]
  have : 0 < js.length := List.length_pos_iff.2 hne
  simp only [List.length_append] at *
  omega

theorem alone_total (hd : info.dim ≠ 0) {f : Pt → Outcome Dbl} (hM : M.Good E (seen f) info nan) (hS : Sampler M lam) {n : Nat} {s : S} (hw : (M.opt s).vis.WF info 0)
    {ls : List (List Pt)} {x : Running S} {ps : List Pt} {rs evs}
    (h : Alone (deterministic f) (runClient M E quiet) (.start n s) ls x) (ha : (runClient M E quiet).ask x ps) (hs : Sequential (deterministic f) ps rs evs) :
    ∃ y, (runClient M E quiet).tell x ps rs y := by
  obtain ⟨is, h1, h2, h3, h4, h5, h6⟩ := alone_loop hS h
  obtain ⟨hr, hl, F, t, r, st⟩ := ha
  have hw' := hM.WF hd hw h4
  have hwp : (M.opt (M.put x.opt (M.opt x.opt).opening)).vis.WF info 0 := by rw [hM.get_put, opening_begun, begun_vis]; exact hw'
  obtain ⟨pop, u, hi⟩ := hM.total hwp
  obtain ⟨b, hb⟩ := hM.eval hi
  rw [hM.get_put] at hb
  have st' := Machine.Step.mk (M := M) (E := E) (F := seen f) (intr := false) (by rw [hw'.info_eq]; exact hd) hi (by rw [hb]) rfl
  have hp : pop = ps := hS.pop st' st
  subst hp
  refine ⟨_, seen f, _, _, false, ?_, fun _ => rfl, st', rfl⟩
  rw [sequential_deterministic hs, List.map_map]; exact List.map_congr_left fun p _ => (seen_eq f p).symm

theorem alone_final (hd : info.dim ≠ 0) {f : Pt → Outcome Dbl} (hM : M.Good E (seen f) info nan) (hS : Sampler M lam) {n : Nat} {s : S} (hw : (M.opt s).vis.WF info 0)
    {ls : List (List Pt)} {x : Running S} (h : Alone (deterministic f) (runClient M E quiet) (.start n s) ls x) (hf : ∀ ps, ¬ (runClient M E quiet).ask x ps) :
    ∃ is : List In, (quiet → ∀ i ∈ is, i.interrupt = false) ∧ M.Run E (seen f) n s is x.opt x.returned := by
  obtain ⟨is, h1, h2, h3, h4, h5, h6⟩ := alone_loop hS h
  have hd' : (M.opt s).vis.info.dim ≠ 0 := by rw [hw.info_eq]; exact hd
  refine ⟨is, h2, hd', ?_⟩
  unfold Running.returned
  cases hr : x.ret with
  | some r => exact (h6 r hr).2
  | none =>
    by_cases hl : x.left = 0
    · have := h5 hr [] x.opt (.ok none) (by rw [hl]; exact .done)
      simpa using this
    · exfalso
      obtain ⟨i, t', r', st'⟩ := hM.next hd (hM.WF hd hw h4)
      cases st' with
      | @mk u pop intr ok o _ hd hi he hc =>
        exact hf pop ⟨hr, Nat.pos_of_ne_zero hl, seen f, _, _, .mk (intr := false) hd hi he rfl⟩

/-- **C114.** Any number of optimizers (client `j` is of class `M j` and calls `run( n j )`; all of them for a deterministic objective that may fail) share a pooled evaluator with at least one
thread. Whatever the schedule: the number of steps is bounded (`K`: the number of steps the optimizers make when alone; `L`: the size of their populations), and if nothing can happen any more, every `run` has
returned and has done what it can do alone. -/
theorem C114_runs (hd : info.dim ≠ 0) (f : Pt → Outcome Dbl) (M : Nat → Machine S) (n : Nat → Nat) (starts : List S) (quiet : Nat → Prop) (lam : Nat → Nat) {threads K L : Nat} (ht : 0 < threads)
    (hM : ∀ j, (M j).Good E (seen f) info nan) (hS : ∀ j, Sampler (M j) (lam j)) (hL : ∀ j, lam j ≤ L)
    (hw : ∀ (j : Nat) s, starts[j]? = some s → ((M j).opt s).vis.WF info 0 ∧ RunsWithin (M j) E (seen f) K (n j) s)
    {ks} {x : Sh (Running S) Pt Dbl}
    (h : Exec (ShStep (deterministic f) fun j => runClient (M j) E (quiet j)) ks (Sh.init Pt Dbl threads (starts.mapIdx fun j s => .start (n j) s)) x) (hu : Undisturbed ks) :
    ks.countP ShKind.active ≤ 3 * threads + starts.length * K * (6 * L + 3 * threads + 6) + 3 * ks.count (.pool .spurious) ∧
    ((∀ k y, ShStep (deterministic f) (fun j => runClient (M j) E (quiet j)) k x y → k = .pool .spurious ∨ k = .pool .request) →
      ∀ (j : Nat) s, starts[j]? = some s → ∃ y is, x.states[j]? = some y ∧ x.inside[j]? = some none ∧ (quiet j → ∀ i ∈ is, In.interrupt i = false) ∧
        (M j).Run E (seen f) (n j) s is y.opt y.returned) := by
  have hst : ∀ (j : Nat) s₀, (starts.mapIdx fun j s => Running.start (n j) s)[j]? = some s₀ → ∃ s, starts[j]? = some s ∧ s₀ = .start (n j) s := by
    intro j s₀ hj
    rw [List.getElem?_mapIdx] at hj
    cases hs : starts[j]? with
    | none => rw [hs] at hj; simp at hj
    | some s => rw [hs] at hj; simp at hj; exact ⟨s, rfl, hj.symm⟩
  constructor
  · have := C114_finite (K := K) (L := L) h hu (fun j s₀ h0 ls s ps hal ha => by
      obtain ⟨s', hs', rfl⟩ := hst j s₀ h0
      obtain ⟨b1, b2⟩ := alone_bounds hd (hM j) (hS j) (hw j s' hs').1 (hw j s' hs').2 hal ha
      exact ⟨b1, b2.trans (hL j)⟩)
    simpa using this
  · intro hno j s hs
    have h0 : (starts.mapIdx fun j s => Running.start (n j) s)[j]? = some (.start (n j) s) := by
      rw [List.getElem?_mapIdx, hs]; rfl
    obtain ⟨y, ls, hy, hal⟩ := C114_same h h0
    obtain ⟨g1, g2⟩ := C114_no_deadlock (o := deterministic f) (fun p => ⟨_, rfl⟩) ht h hu (fun j s₀ h0 ls s ps rs evs hal ha hseq => by
      obtain ⟨s', hs', rfl⟩ := hst j s₀ h0
      exact alone_total hd (hM j) (hS j) (hw j s' hs').1 hal ha hseq) hno hy
    obtain ⟨is, hi, hrun⟩ := alone_final hd (hM j) (hS j) (hw j s hs).1 hal g2
    exact ⟨y, is, hy, g1, hi, hrun⟩

/-! ## CMA -/

theorem cma_internal_unique {G : GaussSrc Dbl} {n : Nat} {c : CmaCfg n} {s t t' : CmaOpt G n} {pop pop' : List Pt} (h : CmaOpt.Internal E c F s pop t)
    (h' : CmaOpt.Internal E c F s pop' t') : t = t' := by
  cases h with
  | ok hn hp he hu => cases h' with
    | ok hn' hp' he' hu' =>
      rw [hp] at hp'; simp only [Prod.mk.injEq] at hp'; obtain ⟨rfl, rfl⟩ := hp'
      rw [he] at he'; simp only [Prod.mk.injEq, and_true] at he'; subst he'
      rw [hu] at hu'; simp only [Prod.mk.injEq, and_true] at hu'; subst hu'
      rfl
    | failed hn' hp' he' =>
      rw [hp] at hp'; simp only [Prod.mk.injEq] at hp'; obtain ⟨rfl, rfl⟩ := hp'
      rw [he] at he'; simp at he'
  | failed hn hp he => cases h' with
    | ok hn' hp' he' hu' =>
      rw [hp] at hp'; simp only [Prod.mk.injEq] at hp'; obtain ⟨rfl, rfl⟩ := hp'
      rw [he] at he'; simp at he'
    | failed hn' hp' he' =>
      rw [hp] at hp'; simp only [Prod.mk.injEq] at hp'; obtain ⟨rfl, rfl⟩ := hp'
      rw [he] at he'; simp only [Prod.mk.injEq, and_true] at he'; subst he'
      rfl

theorem cma_step_unique {G : GaussSrc Dbl} {n : Nat} {c : CmaCfg n} {s t t' : CmaOpt G n} {i i' : In} {r r'} (h : (cmaMachine E c).Step E F s i t r)
    (h' : (cmaMachine E c).Step E F s i' t' r') (hi : i.interrupt = i'.interrupt) : i = i' ∧ t = t' ∧ r = r' := by
  cases h with
  | mk hd hi1 he hc => cases h' with
    | mk hd' hi1' he' hc' =>
      have hp := (cma_sampler E c).same hi1 hi1'
      subst hp
      have hu := cma_internal_unique hi1 hi1'
      subst hu
      dsimp only at hi
      subst hi
      rw [he] at he'; simp only [Res.ok.injEq] at he'; subst he'
      rw [hc] at hc'; simp only [Prod.mk.injEq] at hc'
      obtain ⟨rfl, rfl⟩ := hc'
      exact ⟨rfl, rfl, rfl⟩

theorem cma_loop_unique {G : GaussSrc Dbl} {n : Nat} {c : CmaCfg n} {k : Nat} {s t t' : CmaOpt G n} {is is' : List In} {r r'} (h : (cmaMachine E c).Loop E F k s is t r)
    (h' : (cmaMachine E c).Loop E F k s is' t' r') (hi : ∀ i ∈ is, i.interrupt = false) (hi' : ∀ i ∈ is', i.interrupt = false) : is = is' ∧ t = t' ∧ r = r' := by
  induction h generalizing is' t' r' with
  | done => cases h'; exact ⟨rfl, rfl, rfl⟩
  | next st h ih =>
    cases h' with
    | next st' h' =>
      obtain ⟨rfl, rfl, -⟩ := cma_step_unique st st' (by rw [hi _ (by simp), hi' _ (by simp)])
      obtain ⟨rfl, rfl, rfl⟩ := ih h' (fun i hm => hi i (by simp [hm])) (fun i hm => hi' i (by simp [hm]))
      exact ⟨rfl, rfl, rfl⟩
    | stop st' hr' =>
      obtain ⟨-, -, rfl⟩ := cma_step_unique st st' (by rw [hi _ (by simp), hi' _ (by simp)])
      exact absurd rfl hr'
  | stop st hr =>
    cases h' with
    | next st' h' =>
      obtain ⟨-, -, rfl⟩ := cma_step_unique st st' (by rw [hi _ (by simp), hi' _ (by simp)])
      exact absurd rfl hr
    | stop st' hr' =>
      obtain ⟨rfl, rfl, rfl⟩ := cma_step_unique st st' (by rw [hi _ (by simp), hi' _ (by simp)])
      exact ⟨rfl, rfl, rfl⟩

/-- **C114.** What `run` of a CMA optimizer does, if nobody interrupts it, is determined. -/
theorem C114_cma_determined {G : GaussSrc Dbl} {n : Nat} {c : CmaCfg n} {k : Nat} {s t t' : CmaOpt G n} {is is' : List In} {r r'} (h : (cmaMachine E c).Run E F k s is t r)
    (h' : (cmaMachine E c).Run E F k s is' t' r') (hi : ∀ i ∈ is, i.interrupt = false) (hi' : ∀ i ∈ is', i.interrupt = false) : is = is' ∧ t = t' ∧ r = r' :=
  cma_loop_unique h.2 h'.2 hi hi'

/-- A run that is interrupted returns a stop condition, after the step during which it was. -/
theorem interrupted_loop {M : Machine S} (hd : info.dim ≠ 0) (hM : M.Good E F info nan) {k : Nat} {s0 s t : S} (h0 : Fresh info (M.opt s0)) {l : List Op} (hs : M.Session E F s0 l s)
    {is : List In} {r : Res (Option Nat)} (h : M.Loop E F k s is t r) :
    (∀ i ∈ is.dropLast, i.interrupt = false) ∧ ((∃ i ∈ is, i.interrupt = true) → ∃ c, r = .ok (some c)) := by
  have one : ∀ {l : List Op} {s t : S} {i : In} {r}, M.Session E F s0 l s → M.Step E F s i t r → i.interrupt = true → ∃ c, r = .ok (some c) := by
    intro l s t i r hs st hi
    obtain ⟨b1, b2, b3, b4⟩ := hM.base st
    have := C27_interrupt_during_step E info 0 hd (.addCond (.flat (lit (1 / 10 ^ 9))) :: l) i (by
      intro o ho
      rcases List.mem_cons.1 ho with rfl | ho
      · trivial
      · exact hM.valid hs o ho) (hM.valid (hs.step st) (.step i) (by simp)) hi
    dsimp only at this
    rw [← fresh_after h0, ← (hM.session hs).1, b1] at this
    exact ⟨_, this⟩
  induction h generalizing l with
  | done => simp
  | @next n s t u i is r st h ih =>
    have hi : i.interrupt = false := by
      by_contra hi
      obtain ⟨c, hc⟩ := one hs st (by simpa using hi)
      simp at hc
    obtain ⟨g1, g2⟩ := ih (hs.step st)
    constructor
    · intro j hj
      cases is with
      | nil => simp at hj
      | cons i' is =>
        rw [List.dropLast_cons₂] at hj
        rcases List.mem_cons.1 hj with rfl | hj
        · exact hi
        · exact g1 j hj
    · rintro ⟨j, hj, hj'⟩
      rcases List.mem_cons.1 hj with rfl | hj
      · rw [hi] at hj'; cases hj'
      · exact g2 ⟨j, hj, hj'⟩
  | stop st hr =>
    refine ⟨by simp, ?_⟩
    rintro ⟨j, hj, hj'⟩
    obtain rfl := List.mem_singleton.1 hj
    exact one hs st hj'

/-- **C114.** Any number of CMA optimizers for the same objective with any numbers of individuals, seeds, boundary transformers and eigenvalue decompositions, on which any calls have been made including the
addition of a limit of the number of steps, share a pooled evaluator with any positive number of threads; each calls `run`. Other threads interrupt any of them (those that are not `quiet`) at any
times. Then, whatever the schedule, after a bounded number of steps all of them have returned. What each has done is what it can do alone, with any evaluator; one that has been interrupted has
returned a stop condition after the step during which it was; and one that nobody interrupts is in the state, and has returned what, it does when it runs alone: in particular with the same best
fitness. -/
theorem C114_cma {G : GaussSrc Dbl} (E : OptEnv) (info : ObjInfo) (hd : info.dim ≠ 0) (hv : ∀ p ∈ info.pars, p.isValid = true) (f : Pt → Outcome Dbl)
    (hf : ∀ x, seen f x ≠ some .nan) (c : Nat → CmaCfg info.dim) (hc : ∀ j, (c j).bounds = Bounds.ofInfo info) {L K : Nat} (hl : ∀ j, 1 ≤ (c j).par.lambda ∧ (c j).par.lambda ≤ L)
    (n : Nat → Nat) (starts : List (CmaOpt G info.dim)) (quiet : Nat → Prop) {threads : Nat} (ht : 0 < threads)
    (hs : ∀ (j : Nat) s, starts[j]? = some s → ∃ opt modulo rng s0 l m, CmaOpt.make info opt modulo rng = .ok ((c j).par, s0) ∧ (cmaMachine E (c j)).Session E (seen f) s0 l s ∧
      (∀ n, Op.window n ∉ l) ∧ (∀ c, Op.addCond c ∈ l → c.Windowed) ∧ Op.addCond (.maxSteps m) ∈ l ∧ max 1 m ≤ K)
    {ks} {x : Sh (Running (CmaOpt G info.dim)) Pt Dbl}
    (h : Exec (ShStep (deterministic f) fun j => runClient (cmaMachine E (c j)) E (quiet j)) ks (Sh.init Pt Dbl threads (starts.mapIdx fun j s => .start (n j) s)) x) (hu : Undisturbed ks) :
    ks.countP ShKind.active ≤ 3 * threads + starts.length * K * (6 * L + 3 * threads + 6) + 3 * ks.count (.pool .spurious) ∧
    ((∀ k y, ShStep (deterministic f) (fun j => runClient (cmaMachine E (c j)) E (quiet j)) k x y → k = .pool .spurious ∨ k = .pool .request) →
      ∀ (j : Nat) s, starts[j]? = some s → ∃ y, x.states[j]? = some y ∧ x.inside[j]? = some none ∧
        (∃ is, (quiet j → ∀ i ∈ is, In.interrupt i = false) ∧ (cmaMachine E (c j)).Run E (seen f) (n j) s is y.opt y.returned ∧ (∀ i ∈ is.dropLast, i.interrupt = false) ∧
          ((∃ i ∈ is, i.interrupt = true) → ∃ c, y.returned = .ok (some c))) ∧
        ∀ is t r, quiet j → (cmaMachine E (c j)).Run E (seen f) (n j) s is t r → (∀ i ∈ is, In.interrupt i = false) → y.opt = t ∧ y.returned = r) := by
  have hM : ∀ j, (cmaMachine (G := G) E (c j)).Good E (seen f) info True := fun j => cma_good E info hd hv (c j) (hc j) (hl j).1 (seen f)
  obtain ⟨h1, h2⟩ := C114_runs (K := K) (L := L) hd f (fun j => cmaMachine E (c j)) n starts quiet (fun j => (c j).par.lambda) ht hM (fun j => cma_sampler E (c j)) (fun j => (hl j).2)
    (fun j s hj => by
      obtain ⟨opt, modulo, rng, s0, l, m, g1, g2, g3, g4, g5, g6⟩ := hs j s hj
      refine ⟨(hM j).WF hd (fresh_WF (make_ok g1).1) g2, fun is t r hr => ?_⟩
      have := ((C106_run_cma E info hd hv (c j) (hc j) (hl j).1 (seen f) opt modulo rng s0 g1 hf g2 g3 g4 (n j)).2 is t r hr).2.2 m g5
      omega) h hu
  refine ⟨h1, fun hno j s hj => ?_⟩
  obtain ⟨y, is, g1, g2, g3, g4⟩ := h2 hno j s hj
  obtain ⟨opt, modulo, rng, s0, l, m, k1, k2, -⟩ := hs j s hj
  obtain ⟨i1, i2⟩ := interrupted_loop hd (hM j) (make_ok k1).1 k2 g4.2
  refine ⟨y, g1, g2, ⟨is, g3, g4, i1, i2⟩, fun is' t r hq hr hi => ?_⟩
  obtain ⟨-, h5, h6⟩ := C114_cma_determined g4 hr (g3 hq) hi
  exact ⟨h5, h6⟩

/-- **C114.** The same for MES and EVA optimizers, in any mixture; which of several individuals with equal fitness they keep is not determined. -/
theorem C114_mes_eva {R : Rng Dbl} (hR : R.NoNaN) (E : OptEnv) (info : ObjInfo) (hd : info.dim ≠ 0) (hv : ∀ p ∈ info.pars, p.isValid = true) (f : Pt → Outcome Dbl)
    (hf : ∀ x, seen f x ≠ some .nan) (c : Nat → EsCfg R info.dim) (hc : ∀ j, (c j).bounds = Bounds.ofInfo info) {L K : Nat}
    (hl : ∀ j, 1 ≤ (c j).lambda ∧ (c j).lambda ≤ L ∧ 0 ≤ (c j).mu ∧ (c j).mu ≤ (c j).lambda)
    (n : Nat → Nat) (starts : List (EsOpt R info.dim)) (quiet : Nat → Prop) {threads : Nat} (ht : 0 < threads)
    (hs : ∀ (j : Nat) s, starts[j]? = some s → ∃ e l m, (esMachine E (c j)).Session E (seen f) (EsOpt.make info e) l s ∧
      (∀ n, Op.window n ∉ l) ∧ (∀ c, Op.addCond c ∈ l → c.Windowed) ∧ Op.addCond (.maxSteps m) ∈ l ∧ max 1 m ≤ K)
    {ks} {x : Sh (Running (EsOpt R info.dim)) Pt Dbl}
    (h : Exec (ShStep (deterministic f) fun j => runClient (esMachine E (c j)) E (quiet j)) ks (Sh.init Pt Dbl threads (starts.mapIdx fun j s => .start (n j) s)) x) (hu : Undisturbed ks) :
    ks.countP ShKind.active ≤ 3 * threads + starts.length * K * (6 * L + 3 * threads + 6) + 3 * ks.count (.pool .spurious) ∧
    ((∀ k y, ShStep (deterministic f) (fun j => runClient (esMachine E (c j)) E (quiet j)) k x y → k = .pool .spurious ∨ k = .pool .request) →
      ∀ (j : Nat) s, starts[j]? = some s → ∃ y is, x.states[j]? = some y ∧ x.inside[j]? = some none ∧ (quiet j → ∀ i ∈ is, In.interrupt i = false) ∧
        (esMachine E (c j)).Run E (seen f) (n j) s is y.opt y.returned ∧ (∀ i ∈ is.dropLast, i.interrupt = false) ∧
          ((∃ i ∈ is, i.interrupt = true) → ∃ c, y.returned = .ok (some c))) := by
  have hM : ∀ j, (esMachine E (c j)).Good E (seen f) info False := fun j => es_good hR E info hv (c j) (hc j) (hl j).1 (hl j).2.2.1 (hl j).2.2.2 (seen f)
  have hfr : ∀ j e, Fresh info ((esMachine E (c j)).opt (EsOpt.make info e)) := fun j e => rfl
  obtain ⟨h1, h2⟩ := C114_runs (K := K) (L := L) hd f (fun j => esMachine E (c j)) n starts quiet (fun j => (c j).lambda) ht hM (fun j => es_sampler E (c j)) (fun j => (hl j).2.1)
    (fun j s hj => by
      obtain ⟨e, l, m, g2, g3, g4, g5, g6⟩ := hs j s hj
      refine ⟨(hM j).WF hd (fresh_WF (hfr j e)) g2, fun is t r hr => ?_⟩
      have := (hM j).max_steps hd hf (hfr j e) g2 g3 g4 g5 hr.2
      omega) h hu
  refine ⟨h1, fun hno j s hj => ?_⟩
  obtain ⟨y, is, g1, g2, g3, g4⟩ := h2 hno j s hj
  obtain ⟨e, l, m, k2, -⟩ := hs j s hj
  obtain ⟨i1, i2⟩ := interrupted_loop hd (hM j) (hfr j e) k2 g4.2
  exact ⟨y, is, g1, g2, g3, g4, i1, i2⟩

/-- **C114.** When a CMA optimizer that shares a sequential, batch or async evaluator has returned from `run`, it is in the state it reaches alone, as in `C114_cma`: with `C114_cma` the results are those with a
shared pooled evaluator. -/
theorem C114_cma_local {G : GaussSrc Dbl} (E : OptEnv) (info : ObjInfo) (hd : info.dim ≠ 0) (hv : ∀ p ∈ info.pars, p.isValid = true) (f : Pt → Outcome Dbl)
    (c : Nat → CmaCfg info.dim) (hc : ∀ j, (c j).bounds = Bounds.ofInfo info) (hl : ∀ j, 1 ≤ (c j).par.lambda) (n : Nat → Nat) (starts : List (CmaOpt G info.dim)) (quiet : Nat → Prop)
    (hs : ∀ (j : Nat) s, starts[j]? = some s → ∃ opt modulo rng s0 l, CmaOpt.make info opt modulo rng = .ok ((c j).par, s0) ∧ (cmaMachine E (c j)).Session E (seen f) s0 l s)
    {V : LocalEval Pt Dbl} (hV : V.Sound (deterministic f)) {x : LSh (Running (CmaOpt G info.dim)) V}
    (h : Relation.ReflTransGen (LStep fun j => runClient (cmaMachine E (c j)) E (quiet j)) (LSh.init V (starts.mapIdx fun j s => .start (n j) s)) x)
    {j : Nat} {s : CmaOpt G info.dim} (hj : starts[j]? = some s) {y : Running (CmaOpt G info.dim)} (hy : x.states[j]? = some y)
    (hfin : ∀ ps, ¬ (runClient (cmaMachine E (c j)) E (quiet j)).ask y ps) :
    (∃ is, (quiet j → ∀ i ∈ is, In.interrupt i = false) ∧ (cmaMachine E (c j)).Run E (seen f) (n j) s is y.opt y.returned ∧ (∀ i ∈ is.dropLast, i.interrupt = false) ∧
      ((∃ i ∈ is, i.interrupt = true) → ∃ c, y.returned = .ok (some c))) ∧
    ∀ is t r, quiet j → (cmaMachine E (c j)).Run E (seen f) (n j) s is t r → (∀ i ∈ is, In.interrupt i = false) → y.opt = t ∧ y.returned = r := by
  have hM : (cmaMachine (G := G) E (c j)).Good E (seen f) info True := cma_good E info hd hv (c j) (hc j) (hl j) (seen f)
  have h0 : (starts.mapIdx fun j s => Running.start (n j) s)[j]? = some (.start (n j) s) := by
    rw [List.getElem?_mapIdx, hj]; rfl
  obtain ⟨y', ls, hy', hal, -⟩ := C114_local hV h h0
  rw [hy] at hy'; simp only [Option.some.injEq] at hy'; subst hy'
  obtain ⟨opt, modulo, rng, s0, l, g1, g2⟩ := hs j s hj
  obtain ⟨is, hi, hrun⟩ := alone_final hd hM (cma_sampler E (c j)) (hM.WF hd (fresh_WF (make_ok g1).1) g2) hal hfin
  obtain ⟨i1, i2⟩ := interrupted_loop hd hM (make_ok g1).1 g2 hrun.2
  refine ⟨⟨is, hi, hrun, i1, i2⟩, fun is' t r hq hr hi' => ?_⟩
  obtain ⟨-, h5, h6⟩ := C114_cma_determined hrun hr (hi hq) hi'
  exact ⟨h5, h6⟩

/-- Twenty CMA optimizers with 32 individuals and a limit of 100 steps on an evaluator with 4 threads, as in spot_test/evaluator_test.cpp: they can be brought to an end, and then all have returned. The
objective fails for one point. -/
example {G : GaussSrc Dbl} (E : OptEnv) (eig : Eig Dbl boundsInfo.dim) (tr : (Fin boundsInfo.dim → Dbl) → Fin boundsInfo.dim → Dbl) (rng : G.St) (g : Pt → Dbl) (hg : ∀ p, g p ≠ .nan) (bad : Pt) :
    ∃ (c : CmaCfg boundsInfo.dim) (s0 s : CmaOpt G boundsInfo.dim) (ks : List ShKind) (x : Sh (Running (CmaOpt G boundsInfo.dim)) Pt Dbl),
      CmaOpt.make boundsInfo 32 (lit 1) rng = .ok (c.par, s0) ∧ s.opt = s0.opt.addCond (.maxSteps 100) ∧
      Exec (ShStep (deterministic fun p => if p = bad then .throwsStd "bad" else .returns (.ok (g p))) fun _ => runClient (cmaMachine E c) E True) ks
        (Sh.init Pt Dbl 4 ((List.replicate 20 s).mapIdx fun _ s => .start 0 s)) x ∧
      ∀ j, j < 20 → ∃ y, x.states[j]? = some y ∧ x.inside[j]? = some none ∧
        ∃ is, (cmaMachine E c).Run E (seen fun p => if p = bad then .throwsStd "bad" else .returns (.ok (g p))) 0 s is y.opt y.returned := by
  have hv : ∀ p ∈ boundsInfo.pars, p.isValid = true := by decide +kernel
  have hdim : boundsInfo.dim ≠ 0 := by decide
  obtain ⟨p, s0, hs0, hlam⟩ := (C75_constructor (G := G) boundsInfo 32 (lit 1) rng (by omega)).1 (by decide +kernel)
  generalize hfd : (fun p => if p = bad then Outcome.throwsStd "bad" else .returns (.ok (g p)) : Pt → Outcome Dbl) = f
  have hf : ∀ x, seen f x ≠ some .nan := by
    intro x
    subst hfd
    rw [seen_eq]
    by_cases hx : x = bad
    · simp [hx, evaluateNoexcept, valueOf]
    · simp [hx, evaluateNoexcept, valueOf, hg x]
  let c : CmaCfg boundsInfo.dim := ⟨p, Bounds.ofInfo boundsInfo, eig, tr⟩
  let s : CmaOpt G boundsInfo.dim := { s0 with opt := s0.opt.addCond (.maxSteps 100) }
  have hsess : (cmaMachine E c).Session E (seen f) s0 [.addCond (.maxSteps 100)] s := .call (o := .addCond (.maxSteps 100)) .nil (by simp)
  have hl : 1 ≤ c.par.lambda := by show 1 ≤ p.lambda; omega
  have hM : (cmaMachine (G := G) E c).Good E (seen f) boundsInfo True := cma_good E boundsInfo hdim hv c rfl hl (seen f)
  have hw := hM.WF hdim (fresh_WF (make_ok hs0).1) hsess
  have hstart : ∀ (j : Nat) t, (List.replicate 20 s)[j]? = some t → t = s := fun j t ht => List.eq_of_mem_replicate (List.mem_of_getElem? ht)
  have hK : RunsWithin (cmaMachine E c) E (seen f) 100 0 s := by
    intro is t r hr
    have := ((C106_run_cma E boundsInfo hdim hv c rfl hl (seen f) 32 (lit 1) rng s0 hs0 hf hsess (by simp) (by simp [Cond.Windowed]) 0).2 is t r hr).2.2 100 (by simp)
    omega
  obtain ⟨ks, x, hx, hu, hstuck⟩ := C114_completes (K := 100) (L := p.lambda) (o := deterministic f) (C := fun _ => runClient (cmaMachine E c) E True) (n := 4)
    (starts := (List.replicate 20 s).mapIdx fun _ s => .start 0 s) (ks := []) .nil (by simp [Undisturbed]) (fun j s₀ h0 ls u ps hal ha => by
      have : s₀ = .start 0 s := by
        rw [List.getElem?_mapIdx] at h0
        cases hs : (List.replicate 20 s)[j]? with
        | none => rw [hs] at h0; simp at h0
        | some t => rw [hs, hstart j t hs] at h0; simp at h0; exact h0.symm
      subst this
      exact alone_bounds hdim hM (cma_sampler E c) hw hK hal ha)
  rw [List.nil_append] at hu
  obtain ⟨-, h2⟩ := C114_cma (L := p.lambda) (K := 100) E boundsInfo hdim hv f hf (fun _ => c) (fun _ => rfl) (fun _ => ⟨hl, le_rfl⟩) (fun _ => 0) (List.replicate 20 s) (fun _ => True) (threads := 4)
    (by omega) (fun j t ht => by
      rw [hstart j t ht]
      exact ⟨32, lit 1, rng, s0, _, 100, hs0, hsess, by simp, by simp [Cond.Windowed], by simp, by simp⟩) hx hu
  refine ⟨c, s0, s, ks, x, hs0, rfl, hx, fun j hj => ?_⟩
  obtain ⟨y, g1, g2, ⟨is, g3, g4, -⟩, -⟩ := h2 hstuck j s (by rw [List.getElem?_replicate, if_pos hj])
  exact ⟨y, g1, g2, is, g4⟩

end Spot.Evaluators
