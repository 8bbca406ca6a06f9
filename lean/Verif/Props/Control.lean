import Verif.Lemmas.Control
import Verif.Props.Best

/-!
# C22, C24 - C29: steps, stopping and reporters
-/

namespace Spot

/-! ## C22 -/

/-- **C22.** A failed step changes nothing a user can see (up to an interrupt that arrived meanwhile): fitnesses, points, tracking
and step counter are those before. It returns the stop condition the optimizer already had, or the abort condition if an abort
was requested, or the error condition, which is the second one and carries the error. -/
theorem C22_failed_step (E : OptEnv) (info : ObjInfo) (m : Int) (hd : info.dim ≠ 0) (h : List Op) (i : In)
    (hv : ∀ o ∈ h, o.Valid info) (hi : i.Valid info) (hf : i.Failed m) :
    let s := (Opt.new info m).after E h
    let t := s.step E (Opt.internal E i)
    t.1.vis.core = { s.vis.core with stopRequested := s.vis.stopRequested || i.interrupt } ∧
    t.2 = .ok (some (match s.stopped with | some k => k | none => if s.vis.stopRequested || i.interrupt then 0 else 1)) ∧
    t.1.conds[0]? = some .abort ∧ t.1.conds[1]? = some (.error true) := by
  obtain ⟨⟨h1, h2, h3⟩, hc⟩ := history_facts E info m hd h hv
  intro s t
  have hd' : s.vis.info.dim ≠ 0 := by rw [h1]; exact hd
  have hi' : i.Valid s.vis.info := by rw [h1]; exact hi
  have hl' : s.vis.bestPoint.length = s.vis.info.dim := by rw [h1]; exact h3
  have hf' : i.Failed s.vis.maxErrors := by rw [h2]; exact hf
  have ht : t = (s.preTest E i).testStop E := step_preTest hd' hi' hl'
  obtain ⟨p1, p2⟩ := preTest_stopped (E := E) hi' hl'
  have p3 := preTest_vis (E := E) hi' hl'
  rw [if_pos hf'] at p2
  rw [stepped_failed E hf'] at p3
  obtain ⟨rest, hse, -⟩ := setError_inv hc
  have hcs : t.1.conds = .abort :: .error true :: rest := by rw [ht, testStop_conds, p2]; exact hse
  have hreq : (s.preTest E i).vis.stopRequested = (s.vis.stopRequested || i.interrupt) := by
    rw [p3]; cases i.interrupt <;> simp [Vis.withInterrupt]
  refine ⟨?_, ?_, by rw [hcs]; rfl, by rw [hcs]; rfl⟩
  · rw [ht, testStop_core, p3]
    cases hii : i.interrupt
    · simp [Vis.withInterrupt, Vis.core]
    · simp [Vis.withInterrupt, Vis.core]
  · rw [ht]
    cases hs : s.stopped with
    | some k => rw [testStop_latched (by rw [p1]; exact hs)]
    | none =>
      by_cases hr : (s.vis.stopRequested || i.interrupt) = true
      · rw [(testStop_abort (by rw [p1]; exact hs) (by rw [p2]; exact ⟨true, rest, hse⟩) (by rw [hreq]; exact hr)).1]
        simp [hr]
      · rw [(testStop_error (by rw [p1]; exact hs) (by rw [p2]; exact hse) (by rw [hreq]; simpa using hr)).1]
        simp [hr]

/-- With the default of no tolerated error, one failed evaluation fails the step. -/
example : In.Failed 0 { pop := [[.fin 0], [.fin 2]], res := [some (.fin 6), none] } ∧
    ((Opt.new optInfo 0).step optEnv (Opt.internal optEnv { pop := [[.fin 0], [.fin 2]], res := [some (.fin 6), none] })).2 = .ok (some 1) := by
  decide +kernel

/-- **C22.** A step with at most the allowed number of failures is completed and counted. -/
theorem C22_completed_step (E : OptEnv) (info : ObjInfo) (m : Int) (hd : info.dim ≠ 0) (h : List Op) (i : In)
    (hv : ∀ o ∈ h, o.Valid info) (hi : i.Valid info) (hf : ¬ i.Failed m) :
    let s := (Opt.new info m).after E h
    (s.step E (Opt.internal E i)).1.vis.stepCount = s.vis.stepCount + 1 := by
  obtain ⟨hw, hc⟩ := history_facts E info m hd h hv
  have := core_ext (apply_core E _ (.step i) hd hw hi)
  exact this.2.1.trans (stepped_completed E (by rw [hw.maxErr]; exact hf)).2.2.2.2.2.1

/-! ## C24 -/

/-- The stop conditions announced to the reporters. -/
def stops (log : List (Event × Vis)) : List Nat :=
  log.filterMap fun e => match e.1 with
    | .stop k => some k
    | _ => none

theorem stops_append (a b : List (Event × Vis)) : stops (a ++ b) = stops a ++ stops b := by simp [stops]

theorem stops_signal (s : Opt) (e : Event) : stops (s.signal e).log = stops s.log ++ (match e with | .stop k => [k] | _ => []) := by
  cases e <;> simp [Opt.signal, stops]

theorem begun_stops (s : Opt) : stops s.begun.log = stops s.log := by
  unfold Opt.begun; rw [stops_signal]; split
  · rw [stops_signal]; simp
  · simp

theorem evald_stops (E : OptEnv) (i : In) (s : Opt) : stops (s.evald E i).log = stops s.log := by
  unfold Opt.evald Opt.signal Opt.interrupt; dsimp only
  split <;> split <;> simp [stops]

theorem preTest_stops {E : OptEnv} {i : In} {s : Opt} (hv : i.Valid s.vis.info) (hl : s.vis.bestPoint.length = s.vis.info.dim) :
    stops (s.preTest E i).log = stops s.log := by
  by_cases hf : i.Failed s.vis.maxErrors
  · rw [preTest_failed hf]; dsimp only
    split
    · simp [Opt.interrupt, stops_signal, begun_stops]
    · simp [stops_signal, begun_stops]
  · rw [preTest_completed hv hl hf]
    simp only [Opt.ended]
    rw [stops_signal, evald_stops, begun_stops]; simp

theorem testStop_stops {E : OptEnv} {s : Opt} (h : stops s.log = s.stopped.toList) :
    stops (s.testStop E).1.log = (s.testStop E).1.stopped.toList := by
  rcases testStop_cases E s with ⟨k, _, he⟩ | ⟨h0, k, _, h2, v, _, h4⟩ | ⟨h0, _, h2, h3⟩
  · rw [he]; exact h
  · rw [h4, h2, stops_append, h, h0]; simp [stops]
  · rw [h2, h3, h, h0]

/-- **C24.** `on_stop` was signalled exactly once if the optimizer has stopped, with the stop condition that it reports, and not
at all otherwise. -/
theorem C24_announced_once (E : OptEnv) (info : ObjInfo) (m : Int) (hd : info.dim ≠ 0) (h : List Op) (hv : ∀ o ∈ h, o.Valid info) :
    let s := (Opt.new info m).after E h
    stops s.log = s.stopped.toList := by
  refine (history_induction (E := E) hd (new_WF info m) (fun _ s => stops s.log = s.stopped.toList) rfl ?_ h hv).2
  intro h s o hw ho ih
  cases o with
  | step i =>
    obtain ⟨rfl, -, hl⟩ := hw
    show stops (s.step E (Opt.internal E i)).1.log = (s.step E (Opt.internal E i)).1.stopped.toList
    rw [step_preTest hd ho hl]
    exact testStop_stops (by rw [preTest_stops ho hl, (preTest_stopped ho hl).1]; exact ih)
  | test => exact testStop_stops ih
  | _ => exact ih

/-- **C24.** Once a stop condition has fired, it remains the stop condition through any further calls, every `step()` and
`test_stop_conditions()` returns it. -/
theorem C24_permanent (E : OptEnv) (info : ObjInfo) (m : Int) (hd : info.dim ≠ 0) (h h' : List Op) (hv : ∀ o ∈ h ++ h', o.Valid info)
    (k : Nat) (hs : ((Opt.new info m).after E h).stopped = some k) :
    let s := (Opt.new info m).after E (h ++ h')
    s.stopped = some k ∧ (s.testStop E).2 = .ok (some k) ∧ ∀ i : In, i.Valid info → (s.step E (Opt.internal E i)).2 = .ok (some k) := by
  have hw := (history_facts E info m hd h (fun o ho => hv o (by simp [ho]))).1
  have := history_induction (E := E) hd hw (fun _ s => s.stopped = some k) hs ?_ h' (fun o ho => hv o (by simp [ho]))
  · rw [← after_append] at this
    obtain ⟨⟨h1, -, h3⟩, h4⟩ := this
    refine ⟨h4, by rw [testStop_latched h4], fun i hi => ?_⟩
    rw [step_preTest (by rw [h1]; exact hd) (by rw [h1]; exact hi) (by rw [h1]; exact h3),
      testStop_latched (by rw [(preTest_stopped (by rw [h1]; exact hi) (by rw [h1]; exact h3)).1]; exact h4)]
  · intro h s o hw ho ih
    cases o with
    | step i =>
      obtain ⟨rfl, -, hl⟩ := hw
      show (s.step E (Opt.internal E i)).1.stopped = some k
      have hp : (s.preTest E i).stopped = some k := by rw [(preTest_stopped ho hl).1]; exact ih
      rw [step_preTest hd ho hl, testStop_latched hp]
      exact hp
    | test => show (s.testStop E).1.stopped = some k; rw [testStop_latched ih]; exact ih
    | _ => exact ih

/-- **C24.** What a call of `step()` returns is what `test_stop_conditions()` answers afterwards. -/
theorem C24_returned (E : OptEnv) (info : ObjInfo) (m : Int) (hd : info.dim ≠ 0) (h : List Op) (i : In)
    (hv : ∀ o ∈ h, o.Valid info) (hi : i.Valid info) (k : Nat) :
    let t := ((Opt.new info m).after E h).step E (Opt.internal E i)
    t.2 = .ok (some k) ↔ t.1.stopped = some k := by
  obtain ⟨⟨h1, -, h3⟩, -⟩ := history_facts E info m hd h hv
  intro t
  have ht : t = _ := step_preTest (by rw [h1]; exact hd) (by rw [h1]; exact hi) (by rw [h1]; exact h3)
  rw [ht]
  rcases testStop_cases E (((Opt.new info m).after E h).preTest E i) with ⟨j, h0, he⟩ | ⟨h0, j, g1, g2, -⟩ | ⟨h0, g1, g2, -⟩
  · rw [he]; simp [h0]
  · rw [g1, g2]; simp
  · rw [g2]
    constructor
    · intro hk; exact absurd hk (g1 k)
    · intro hk; simp at hk

/-! ## C27 -/

/-- **C27.** After `interrupt()` and any further calls, the next `step()` returns a stop condition: the abort condition (the first
one), unless the optimizer had stopped for another reason before. -/
theorem C27_interrupt (E : OptEnv) (info : ObjInfo) (m : Int) (hd : info.dim ≠ 0) (h h' : List Op) (i : In)
    (hv : ∀ o ∈ h ++ [.interrupt] ++ h', o.Valid info) (hi : i.Valid info) :
    let s := (Opt.new info m).after E (h ++ [.interrupt] ++ h')
    (s.step E (Opt.internal E i)).2 = .ok (some (match s.stopped with | some k => k | none => 0)) ∧
    s.conds[0]? = some .abort := by
  obtain ⟨⟨h1, h2, h3⟩, hc⟩ := history_facts E info m hd _ hv
  have hw := (history_facts E info m hd (h ++ [.interrupt]) (fun o ho => hv o (by simp at ho ⊢; tauto))).1
  have hreq := (history_induction (E := E) hd hw (fun _ s => s.vis.stopRequested = true) (by rw [after_append]; rfl) ?_ h'
    (fun o ho => hv o (by simp [ho]))).2
  · rw [← after_append] at hreq
    intro s
    have hd' : s.vis.info.dim ≠ 0 := by rw [h1]; exact hd
    have hi' : i.Valid s.vis.info := by rw [h1]; exact hi
    have hl' : s.vis.bestPoint.length = s.vis.info.dim := by rw [h1]; exact h3
    refine ⟨?_, by obtain ⟨b, rest, hc⟩ := hc; show s.conds[0]? = _; rw [hc]; rfl⟩
    rw [step_preTest hd' hi' hl']
    obtain ⟨p1, p2⟩ := preTest_stopped (E := E) hi' hl'
    have p3 := preTest_vis (E := E) hi' hl'
    cases hs : s.stopped with
    | some k => rw [testStop_latched (by rw [p1]; exact hs)]
    | none =>
      refine (testStop_abort (by rw [p1]; exact hs) ?_ ?_).1
      · rw [p2]; split
        · obtain ⟨rest, hse, -⟩ := setError_inv hc; exact ⟨true, rest, hse⟩
        · exact hc
      · rw [p3]
        by_cases hf : i.Failed s.vis.maxErrors
        · rw [stepped_failed E hf]
          cases i.interrupt
          · exact hreq
          · rfl
        · rw [(stepped_completed E hf).2.2.2.2.2.2.2.1]
          simp [show s.vis.stopRequested = true from hreq]
  · intro h s o hw ho ih
    have := (core_ext (apply_core E s o hd hw ho)).2.2.2.2.2.2.2.2.2.2.1
    rw [this]
    cases o with
    | step i =>
      show (s.vis.stepped E i).stopRequested = true
      by_cases hf : i.Failed s.vis.maxErrors
      · rw [stepped_failed E hf]
        cases i.interrupt
        · exact ih
        · rfl
      · rw [(stepped_completed E hf).2.2.2.2.2.2.2.1]; simp [ih]
    | addCond c => simp only [Op.onVis]; split <;> exact ih
    | interrupt => rfl
    | _ => exact ih

/-- **C27.** An interrupt that arrives during a step makes that step return a stop condition. -/
theorem C27_interrupt_during_step (E : OptEnv) (info : ObjInfo) (m : Int) (hd : info.dim ≠ 0) (h : List Op) (i : In)
    (hv : ∀ o ∈ h, o.Valid info) (hi : i.Valid info) (hint : i.interrupt = true) :
    let s := (Opt.new info m).after E h
    (s.step E (Opt.internal E i)).2 = .ok (some (match s.stopped with | some k => k | none => 0)) := by
  obtain ⟨⟨h1, h2, h3⟩, hc⟩ := history_facts E info m hd h hv
  intro s
  have hd' : s.vis.info.dim ≠ 0 := by rw [h1]; exact hd
  have hi' : i.Valid s.vis.info := by rw [h1]; exact hi
  have hl' : s.vis.bestPoint.length = s.vis.info.dim := by rw [h1]; exact h3
  rw [step_preTest hd' hi' hl']
  obtain ⟨p1, p2⟩ := preTest_stopped (E := E) hi' hl'
  have p3 := preTest_vis (E := E) hi' hl'
  cases hs : s.stopped with
  | some k => rw [testStop_latched (by rw [p1]; exact hs)]
  | none =>
    refine (testStop_abort (by rw [p1]; exact hs) ?_ ?_).1
    · rw [p2]; split
      · obtain ⟨rest, hse, -⟩ := setError_inv hc; exact ⟨true, rest, hse⟩
      · exact hc
    · rw [p3]
      by_cases hf : i.Failed s.vis.maxErrors
      · rw [stepped_failed E hf, hint]; rfl
      · rw [(stepped_completed E hf).2.2.2.2.2.2.2.1, hint]; simp

example : ((Opt.new optInfo 0).step optEnv (Opt.internal optEnv
    { pop := [[.fin 0], [.fin 2]], res := [some (.fin 6), some (.fin 7)], interrupt := true })).2 = .ok (some 0) := by decide +kernel

/-! ## C25, C26 -/

/-- The environment always answers properly. -/
def EnvValid (info : ObjInfo) (env : Opt → In) : Prop := ∀ s : Opt, (env s).Valid info

/-- The state after `n` calls of `step()`. -/
def Opt.steps (E : OptEnv) (env : Opt → In) : Nat → Opt → Opt
  | 0, s => s
  | n + 1, s => Opt.steps E env n (s.step E (Opt.internal E (env s))).1

/-- What the `n`-th call of `step()` (counting from 0) returns. -/
def Opt.answer (E : OptEnv) (env : Opt → In) (n : Nat) (s : Opt) : Res (Option Nat) :=
  let t := s.steps E env n
  (t.step E (Opt.internal E (env t))).2

theorem steps_last (E : OptEnv) (env : Opt → In) (k : Nat) : ∀ s : Opt,
    s.steps E env (k + 1) = ((s.steps E env k).step E (Opt.internal E (env (s.steps E env k)))).1 := by
  induction k with
  | zero => intro s; rfl
  | succ k ih => intro s; exact ih (s.step E (Opt.internal E (env s))).1

theorem runLoop_spec (E : OptEnv) (env : Opt → In) (n : Nat) : ∀ s : Opt,
    (Opt.runLoop E env n s = (s.steps E env n, .ok none) ∧ ∀ j < n, s.answer E env j = .ok none) ∨
    ∃ k < n, Opt.runLoop E env n s = (s.steps E env (k + 1), s.answer E env k) ∧ s.answer E env k ≠ .ok none ∧
      ∀ j < k, s.answer E env j = .ok none := by
  induction n with
  | zero => intro s; left; exact ⟨rfl, by simp⟩
  | succ n ih =>
    intro s
    have hshift : ∀ j, s.answer E env (j + 1) = ((s.step E (Opt.internal E (env s))).1).answer E env j := fun j => rfl
    have h0 : s.answer E env 0 = (s.step E (Opt.internal E (env s))).2 := rfl
    cases hr : s.step E (Opt.internal E (env s)) with
    | mk t r =>
    by_cases hok : r = .ok none
    · subst hok
      have hrun : Opt.runLoop E env (n + 1) s = Opt.runLoop E env n t := by simp only [Opt.runLoop]; rw [hr]
      have hsteps : ∀ j, s.steps E env (j + 1) = t.steps E env j := fun j => by simp only [Opt.steps]; rw [hr]
      rw [hr] at h0
      rcases ih t with ⟨h1, h2⟩ | ⟨k, hk, h1, h2, h3⟩
      · left
        refine ⟨by rw [hrun, h1, hsteps], fun j hj => ?_⟩
        cases j with
        | zero => exact h0
        | succ j => rw [hshift, hr]; exact h2 j (by omega)
      · right
        refine ⟨k + 1, by omega, by rw [hrun, h1, hsteps, hshift, hr], by rw [hshift, hr]; exact h2, fun j hj => ?_⟩
        cases j with
        | zero => exact h0
        | succ j => rw [hshift, hr]; exact h3 j (by omega)
    · right
      refine ⟨0, by omega, ?_, by rw [h0, hr]; exact hok, by simp⟩
      have : Opt.runLoop E env (n + 1) s = (t, r) := by
        simp only [Opt.runLoop]; rw [hr]
        split
        · rename_i heq; simp only [Prod.mk.injEq] at heq; exact absurd heq.2 hok
        · rename_i heq; exact heq.symm
      rw [this, h0]; simp only [Opt.steps]; rw [hr]

/-- **C25.** `run( n )` with `n > 0` is `n` calls of `step()`, cut short exactly after the first call that does not return null, in
which case it returns what that call returned (or throws what it threw). -/
theorem C25_run (E : OptEnv) (env : Opt → In) (n : Nat) (hn : n ≠ 0) (s : Opt) (hd : s.vis.info.dim ≠ 0) :
    (s.run E env n = (s.steps E env n, .ok none) ∧ ∀ j < n, s.answer E env j = .ok none) ∨
    ∃ k < n, s.run E env n = (s.steps E env (k + 1), s.answer E env k) ∧ s.answer E env k ≠ .ok none ∧
      ∀ j < k, s.answer E env j = .ok none := by
  unfold Opt.run; rw [if_neg hd, if_neg hn]
  exact runLoop_spec E env n s

/-- The number of `step()` calls announced to the reporters. -/
def stepCalls (log : List (Event × Vis)) : Nat := log.countP fun e => e.1 = .preStep

theorem stepCalls_signal (s : Opt) (e : Event) : stepCalls (s.signal e).log = stepCalls s.log + if e = .preStep then 1 else 0 := by
  by_cases h : e = .preStep <;> simp [Opt.signal, stepCalls, h]

theorem stepCalls_preTest {E : OptEnv} {i : In} {s : Opt} (hv : i.Valid s.vis.info) (hl : s.vis.bestPoint.length = s.vis.info.dim) :
    stepCalls (s.preTest E i).log = stepCalls s.log + 1 := by
  have hb : stepCalls s.begun.log = stepCalls s.log + 1 := by
    unfold Opt.begun; rw [stepCalls_signal]; split
    · rw [stepCalls_signal]; simp
    · simp
  by_cases hf : i.Failed s.vis.maxErrors
  · rw [preTest_failed hf]; dsimp only
    split
    · simp [Opt.interrupt, stepCalls_signal, hb]
    · simp [stepCalls_signal, hb]
  · rw [preTest_completed hv hl hf]
    simp only [Opt.ended]
    rw [stepCalls_signal]
    have : stepCalls (s.begun.evald E i).log = stepCalls s.begun.log := by
      unfold Opt.evald Opt.signal Opt.interrupt; dsimp only
      split <;> split <;> simp [stepCalls]
    rw [this, hb]; simp

theorem stepCalls_testStop (E : OptEnv) (s : Opt) : stepCalls (s.testStop E).1.log = stepCalls s.log := by
  rcases testStop_cases E s with ⟨k, _, he⟩ | ⟨h0, k, _, h2, v, _, h4⟩ | ⟨h0, _, h2, h3⟩
  · rw [he]
  · rw [h4]; simp [stepCalls]
  · rw [h3]

theorem steps_facts (E : OptEnv) (env : Opt → In) (info : ObjInfo) (m : Int) (hd : info.dim ≠ 0) (he : EnvValid info env) (n : Nat) :
    ∀ s : Opt, s.vis.WF info m → CondInv s.conds → (s.steps E env n).vis.WF info m ∧ CondInv (s.steps E env n).conds ∧
      stepCalls (s.steps E env n).log = stepCalls s.log + n := by
  induction n with
  | zero => intro s hw hc; exact ⟨hw, hc, rfl⟩
  | succ n ih =>
    intro s hw hc
    have ho : Op.Valid info (.step (env s)) := he s
    have h1 : (s.step E (Opt.internal E (env s))).1.vis.WF info m :=
      WF_core (apply_core E s (.step (env s)) hd hw ho) (onVis_WF E (o := .step (env s)) hw ho)
    obtain ⟨g1, g2, g3⟩ := ih _ h1 (apply_condInv (o := .step (env s)) hd hw ho hc)
    refine ⟨g1, g2, ?_⟩
    simp only [Opt.steps]; rw [g3]
    obtain ⟨rfl, -, hl⟩ := hw
    rw [step_preTest hd (he s) hl, stepCalls_testStop, stepCalls_preTest (he s) hl]; omega

/-- **C25.** `run( n )` performs at most `n` steps (as announced by `on_pre_step`), and exactly `n` when it returns null. Nothing
else than a stop condition, an exception or the number of steps ends it. -/
theorem C25_number_of_steps (E : OptEnv) (env : Opt → In) (info : ObjInfo) (m : Int) (hd : info.dim ≠ 0) (he : EnvValid info env)
    (h : List Op) (hv : ∀ o ∈ h, o.Valid info) (n : Nat) (hn : n ≠ 0) :
    let s := (Opt.new info m).after E h
    let t := s.run E env n
    stepCalls t.1.log ≤ stepCalls s.log + n ∧ stepCalls s.log < stepCalls t.1.log ∧
      (t.2 = .ok none → stepCalls t.1.log = stepCalls s.log + n) ∧ (∀ k, t.2 = .ok (some k) → t.1.stopped = some k) := by
  obtain ⟨hw, hc⟩ := history_facts E info m hd h hv
  intro s t
  rcases C25_run E env n hn s (by rw [hw.info_eq]; exact hd) with ⟨h1, h2⟩ | ⟨k, hk, h1, h2, h3⟩
  · have := (steps_facts E env info m hd he n s hw hc).2.2
    rw [show t = _ from h1]; simp only [this]
    exact ⟨le_rfl, by omega, fun _ => trivial, by simp⟩
  · obtain ⟨g1, g2, g3⟩ := steps_facts E env info m hd he (k + 1) s hw hc
    obtain ⟨⟨w1, w2, w3⟩, g2', -⟩ := steps_facts E env info m hd he k s hw hc
    rw [show t = _ from h1]; simp only [g3]
    refine ⟨by omega, by omega, fun hh => absurd hh h2, fun j hj => ?_⟩
    rw [steps_last]
    have hi' := he (s.steps E env k)
    rw [← w1] at hi' hd w3
    unfold Opt.answer at hj; dsimp only at hj
    rw [step_preTest hd hi' w3] at hj ⊢
    rcases testStop_cases E ((s.steps E env k).preTest E (env (s.steps E env k))) with ⟨j', q0, he⟩ | ⟨q0, j', q1, q2, -⟩ | ⟨q0, q1, q2, -⟩
    · rw [he] at hj ⊢; simp only [Res.ok.injEq, Option.some.injEq] at hj; rw [q0, hj]
    · rw [q1] at hj; simp only [Res.ok.injEq, Option.some.injEq] at hj; rw [q2, hj]
    · exact absurd hj (q1 j)

/-- A run of 3 steps and a run that stops after 2. -/
example : let env : Opt → In := fun s => { pop := [[.fin 1]], res := [some (.fin (10 - s.vis.stepCount))] }
    ((Opt.new optInfo 0).run optEnv env 3).2 = .ok none ∧ ((Opt.new optInfo 0).run optEnv env 3).1.vis.bestFitness = .fin 8 ∧
    (((Opt.new optInfo 0).addCond (.maxSteps 2)).run optEnv env 3).2 = .ok (some 2) ∧
    (((Opt.new optInfo 0).addCond (.maxSteps 2)).run optEnv env 3).1.vis.stepCount = 2 := by decide +kernel

/-! ### the stop conditions are all tested -/

theorem testLoop_fires (E : OptEnv) (cs : List Cond) : ∀ (k : Nat) (v : Vis) (n : Nat), Cond.maxSteps n ∈ cs → v.stepCount ≥ n →
    (testLoop E k cs v).2 ≠ .ok none := by
  induction cs with
  | nil => intro k v n h; simp at h
  | cons c cs ih =>
    intro k v n h hn
    have hcore := core_ext (test_core E c v)
    simp only [testLoop]
    rcases List.mem_cons.1 h with rfl | h
    · simp [Cond.test, hn]
    · split
      · simp
      · rename_i v' heq
        rw [heq] at hcore
        exact ih _ _ n h (by rw [hcore.2.1]; exact hn)
      · simp
      · simp

theorem setError_mem {cs : List Cond} {n : Nat} (h : Cond.maxSteps n ∈ cs) : Cond.maxSteps n ∈ setError cs := by
  induction cs with
  | nil => simp at h
  | cons c cs ih =>
    rcases List.mem_cons.1 h with rfl | h'
    · simp [setError]
    · have := ih h'
      cases c <;> simp [setError, h', this]

/-- A step of an optimizer with a step limit that is not reached returns null only if it was completed. -/
theorem limit_step {E : OptEnv} {i : In} {s : Opt} (hd : s.vis.info.dim ≠ 0) (hv : i.Valid s.vis.info)
    (hl : s.vis.bestPoint.length = s.vis.info.dim) (hc : CondInv s.conds) {n : Nat} (hm : Cond.maxSteps n ∈ s.conds)
    (hr : (s.step E (Opt.internal E i)).2 = .ok none) :
    (s.step E (Opt.internal E i)).1.vis.stepCount = s.vis.stepCount + 1 ∧ s.vis.stepCount + 1 < n ∧
    Cond.maxSteps n ∈ (s.step E (Opt.internal E i)).1.conds := by
  rw [step_preTest hd hv hl] at hr ⊢
  obtain ⟨p1, p2⟩ := preTest_stopped (E := E) hv hl
  have p3 := preTest_vis (E := E) hv hl
  have hs : (s.preTest E i).stopped = none := by
    cases hs : (s.preTest E i).stopped with
    | none => rfl
    | some k => rw [testStop_latched hs] at hr; simp at hr
  have hm' : Cond.maxSteps n ∈ (s.preTest E i).conds := by
    rw [p2]; split
    · exact setError_mem hm
    · exact hm
  by_cases hf : i.Failed s.vis.maxErrors
  · exfalso
    rw [if_pos hf] at p2
    obtain ⟨rest, hse, -⟩ := setError_inv hc
    by_cases hq : (s.preTest E i).vis.stopRequested = true
    · rw [(testStop_abort hs (by rw [p2]; exact ⟨true, rest, hse⟩) hq).1] at hr; simp at hr
    · rw [(testStop_error hs (by rw [p2]; exact hse) (by simpa using hq)).1] at hr; simp at hr
  · have hsc : (s.preTest E i).vis.stepCount = s.vis.stepCount + 1 := by rw [p3, (stepped_completed E hf).2.2.2.2.2.1]
    refine ⟨?_, ?_, ?_⟩
    · rw [(core_ext (testStop_core E _)).2.1, hsc]
    · by_contra hge
      have := testLoop_fires E (s.preTest E i).conds 0 (s.preTest E i).vis n hm' (by omega)
      unfold Opt.testStop at hr; rw [hs] at hr; dsimp only at hr
      split at hr
      · simp at hr
      · rename_i heq; rw [heq] at this; exact this hr
    · rw [testStop_conds]; exact hm'

/-- **C26.** With a `max_steps_condition( n )`, `run()` (and `run` with any limit of at least that many steps) ends after at most
`n - current_step()` steps, at least one, with a stop condition or exception. -/
theorem C26_max_steps (E : OptEnv) (env : Opt → In) (info : ObjInfo) (m : Int) (hd : info.dim ≠ 0) (he : EnvValid info env)
    (h : List Op) (hv : ∀ o ∈ h, o.Valid info) (n lim : Nat) :
    let s := (Opt.new info m).after E h
    Cond.maxSteps n ∈ s.conds → (lim = 0 ∧ n < 2 ^ 64 ∨ max 1 (n - s.vis.stepCount) ≤ lim) →
    (s.run E env lim).2 ≠ .ok none ∧ stepCalls (s.run E env lim).1.log ≤ stepCalls s.log + max 1 (n - s.vis.stepCount) := by
  obtain ⟨hw, hc⟩ := history_facts E info m hd h hv
  intro s hm hlim
  set L := if lim = 0 then 2 ^ 64 - 1 else lim with hL
  have hLge : max 1 (n - s.vis.stepCount) ≤ L := by
    rcases hlim with ⟨h1, h2⟩ | h1
    · rw [hL, if_pos h1]; omega
    · rw [hL, if_neg (by omega)]; exact h1
  -- if the first j steps returned null then j + 1 ≤ max ...
  have key : ∀ j, (∀ i < j, s.answer E env i = .ok none) → (s.steps E env j).vis.stepCount = s.vis.stepCount + j ∧
      Cond.maxSteps n ∈ (s.steps E env j).conds ∧ (0 < j → s.vis.stepCount + j < n) := by
    intro j
    induction j with
    | zero => intro _; exact ⟨rfl, hm, by simp⟩
    | succ j ih =>
      intro hj
      obtain ⟨i1, i2, i3⟩ := ih (fun i hi => hj i (by omega))
      obtain ⟨⟨w1, w2, w3⟩, g2, -⟩ := steps_facts E env info m hd he j s hw hc
      have := limit_step (E := E) (i := env (s.steps E env j)) (by rw [w1]; exact hd) (by rw [w1]; exact he _) (by rw [w1]; exact w3) g2 i2
        (hj j (by omega))
      rw [steps_last, this.1]
      exact ⟨by omega, this.2.2, fun _ => by omega⟩
  unfold Opt.run; rw [if_neg (by rw [hw.info_eq]; exact hd)]
  change (Opt.runLoop E env L s).2 ≠ _ ∧ stepCalls (Opt.runLoop E env L s).1.log ≤ _
  rcases runLoop_spec E env L s with ⟨h1, h2⟩ | ⟨k, hk, h1, h2, h3⟩
  · exfalso
    have := (key L h2).2.2 (by omega)
    omega
  · rw [h1]
    refine ⟨h2, ?_⟩
    simp only [(steps_facts E env info m hd he (k + 1) s hw hc).2.2]
    have := (key k h3).2.2
    rcases Nat.eq_zero_or_pos k with rfl | hkp
    · omega
    · have := this hkp; omega

end Spot
