import Verif.Lemmas.PoolExec
import Verif.Props.PoolSelect
import Verif.Props.Control

/-!
# How often a pool steps its members

Lemmas for C97. The members have step limits; what the pool does to a member between two of its steps changes neither its number of
steps nor whether it has stopped (except from "has not" to "has").
-/

namespace Spot

/-- The optimizer has the conditions every optimizer has (spot/optimizer.cpp:36-37) and a `max_steps_condition` of at most `N` steps. -/
def Opt.Limited (N : Nat) (m : Opt) : Prop := CondInv m.conds ∧ ∃ n ≤ N, Cond.maxSteps n ∈ m.conds

/-- There is a `predicted_fitness_condition`. -/
def hasPred (cs : List Cond) : Prop := ∃ f a n, Cond.predicted f a n ∈ cs

/-- What can happen to a member between two of its steps. -/
structure Later (m m' : Opt) : Prop where
  count : m'.vis.stepCount = m.vis.stepCount
  latch : m.stopped.isSome → m'.stopped.isSome
  inv : CondInv m.conds → CondInv m'.conds
  lim : ∀ n, Cond.maxSteps n ∈ m.conds → Cond.maxSteps n ∈ m'.conds
  pred : hasPred m.conds → hasPred m'.conds

theorem Later.refl (m : Opt) : Later m m := ⟨rfl, id, id, fun _ => id, id⟩

theorem Later.trans {a b c : Opt} (h : Later a b) (h' : Later b c) : Later a c :=
  ⟨h'.count.trans h.count, h'.latch ∘ h.latch, h'.inv ∘ h.inv, fun n hn => h'.lim n (h.lim n hn), h'.pred ∘ h.pred⟩

theorem Later.limited {N : Nat} {m m' : Opt} (h : Later m m') (hl : m.Limited N) : m'.Limited N := by
  obtain ⟨h1, n, hn, hm⟩ := hl
  exact ⟨h.inv h1, n, hn, h.lim n hm⟩

/-- The same for all members. -/
def LaterL (ms ms' : List Opt) : Prop :=
  ms'.length = ms.length ∧ ∀ (i : Nat) (m' : Opt), ms'[i]? = some m' → ∃ m, ms[i]? = some m ∧ Later m m'

theorem LaterL.refl (ms : List Opt) : LaterL ms ms := ⟨rfl, fun _ m h => ⟨m, h, .refl m⟩⟩

theorem LaterL.trans {a b c : List Opt} (h : LaterL a b) (h' : LaterL b c) : LaterL a c := by
  refine ⟨h'.1.trans h.1, fun i m hm => ?_⟩
  obtain ⟨m1, h1, l1⟩ := h'.2 i m hm
  obtain ⟨m2, h2, l2⟩ := h.2 i m1 h1
  exact ⟨m2, h2, l2.trans l1⟩

theorem LaterL.cons {m m' : Opt} {ms ms' : List Opt} (h : Later m m') (h' : LaterL ms ms') : LaterL (m :: ms) (m' :: ms') := by
  refine ⟨by simp [h'.1], fun i u hu => ?_⟩
  cases i with
  | zero => simp only [List.getElem?_cons_zero, Option.some.injEq] at hu; subst hu; exact ⟨m, rfl, h⟩
  | succ i => exact h'.2 i u (by simpa using hu)

theorem LaterL.set {ms : List Opt} {i : Nat} {m m' : Opt} (hm : ms[i]? = some m) (h : Later m m') : LaterL ms (ms.set i m') := by
  refine ⟨by simp, fun j u hu => ?_⟩
  by_cases hij : i = j
  · subst hij
    have hl : i < ms.length := (List.getElem?_eq_some_iff.1 hm).1
    simp only [List.getElem?_set_self hl, Option.some.injEq] at hu
    subst hu
    exact ⟨m, hm, h⟩
  · rw [List.getElem?_set_ne hij] at hu
    exact ⟨u, hu, .refl u⟩

theorem testStop_later (E : OptEnv) (m : Opt) : Later m (m.testStop E).1 := by
  refine ⟨(core_ext (testStop_core E m)).2.1, ?_, by rw [testStop_conds]; exact id, fun n hn => by rw [testStop_conds]; exact hn,
    by rw [testStop_conds]; exact id⟩
  intro hs
  obtain ⟨k, hk⟩ := Option.isSome_iff_exists.1 hs
  rw [testStop_latched hk]; exact hs

theorem testAll_later (E : OptEnv) (ms : List Opt) : LaterL ms (testAll E ms).1 := by
  induction ms with
  | nil => exact .refl _
  | cons m ms ih =>
    have hl := testStop_later E m
    simp only [testAll]
    rcases h : m.testStop E with ⟨m', r⟩
    rw [h] at hl
    cases r with
    | ok r =>
      dsimp only
      rcases h2 : testAll E ms with ⟨ms', r'⟩
      rw [h2] at ih
      cases r' <;> exact .cons hl ih
    | err => exact .cons hl (.refl _)
    | ub => exact .cons hl (.refl _)

theorem predictLoop_later (E : OptEnv) (cfg : PoolCfg) (info : ObjInfo) (ms : List Opt) :
    ∀ n, LaterL ms (predictLoop E cfg info n ms).1 := by
  induction ms with
  | nil => intro n; exact .refl _
  | cons m ms ih =>
    intro n
    have hl := testStop_later E m
    simp only [predictLoop]
    split
    · rcases h : m.testStop E with ⟨m', r⟩
      rw [h] at hl
      dsimp only at hl ⊢
      cases r with
      | ok r =>
        cases r with
        | some k => exact .cons hl (ih n)
        | none =>
          dsimp only
          by_cases hs : m'.vis.stepCount ≥ cfg.start
          · simp only [if_pos hs]
            have hcore := predicted_core E m'.vis cfg.lookAhead
            rcases hp : m'.vis.predictedFitness E cfg.lookAhead with ⟨v, x⟩
            rw [hp] at hcore
            have hl2 : Later m { m' with vis := v } :=
              ⟨(core_ext hcore).2.1.trans hl.count, hl.latch, hl.inv, hl.lim, hl.pred⟩
            cases x with
            | ok x => exact .cons hl2 (ih _)
            | err => exact .cons hl2 (.refl _)
            | ub => exact .cons hl2 (.refl _)
          · simp only [if_neg hs]
            exact .cons hl (ih _)
      | err => exact .cons hl (.refl _)
      | ub => exact .cons hl (.refl _)
    · exact .cons (.refl _) (ih n)

theorem fillLoop_later (E : OptEnv) (c : Nat) (preds : List Dbl) (is : List Nat) :
    ∀ (q : List Nat) (ms : List Opt), LaterL ms (fillLoop E c preds is q ms).1 := by
  induction is with
  | nil => intro q ms; exact .refl _
  | cons i is ih =>
    intro q ms
    unfold fillLoop
    split
    · exact .refl _
    · rename_i m hm
      have hl := testStop_later E m
      rcases h : m.testStop E with ⟨m', r⟩
      rw [h] at hl
      have hset := LaterL.set hm hl
      cases r with
      | ok r =>
        cases r with
        | some k => exact hset
        | none =>
          dsimp only
          split
          · exact hset
          · exact hset.trans (ih _ _)
      | err => exact hset
      | ub => exact hset

theorem setTarget_later {f : Dbl} : ∀ {cs cs' : List Cond}, setTarget f cs = some cs' →
    (CondInv cs → CondInv cs') ∧ ∀ n, Cond.maxSteps n ∈ cs → Cond.maxSteps n ∈ cs' := by
  have key : ∀ {cs cs' : List Cond}, setTarget f cs = some cs' → ∀ n, Cond.maxSteps n ∈ cs → Cond.maxSteps n ∈ cs' := by
    intro cs
    induction cs with
    | nil => intro cs' h; cases h
    | cons c cs ih =>
      intro cs' h n hn
      cases c with
      | predicted a b c =>
        simp only [setTarget, Option.some.injEq] at h
        subst h
        simpa using hn
      | _ =>
        simp only [setTarget, Option.map_eq_some_iff] at h
        obtain ⟨d, hd, rfl⟩ := h
        rcases List.mem_cons.1 hn with h | h
        · rw [h]; exact List.mem_cons_self ..
        · exact List.mem_cons_of_mem _ (ih hd n h)
  intro cs cs' h
  refine ⟨?_, key h⟩
  rintro ⟨b, rest, rfl⟩
  simp only [setTarget, Option.map_map, Option.map_eq_some_iff, Function.comp_apply] at h
  obtain ⟨d, hd, rfl⟩ := h
  exact ⟨b, d, rfl⟩

theorem setTarget_pred {f : Dbl} : ∀ {cs cs' : List Cond}, setTarget f cs = some cs' → hasPred cs → hasPred cs' := by
  intro cs
  induction cs with
  | nil => intro cs' h; cases h
  | cons c cs ih =>
    rintro cs' h ⟨g, a, n, hn⟩
    cases c with
    | predicted a b c =>
      simp only [setTarget, Option.some.injEq] at h
      subst h
      exact ⟨_, _, _, List.mem_cons_self ..⟩
    | _ =>
      simp only [setTarget, Option.map_eq_some_iff] at h
      obtain ⟨d, hd, rfl⟩ := h
      rcases List.mem_cons.1 hn with h | h
      · cases h
      · obtain ⟨x, y, z, hx⟩ := ih hd ⟨g, a, n, h⟩
        exact ⟨x, y, z, List.mem_cons_of_mem _ hx⟩

theorem setTargets_later (f : Dbl) (ms : List Opt) : LaterL ms (setTargets f ms).1 := by
  induction ms with
  | nil => exact .refl _
  | cons m ms ih =>
    simp only [setTargets]
    split
    · rename_i cs hcs
      obtain ⟨h1, h2⟩ := setTarget_later hcs
      exact .cons ⟨rfl, id, h1, h2, setTarget_pred hcs⟩ ih
    · exact .refl _

theorem interrupt_later (ms : List Opt) : LaterL ms (ms.map Opt.interrupt) := by
  refine ⟨by simp, fun i m' h => ?_⟩
  rw [List.getElem?_map, Option.map_eq_some_iff] at h
  obtain ⟨m, hm, rfl⟩ := h
  exact ⟨m, hm, ⟨rfl, id, id, fun _ => id, id⟩⟩

theorem collect_later {p p' : Pool} {i : Nat} {x : Res Unit} (h : p.collect i = (p', x)) : LaterL p.members p'.members := by
  unfold Pool.collect at h
  split at h
  · cases h; exact .refl _
  · rename_i m hm
    dsimp only at h
    generalize hnb : (p.bestIdx.isNone || p.own.info.isBetter m.vis.bestFitness p.best) = nb at h
    have hs := setTargets_later m.vis.bestFitness p.members
    cases nb <;> cases hu : p.cfg.usePredicted <;> simp [hu] at h
    all_goals first
      | (split at h <;> cases h <;> simpa [Pool.signal] using LaterL.refl _; done)
      | skip
    split at h
    · split at h <;> cases h <;> simpa [Pool.signal] using hs
    · cases h; simpa using hs

theorem poolLoop_later (E : OptEnv) (cs : List PCond) : ∀ (k : Nat) (p : Pool), LaterL p.members (Pool.testLoop E k cs p).1.members := by
  induction cs with
  | nil => intro k p; exact .refl _
  | cons c cs ih =>
    intro k p
    have hc : LaterL p.members (p.testCond E c).1.members := by
      cases c with
      | allStopped => exact testAll_later E _
      | own c => unfold Pool.testCond; dsimp only; split <;> exact .refl _
    simp only [Pool.testLoop]
    rcases h : p.testCond E c with ⟨p', r⟩
    rw [h] at hc
    cases r with
    | ok b => cases b with
      | true => exact hc
      | false => exact hc.trans (ih _ _)
    | err => exact hc
    | ub => exact hc

theorem poolTest_later (E : OptEnv) (p : Pool) : LaterL p.members (p.testStop E).1.members := by
  have := poolLoop_later E p.conds 0 p
  unfold Pool.testStop
  split
  · exact .refl _
  · split
    · rename_i heq; rw [heq] at this; exact this
    · rename_i heq; rw [heq] at this; exact this

theorem refill_later {E : OptEnv} {p p' : Pool} {sel : List Nat} (h : Refill E p sel p') : LaterL p.members p'.members := by
  cases h with
  | keep h => exact .refl _
  | @fill ms ms' preds ord q h hp ho hf hb =>
    have h1 := predictLoop_later E p.cfg p.own.info p.members 0
    have h2 := fillLoop_later E p.cfg.concurrent preds ord [] ms
    rw [hp] at h1
    rw [hf] at h2
    exact h1.trans h2

/-- A member no stop condition of which holds has not stopped and is below its limit. -/
theorem going_below {E : OptEnv} {N : Nat} {m : Opt} (hl : m.Limited N) (hg : m.Going E) : m.stopped = none ∧ m.vis.stepCount < N := by
  unfold Opt.Going at hg
  have hs : m.stopped = none := by
    cases hs : m.stopped with
    | none => rfl
    | some k => rw [testStop_latched hs] at hg; cases hg
  refine ⟨hs, ?_⟩
  obtain ⟨-, n, hn, hm⟩ := hl
  by_contra hge
  have := testLoop_fires E m.conds 0 m.vis n hm (by omega)
  unfold Opt.testStop at hg
  rw [hs] at hg
  dsimp only at hg
  split at hg
  · cases hg
  · rename_i heq; rw [heq] at this; exact this hg

theorem evaluateStep_later (E : OptEnv) (s : Opt) (pop : List Pt) (res : List (Option Dbl)) :
    let s' := (s.evaluateStep E pop res).1
    s'.vis.stepCount = s.vis.stepCount ∧ s'.stopped = s.stopped ∧
      (s'.conds = s.conds ∨ s'.conds = setError s.conds) ∧
      ((s.evaluateStep E pop res).2 = .ok false → s'.conds = setError s.conds) := by
  have ht : ∀ v : Vis, (v.track E).stepCount = v.stepCount := fun v => by unfold Vis.track; split <;> rfl
  unfold Opt.evaluateStep
  dsimp only [Opt.signal]
  split
  · exact ⟨rfl, rfl, .inr rfl, fun _ => rfl⟩
  · split
    · split
      · rename_i x heq
        refine ⟨?_, ?_, .inl ?_, by simp⟩
        all_goals
          split at heq
          · split at heq
            · cases heq; simp [ht]
            · cases heq
          · cases heq; simp [ht]
      · exact ⟨rfl, rfl, .inl rfl, by simp⟩
    · exact ⟨rfl, rfl, .inl rfl, by simp⟩

/-- A step of an optimizer that returns: either it was completed, or the optimizer has stopped now. -/
theorem step_counts {E : OptEnv} {i : In} {N : Nat} {m m' : Opt} {x : Option Nat} (hl : m.Limited N)
    (hs : m.step E (Opt.internal E i) = (m', .ok x)) :
    (m.stopped.isSome → m'.stopped.isSome) ∧ m'.Limited N ∧
      (m'.vis.stepCount = m.vis.stepCount + 1 ∨ (m'.vis.stepCount = m.vis.stepCount ∧ m'.stopped.isSome)) := by
  unfold Opt.step at hs
  split at hs
  · cases hs
  · have hb : Later m m.begun := ⟨by rw [begun_vis], by rw [begun_stopped]; exact id, by rw [begun_conds]; exact id,
      fun n => by rw [begun_conds]; exact id, by rw [begun_conds]; exact id⟩
    change (match Opt.internal E i m.begun with
      | (s, .ok true) =>
        ({ s.signal .postStep with vis := { (s.signal .postStep).vis with stepCount := (s.signal .postStep).vis.stepCount + 1 } } : Opt).testStop E
      | (s, .ok false) => s.testStop E
      | (s, .err) => (s, .err)
      | (s, .ub) => (s, .ub)) = (m', .ok x) at hs
    have hl1 := hb.limited hl
    obtain ⟨e1, e2, e3, e4⟩ := evaluateStep_later E m.begun i.pop i.res
    have hint : let s := (Opt.internal E i m.begun).1
        s.vis.stepCount = m.begun.vis.stepCount ∧ s.stopped = m.begun.stopped ∧
        (s.conds = m.begun.conds ∨ s.conds = setError m.begun.conds) ∧
        ((Opt.internal E i m.begun).2 = .ok false → s.conds = setError m.begun.conds) := by
      unfold Opt.internal
      dsimp only
      split
      · exact ⟨e1, e2, e3, e4⟩
      · exact ⟨e1, e2, e3, e4⟩
    rcases hi : Opt.internal E i m.begun with ⟨s, r⟩
    rw [hi] at hs hint
    obtain ⟨i1, i2, i3, i4⟩ := hint
    dsimp only at i1 i2 i3 i4
    have hls : s.Limited N := by
      obtain ⟨hci, n, hn, hm⟩ := hl1
      rcases i3 with h | h
      · exact ⟨by rw [h]; exact hci, n, hn, by rw [h]; exact hm⟩
      · obtain ⟨rest, hr, -⟩ := setError_inv hci
        exact ⟨by rw [h]; exact ⟨true, rest, hr⟩, n, hn, by rw [h]; exact setError_mem hm⟩
    have hst : m.stopped.isSome → s.stopped.isSome := fun h => by rw [i2]; exact hb.latch h
    cases r with
    | ok b =>
      cases b with
      | true =>
        dsimp only at hs
        have hlt := testStop_later E ({ s.signal .postStep with vis := { (s.signal .postStep).vis with
          stepCount := (s.signal .postStep).vis.stepCount + 1 } } : Opt)
        rw [hs] at hlt
        refine ⟨fun h => hlt.latch (hst h), hlt.limited hls, .inl ?_⟩
        rw [hlt.count]
        show s.vis.stepCount + 1 = _
        rw [i1, hb.count]
      | false =>
        dsimp only at hs
        have hlt := testStop_later E s
        have hsc := testStop_cases E s
        rw [hs] at hlt hsc
        refine ⟨fun h => hlt.latch (hst h), hlt.limited hls, .inr ⟨by rw [hlt.count, i1, hb.count], ?_⟩⟩
        rcases hsc with ⟨k, h1, h2⟩ | ⟨h0, k, h1, h2, -⟩ | ⟨h0, h1, -, -⟩
        · cases h2; rw [h1]; rfl
        · rw [h2]; rfl
        · exfalso
          obtain ⟨rest, hr, -⟩ := setError_inv hl1.1
          have hc := (i4 rfl).trans hr
          by_cases hq : s.vis.stopRequested = true
          · have := (testStop_abort (E := E) h0 ⟨true, rest, hc⟩ hq).1
            rw [hs] at this
            exact h1 _ this
          · have := (testStop_error (E := E) h0 hc (by simpa using hq)).1
            rw [hs] at this
            exact h1 _ this
    | err => cases hs
    | ub => cases hs

/-! ### the accounting -/

/-- How many more times a member can be stepped. -/
def weight (N : Nat) (q : List Nat) (i : Nat) (m : Opt) : Nat := if i ∈ q ∨ m.stopped = none then N - m.vis.stepCount else 0

/-- `c i` is how often member `i` has been stepped, `q` are the members that have been selected and not been stepped. -/
structure CountInv (N : Nat) (q : List Nat) (c : Nat → Nat) (ms : List Opt) : Prop where
  nodup : q.Nodup
  lim : ∀ (i : Nat) (m : Opt), ms[i]? = some m → m.Limited N
  below : ∀ (i : Nat) (m : Opt), ms[i]? = some m → i ∈ q → m.vis.stepCount < N
  inside : ∀ i ∈ q, i < ms.length
  bound : ∀ (i : Nat) (m : Opt), ms[i]? = some m → c i + weight N q i m ≤ N

theorem weight_later {N : Nat} {q : List Nat} {i : Nat} {m m' : Opt} (h : Later m m') : weight N q i m' ≤ weight N q i m := by
  unfold weight
  by_cases hi : i ∈ q
  · rw [if_pos (.inl hi), if_pos (.inl hi), h.count]
  · simp only [hi, false_or]
    by_cases hs : m.stopped = none
    · rw [if_pos hs, h.count]
      split <;> omega
    · rw [if_neg hs, if_neg]
      intro h1
      have := h.latch (Option.isSome_iff_ne_none.2 hs)
      rw [h1] at this; cases this

theorem CountInv.later {N : Nat} {q : List Nat} {c : Nat → Nat} {ms ms' : List Opt} (I : CountInv N q c ms) (h : LaterL ms ms') :
    CountInv N q c ms' := by
  refine ⟨I.nodup, ?_, ?_, by rw [h.1]; exact I.inside, ?_⟩
  · intro i m' hm'
    obtain ⟨m, hm, hl⟩ := h.2 i m' hm'
    exact hl.limited (I.lim i m hm)
  · intro i m' hm' hi
    obtain ⟨m, hm, hl⟩ := h.2 i m' hm'
    rw [hl.count]; exact I.below i m hm hi
  · intro i m' hm'
    obtain ⟨m, hm, hl⟩ := h.2 i m' hm'
    have := I.bound i m hm
    have := weight_later (N := N) (q := q) (i := i) hl
    omega

/-- Members are selected. -/
theorem CountInv.select {E : OptEnv} {N : Nat} {c : Nat → Nat} {ms : List Opt} {sel : List Nat} (I : CountInv N [] c ms)
    (hnd : sel.Nodup) (hg : ∀ i ∈ sel, ∃ m, ms[i]? = some m ∧ m.Going E) : CountInv N sel c ms := by
  refine ⟨hnd, I.lim, ?_, ?_, ?_⟩
  · intro i m hm hi
    obtain ⟨m1, h1, h2⟩ := hg i hi
    rw [hm] at h1; cases h1
    exact (going_below (I.lim i m hm) h2).2
  · intro i hi
    obtain ⟨m1, h1, h2⟩ := hg i hi
    exact (List.getElem?_eq_some_iff.1 h1).1
  · intro i m hm
    have hb := I.bound i m hm
    unfold weight at hb ⊢
    by_cases hi : i ∈ sel
    · obtain ⟨m1, h1, h2⟩ := hg i hi
      rw [hm] at h1; cases h1
      have hs := (going_below (I.lim i m hm) h2).1
      rw [if_pos (.inr hs)] at hb
      rw [if_pos (.inl hi)]
      exact hb
    · by_cases hs : m.stopped = none
      · rw [if_pos (.inr hs)] at hb ⊢; exact hb
      · rw [if_neg (by tauto)]
        omega

/-- A member is stepped. -/
theorem CountInv.finish {E : OptEnv} {ins : In} {N : Nat} {q q' : List Nat} {c : Nat → Nat} {ms : List Opt} (I : CountInv N q c ms)
    {i : Nat} {m m' : Opt} {x : Option Nat} (hi : i ∈ q) (hm : ms[i]? = some m) (hs : m.step E (Opt.internal E ins) = (m', .ok x))
    (hq : q'.Nodup) (hq' : ∀ j, j ∈ q' ↔ j ∈ q ∧ j ≠ i) :
    CountInv N q' (fun j => c j + if j = i then 1 else 0) (ms.set i m') := by
  have hlen : i < ms.length := (List.getElem?_eq_some_iff.1 hm).1
  obtain ⟨h1, h2, h3⟩ := step_counts (I.lim i m hm) hs
  have hget : ∀ (j : Nat) (u : Opt), (ms.set i m')[j]? = some u → (j = i ∧ u = m') ∨ (j ≠ i ∧ ms[j]? = some u) := by
    intro j u hu
    by_cases hij : i = j
    · subst hij
      simp only [List.getElem?_set_self hlen, Option.some.injEq] at hu
      exact .inl ⟨rfl, hu.symm⟩
    · rw [List.getElem?_set_ne hij] at hu
      exact .inr ⟨fun h => hij h.symm, hu⟩
  refine ⟨hq, ?_, ?_, ?_, ?_⟩
  · intro j u hu
    rcases hget j u hu with ⟨rfl, rfl⟩ | ⟨hne, hu⟩
    · exact h2
    · exact I.lim j u hu
  · intro j u hu hj
    rcases hget j u hu with ⟨rfl, rfl⟩ | ⟨hne, hu⟩
    · exact absurd rfl ((hq' _).1 hj).2
    · exact I.below j u hu ((hq' j).1 hj).1
  · intro j hj
    rw [List.length_set]; exact I.inside j ((hq' j).1 hj).1
  · intro j u hu
    rcases hget j u hu with ⟨rfl, rfl⟩ | ⟨hne, hu⟩
    · have hb := I.bound j m hm
      have hlt := I.below j m hm hi
      unfold weight at hb ⊢
      rw [if_pos (.inl hi)] at hb
      have hnq : j ∉ q' := fun h => ((hq' j).1 h).2 rfl
      simp only [if_true]
      split
      · rename_i hc
        rcases hc with hc | hc
        · exact absurd hc hnq
        · rcases h3 with h3 | ⟨h3, h4⟩
          · rw [h3]; omega
          · rw [hc] at h4; cases h4
      · omega
    · have hb := I.bound j u hu
      simp only [if_neg hne, Nat.add_zero]
      unfold weight at hb ⊢
      rw [if_congr (or_congr (show j ∈ q' ↔ j ∈ q by rw [hq' j]; simp [hne]) Iff.rfl) rfl rfl]
      exact hb

/-- As long as no exception leaves the function, members whose step threw are still to be looked at. -/
theorem failed_futs {E : OptEnv} {ins : Nat → In} {r t : RunSt} (h : RunExec E ins r t) (h0 : r.failed = []) (hrf : r.running ⊆ r.futs) :
    t.threw = false → t.failed ⊆ t.futs ∧ t.running ⊆ t.futs := by
  induction h with
  | nil => intro _; rw [h0]; exact ⟨by simp, hrf⟩
  | snoc hx st ih =>
    intro ht
    cases st with
    | finish hi hm hs => exact ⟨(ih ht).1, fun j hj => (ih ht).2 (List.mem_of_mem_erase hj)⟩
    | fail hi hm hs =>
      refine ⟨?_, fun j hj => (ih ht).2 (List.mem_of_mem_erase hj)⟩
      intro j hj
      rcases List.mem_cons.1 hj with rfl | hj
      · exact (ih ht).2 hi
      · exact (ih ht).1 hj
    | collect h hr hf hc =>
      obtain ⟨i1, i2⟩ := ih ht
      rw [h] at i1 i2
      constructor
      · intro j hj
        rcases List.mem_cons.1 (i1 hj) with rfl | hj'
        · exact absurd hj hf
        · exact hj'
      · intro j hj
        rcases List.mem_cons.1 (i2 hj) with rfl | hj'
        · exact absurd hj hr
        · exact hj'
    | throws => cases ht
    | rethrow => cases ht
    | interrupt => exact ih ht

/-- The accounting during a step of the pool. `c'` counts the members whose step has ended. -/
theorem CountInv.exec {E : OptEnv} {ins : Nat → In} {N : Nat} {c : Nat → Nat} {r t : RunSt} (h : RunExec E ins r t)
    (I : CountInv N (r.running ++ r.pool.queue) c r.pool.members) (ht : t.failed = []) (hth : t.threw = false) :
    t.pool.queue = r.pool.queue ∧
    ∃ c', (∀ j, c' j + (if j ∈ t.running then 1 else 0) = c j + (if j ∈ r.running then 1 else 0)) ∧
      CountInv N (t.running ++ t.pool.queue) c' t.pool.members := by
  induction h with
  | nil => exact ⟨rfl, c, fun _ => rfl, I⟩
  | @snoc s t hx st ih =>
    cases st with
    | @finish i m m' x hi hm hs =>
      obtain ⟨hq, c', hc', J⟩ := ih ht hth
      dsimp only at hq ⊢
      refine ⟨hq, fun j => c' j + if j = i then 1 else 0, ?_, ?_⟩
      · have hnd := (List.nodup_append.1 J.nodup).1
        intro j
        rw [← hc' j]
        by_cases hj : j = i
        · subst hj
          have : j ∉ s.running.erase j := fun h => (List.Nodup.not_mem_erase hnd h)
          simp [hi, this]
        · have : j ∈ s.running.erase i ↔ j ∈ s.running := List.mem_erase_of_ne hj
          simp [hj, this]
      · have hnd := J.nodup
        refine J.finish (List.mem_append_left _ hi) hm hs ?_ ?_
        · exact hnd.sublist (List.Sublist.append_right (List.erase_sublist) _)
        · obtain ⟨n1, n2, n3⟩ := List.nodup_append.1 hnd
          intro j
          simp only [List.mem_append, List.Nodup.mem_erase_iff n1]
          constructor
          · rintro (⟨a, b⟩ | a)
            · exact ⟨.inl b, a⟩
            · exact ⟨.inr a, fun h => n3 i hi j a h.symm⟩
          · rintro ⟨a | a, b⟩
            · exact .inl ⟨b, a⟩
            · exact .inr a
    | fail => simp at ht
    | @collect i is p h hr hf hc =>
      obtain ⟨hq, c', hc', J⟩ := ih ht hth
      have hcq := (collect_fields hc).2.2.1
      refine ⟨hcq.trans hq, c', hc', ?_⟩
      dsimp only
      rw [hcq]
      exact J.later (collect_later hc)
    | throws => cases hth
    | rethrow => cases hth
    | interrupt =>
      obtain ⟨hq, c', hc', J⟩ := ih ht hth
      exact ⟨hq, c', hc', J.later (interrupt_later _)⟩

/-- The accounting over a step of the pool. -/
theorem CountInv.step {E : OptEnv} {ins : Nat → In} {N : Nat} {c : Nat → Nat} {p p' : Pool} {sel run : List Nat} {r : Option Nat}
    (h : Pool.Step E ins p sel run p' r) (I : CountInv N p.queue c p.members) :
    run.Nodup ∧ (∀ j ∈ run, j < p.members.length) ∧ p'.members.length = p.members.length ∧
      CountInv N p'.queue (fun j => c j + if j ∈ run then 1 else 0) p'.members := by
  cases h with
  | @mk p₁ p₂ _ t _ _ hd hne h1 h2 h3 hend h4 =>
    have h1' : p₁.queue = p.queue ∧ p₁.members = p.members := by rw [h1]; split <;> exact ⟨rfl, rfl⟩
    have I1 : CountInv N p₁.queue c p₁.members := by rw [h1'.1, h1'.2]; exact I
    have I2 : CountInv N p₂.queue c p₂.members := by
      obtain ⟨g1, g2, g3⟩ := refill_sel E h2
      obtain ⟨f1, f2, f3, f4, f5, f6, f7, f8, f9⟩ := refill_fields h2
      have hl := refill_later h2
      by_cases hq : p₁.queue = []
      · rw [hq] at I1 f8
        rw [f8]
        exact (I1.later hl).select g1 g2
      · rw [f8, g3 hq, List.append_nil]
        exact I1.later hl
    have hth := hend.2.2
    have hfu := failed_futs h3 rfl (List.Subset.refl _) hth
    rw [hend.2.1] at hfu
    have hfa : t.failed = [] := List.subset_nil.1 hfu.1
    have I3 : CountInv N (p₂.launch.running ++ p₂.launch.pool.queue) c p₂.launch.pool.members := by
      have : p₂.launch.running ++ p₂.launch.pool.queue = p₂.queue := List.take_append_drop ..
      rw [this]; exact I2
    obtain ⟨hq, c', hc', J⟩ := CountInv.exec h3 I3 hfa hth
    have hf := poolTest_fields E { t.pool.signal .postStep with own := { t.pool.own with stepCount := t.pool.own.stepCount + 1 } }
    have hlt := poolTest_later E { t.pool.signal .postStep with own := { t.pool.own with stepCount := t.pool.own.stepCount + 1 } }
    rw [h4] at hf hlt
    dsimp only at hf hlt
    have hpq : p'.queue = t.pool.queue := hf.2.2.1
    have hrun : (p₂.launch.futs).Nodup := I2.nodup.sublist (List.take_sublist _ _)
    refine ⟨hrun, ?_, ?_, ?_⟩
    · intro j hj
      have := I2.inside j (List.mem_of_mem_take hj)
      rw [(refill_later h2).1, h1'.2] at this
      exact this
    · have e1 : t.pool.members.length = p₂.members.length := by
        have : ∀ {r t : RunSt}, RunExec E ins r t → t.pool.members.length = r.pool.members.length := by
          intro r t h
          induction h with
          | nil => rfl
          | snoc _ st ih =>
            cases st with
            | finish => simpa using ih
            | fail => simpa using ih
            | collect h hr hf hc => exact (collect_later hc).1.trans ih
            | throws h hr hf hc => exact (collect_later hc).1.trans ih
            | rethrow => exact ih
            | interrupt => exact (interrupt_later _).1.trans ih
        exact this h3
      rw [hlt.1]
      show t.pool.members.length = _
      rw [e1, (refill_later h2).1, h1'.2]
    · have J2 : CountInv N p'.queue c' p'.members := by
        rw [hend.1, List.nil_append] at J
        rw [hpq]
        exact J.later hlt
      have : c' = fun j => c j + if j ∈ p₂.launch.futs then 1 else 0 := by
        funext j
        have := hc' j
        rw [hend.1] at this
        simp only [List.not_mem_nil, if_false, Nat.add_zero] at this
        exact this
      rw [← this]; exact J2

/-- A pool whose members have all stopped stops. -/
theorem all_stopped {E : OptEnv} (cs : List PCond) : ∀ (k : Nat) (p : Pool), PCond.allStopped ∈ cs →
    (∀ m ∈ p.members, m.stopped.isSome) → (Pool.testLoop E k cs p).2 ≠ .ok none := by
  have hall : ∀ ms : List Opt, (∀ m ∈ ms, m.stopped.isSome) → (testAll E ms).2 = .ok true := by
    intro ms
    induction ms with
    | nil => intro _; rfl
    | cons m ms ih =>
      intro h
      obtain ⟨k, hk⟩ := Option.isSome_iff_exists.1 (h m (by simp))
      have := ih (fun m hm => h m (by simp [hm]))
      simp only [testAll, testStop_latched hk]
      rcases ht : testAll E ms with ⟨ms', r⟩
      rw [ht] at this
      dsimp only at this
      subst this
      rfl
  induction cs with
  | nil => intro k p h; simp at h
  | cons c cs ih =>
    intro k p h hs
    simp only [Pool.testLoop]
    cases c with
    | allStopped =>
      have : p.testCond E .allStopped = ((p.testCond E .allStopped).1, .ok true) := Prod.ext rfl (hall _ hs)
      rw [this]
      simp
    | own c =>
      have hm : (p.testCond E (.own c)).1.members = p.members := by unfold Pool.testCond; dsimp only; split <;> rfl
      have h' : PCond.allStopped ∈ cs := by simpa using h
      rcases hc : p.testCond E (.own c) with ⟨p', r⟩
      rw [hc] at hm
      cases r with
      | ok b => cases b with
        | true => simp
        | false => exact ih _ _ h' (by rw [hm]; exact hs)
      | err => simp
      | ub => simp

/-- If no member is going, finding that out (with at least one active member) latches all of them. -/
theorem predictLoop_all {E : OptEnv} (cfg : PoolCfg) (info : ObjInfo) : ∀ (ms : List Opt) (n : Nat) (ms' : List Opt) (preds : List Dbl),
    predictLoop E cfg info n ms = (ms', .ok preds) → n < cfg.active → (∀ m ∈ ms, ¬ m.Going E) → ∀ m ∈ ms', m.stopped.isSome := by
  intro ms
  induction ms with
  | nil => intro n ms' preds h; cases h; simp
  | cons m ms ih =>
    intro n ms' preds h hn hg
    simp only [predictLoop, if_pos hn] at h
    have hgm := hg m (by simp)
    unfold Opt.Going at hgm
    have hsc := testStop_cases E m
    rcases hs : m.testStop E with ⟨m', r⟩
    rw [hs] at h hgm hsc
    cases r with
    | ok r =>
      cases r with
      | none => exact absurd rfl hgm
      | some k =>
        dsimp only at h
        rcases hp : predictLoop E cfg info n ms with ⟨ms1, r1⟩
        rw [hp] at h
        cases r1 with
        | ok xs =>
          cases h
          have := ih n ms1 xs hp hn (fun m hm => hg m (by simp [hm]))
          intro u hu
          rcases List.mem_cons.1 hu with rfl | hu
          · rcases hsc with ⟨j, h1, h2⟩ | ⟨-, j, -, h2, -⟩ | ⟨-, h1, -, -⟩
            · cases h2; rw [h1]; rfl
            · rw [h2]; rfl
            · exact absurd rfl (h1 k)
          · exact this u hu
        | err => cases h
        | ub => cases h
    | err => cases h
    | ub => cases h

end Spot
