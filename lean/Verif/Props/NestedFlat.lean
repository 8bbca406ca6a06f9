import Verif.Props.NestedStop

/-! # Pools of pools: the case of a pool of optimizers, and examples (C117) -/

namespace Spot

variable {E : OptEnv}

/-- A pool of optimizers as a pool of anything. -/
def Pool.gen (p : Pool) (done : List Nat) : PoolG Opt :=
  { cfg := p.cfg, own := p.own, conds := p.conds, stopped := p.stopped, best := p.best, bestIdx := p.bestIdx, members := p.members, queue := p.queue, log := p.log, done := done }

theorem gen_bestMember (p : Pool) (d : List Nat) : (p.gen d).bestMember = p.bestMember := by
  unfold PoolG.bestMember Pool.bestMember
  rw [show (p.gen d).bestIdx = p.bestIdx from rfl, show (p.gen d).members = p.members from rfl]
  cases p.bestIdx with
  | none => rfl
  | some k =>
    dsimp only
    cases p.members[k]? <;> rfl

theorem gen_view (p : Pool) (d : List Nat) : (p.gen d).view (Opt.iface E) = p.view := by
  unfold PoolG.view Pool.view
  rw [gen_bestMember]
  cases p.bestMember <;> rfl

theorem gen_testAll : ∀ ms : List Opt, testAllG (Opt.iface E) ms = testAll E ms
  | [] => rfl
  | m :: ms => by
    unfold testAllG testAll
    rw [gen_testAll ms, show (Opt.iface E).testStop m = m.testStop E from rfl]
    rcases m.testStop E with ⟨m', x⟩
    cases x with
    | ok k =>
      dsimp only
      rcases testAll E ms with ⟨ms', y⟩
      cases y <;> rfl
    | err => rfl
    | ub => rfl

theorem gen_testCond (p : Pool) (d : List Nat) (c : PCond) : (p.gen d).testCond (Opt.iface E) E c = ((p.testCond E c).1.gen d, (p.testCond E c).2) := by
  cases c with
  | allStopped => simp only [PoolG.testCond, Pool.testCond, show (p.gen d).members = p.members from rfl, gen_testAll]; rfl
  | own c =>
    simp only [PoolG.testCond, Pool.testCond, gen_view]
    cases p.view with
    | ok v => rfl
    | err => cases h : c.usesBest p.own <;> simp only [show (p.gen d).own = p.own from rfl, h] <;> rfl
    | ub => cases h : c.usesBest p.own <;> simp only [show (p.gen d).own = p.own from rfl, h] <;> rfl

theorem gen_testLoop (d : List Nat) : ∀ (cs : List PCond) (k : Nat) (p : Pool),
    PoolG.testLoop (Opt.iface E) E k cs (p.gen d) = ((Pool.testLoop E k cs p).1.gen d, (Pool.testLoop E k cs p).2)
  | [], _, _ => rfl
  | c :: cs, k, p => by
    simp only [PoolG.testLoop, Pool.testLoop, gen_testCond]
    rcases p.testCond E c with ⟨p', x⟩
    cases x with
    | ok b => cases b with
      | true => rfl
      | false => exact gen_testLoop d cs (k + 1) p'
    | err => rfl
    | ub => rfl

theorem gen_testStop (p : Pool) (d : List Nat) : (p.gen d).testStop (Opt.iface E) E = ((p.testStop E).1.gen d, (p.testStop E).2) := by
  unfold PoolG.testStop Pool.testStop
  rw [show (p.gen d).stopped = p.stopped from rfl, show (p.gen d).conds = p.conds from rfl, gen_testLoop]
  cases p.stopped with
  | some k => rfl
  | none =>
    dsimp only
    rcases Pool.testLoop E 0 p.conds p with ⟨p', x⟩
    cases x with
    | ok k => cases k <;> rfl
    | err => rfl
    | ub => rfl

theorem gen_predictLoop (cfg : PoolCfg) (info : ObjInfo) : ∀ (ms : List Opt) (n : Nat), predictLoopG (Opt.iface E) cfg info n ms = predictLoop E cfg info n ms
  | [], _ => rfl
  | m :: ms, n => by
    unfold predictLoopG predictLoop
    simp only [gen_predictLoop cfg info ms]
    rw [show (Opt.iface E).testStop m = m.testStop E from rfl]
    split
    · rcases m.testStop E with ⟨m', x⟩
      cases x with
      | ok k =>
        cases k with
        | none =>
          dsimp only
          have e : (if (Opt.iface E).steps m' ≥ cfg.start then (Opt.iface E).predicted cfg.lookAhead m' else (m', Res.ok info.bestFitness)) =
            (if m'.vis.stepCount ≥ cfg.start then ({ m' with vis := (m'.vis.predictedFitness E cfg.lookAhead).1 }, (m'.vis.predictedFitness E cfg.lookAhead).2)
              else (m', .ok info.bestFitness)) := rfl
          rw [e]
          generalize (if m'.vis.stepCount ≥ cfg.start then (({ m' with vis := (m'.vis.predictedFitness E cfg.lookAhead).1 } : Opt), (m'.vis.predictedFitness E cfg.lookAhead).2)
              else (m', Res.ok info.bestFitness)) = y
          obtain ⟨m'', x⟩ := y
          cases x <;> rfl
        | some k => rfl
      | err => rfl
      | ub => rfl
    · rfl

theorem gen_fillLoop (c : Nat) (preds : List Dbl) : ∀ (is q : List Nat) (ms : List Opt), fillLoopG (Opt.iface E) c preds is q ms = fillLoop E c preds is q ms
  | [], _, _ => rfl
  | i :: is, q, ms => by
    unfold fillLoopG fillLoop
    cases ms[i]? with
    | none => rfl
    | some m =>
      simp only [gen_fillLoop c preds is]
      rw [show (Opt.iface E).testStop m = m.testStop E from rfl]
      rcases m.testStop E with ⟨m', x⟩
      cases x with
      | ok k => cases k <;> rfl
      | err => rfl
      | ub => rfl

theorem gen_setTargets (f : Dbl) : ∀ ms : List Opt, setTargetsG (Opt.iface E) f ms = setTargets f ms
  | [] => rfl
  | m :: ms => by
    unfold setTargetsG setTargets
    rw [gen_setTargets f ms]
    simp only [Opt.iface]
    cases setTarget f m.conds <;> rfl

theorem gen_refill {p p' : Pool} {sel : List Nat} (d : List Nat) (h : Refill E p sel p') : RefillG (Opt.iface E) (p.gen d) sel (p'.gen d) := by
  cases h with
  | keep h => exact .keep h
  | @fill ms ms' preds ord q h hp ho hf hb =>
    refine .fill (p := p.gen d) h ((gen_predictLoop _ _ _ _).trans hp) ho ((gen_fillLoop _ _ _ _ _).trans hf) (fun hs => ?_) (fun m _ => by simp [Opt.iface])
    have h1 := hb hs
    have h2 : ms'.length = p.members.length := by
      have a := (predictLoop_like (opt_lawful E optInfo) p.cfg p.own.info p.members 0).length
      have b := (fillLoop_like (opt_lawful E optInfo) p.cfg.concurrent preds ord [] ms).length
      rw [gen_predictLoop, hp] at a
      rw [gen_fillLoop, hf] at b
      exact b.trans a
    rw [show ({ p.gen d with members := ms' } : PoolG Opt) = ({ p with members := ms' } : Pool).gen d from rfl, gen_view]
    intro hc
    unfold Pool.bestMember at h1
    unfold Pool.view Pool.bestMember at hc
    dsimp only at hc
    cases hk : p.bestIdx with
    | none => rw [hk] at h1; exact h1 rfl
    | some k =>
      rw [hk] at h1 hc
      dsimp only at h1 hc
      cases hm : p.members[k]? with
      | none => rw [hm] at h1; exact h1 rfl
      | some m =>
        have hlt : k < ms'.length := by rw [h2]; exact (List.getElem?_eq_some_iff.1 hm).1
        rw [List.getElem?_eq_getElem hlt] at hc
        cases hc

theorem gen_collect {p p' : Pool} {i : Nat} (d : List Nat) (h : p.collect i = (p', .ok ())) : (p.gen d).collect (Opt.iface E) i = (p'.gen (d ++ [i]), .ok ()) := by
  unfold Pool.collect at h
  unfold PoolG.collect
  rw [show (p.gen d).members = p.members from rfl]
  cases hm : p.members[i]? with
  | none => rw [hm] at h; cases h
  | some m =>
    rw [hm] at h
    dsimp only [Opt.iface, Pool.gen] at h ⊢
    generalize (p.bestIdx.isNone || p.own.info.isBetter m.vis.bestFitness p.best) = nb at h ⊢
    cases nb with
    | false =>
      simp only [Bool.false_eq_true, if_false, Bool.false_and, if_true] at h ⊢
      unfold Pool.bestMember at h
      unfold PoolG.view PoolG.bestMember
      dsimp only at h ⊢
      cases hb : p.bestIdx with
      | none => rw [hb] at h; cases h
      | some k =>
        rw [hb] at h
        dsimp only at h ⊢
        cases hk : p.members[k]? with
        | none => rw [hk] at h; cases h
        | some x => rw [hk] at h; cases h; rfl
    | true =>
      simp only [if_true, Bool.true_and] at h ⊢
      cases hu : p.cfg.usePredicted with
      | false =>
        rw [hu] at h
        simp only [Bool.false_eq_true, if_false, if_true] at h ⊢
        unfold Pool.bestMember at h
        unfold PoolG.view PoolG.bestMember
        simp only [Pool.signal, PoolG.signal, hm] at h ⊢
        cases h
        rfl
      | true =>
        rw [hu] at h
        simp only [if_true] at h ⊢
        have hg := gen_setTargets (E := E) m.vis.bestFitness p.members
        unfold Opt.iface at hg
        rw [hg]
        generalize setTargets m.vis.bestFitness p.members = y at h ⊢
        obtain ⟨ms, b⟩ := y
        cases b with
        | false => cases h
        | true =>
          simp only [if_true] at h ⊢
          unfold Pool.bestMember at h
          unfold PoolG.view PoolG.bestMember
          simp only [Pool.signal, PoolG.signal] at h ⊢
          cases hk : ms[i]? with
          | none => rw [hk] at h; cases h
          | some x => rw [hk] at h; cases h; rfl

/-- Without an exception no member has failed. -/
theorem gen_exec {ins : Nat → In} {r t : RunSt} (h : RunExec E ins r t) (ht : t.threw = false) (hf : t.failed = []) (d : List Nat) :
    ∃ d', RunExecG (Opt.iface E) ⟨r.pool.gen d, r.running, r.futs⟩ ⟨t.pool.gen d', t.running, t.futs⟩ ∧ d' ++ t.futs = d ++ r.futs := by
  induction h with
  | nil => exact ⟨d, .nil, rfl⟩
  | snoc hx st ih =>
    cases st with
    | @finish i m m' x h hm hs =>
      obtain ⟨d', h1, h2⟩ := ih ht hf
      exact ⟨d', h1.snoc (RunStepG.finish h hm ⟨_, _, hs⟩), h2⟩
    | fail => cases hf
    | @collect i is p h hr hfl hc =>
      obtain ⟨d', h1, h2⟩ := ih ht hf
      refine ⟨d' ++ [i], h1.snoc (RunStepG.collect h hr (gen_collect _ hc)), ?_⟩
      rw [← h2, h]; simp
    | throws => cases ht
    | rethrow => cases ht
    | interrupt =>
      obtain ⟨d', h1, h2⟩ := ih ht hf
      exact ⟨d', h1.snoc RunStepG.interrupt, h2⟩

theorem exec_failed {ins : Nat → In} {r t : RunSt} (h : RunExec E ins r t) (h0 : r.failed = [] ∧ ∀ i ∈ r.running, i ∈ r.futs) :
    t.threw = true ∨ ((∀ i ∈ t.failed, i ∈ t.futs) ∧ ∀ i ∈ t.running, i ∈ t.futs) := by
  induction h with
  | nil => right; rw [h0.1]; exact ⟨by simp, h0.2⟩
  | snoc _ st ih =>
    rcases ih with ih | ⟨i1, i2⟩
    · cases st with
      | throws | rethrow => exact .inl rfl
      | finish | fail | collect | interrupt => exact .inl ih
    · cases st with
      | finish => exact .inr ⟨i1, fun j hj => i2 j (List.mem_of_mem_erase hj)⟩
      | @fail i m m' h => exact .inr ⟨fun j hj => (List.mem_cons.1 hj).elim (fun e => e ▸ i2 i h) (i1 j), fun j hj => i2 j (List.mem_of_mem_erase hj)⟩
      | @collect i is p h hr hf hc =>
        rw [h] at i1 i2
        refine .inr ⟨fun j hj => (List.mem_cons.1 (i1 j hj)).elim ?_ id, fun j hj => (List.mem_cons.1 (i2 j hj)).elim ?_ id⟩
        · rintro rfl; exact absurd hj hf
        · rintro rfl; exact absurd hj hr
      | throws | rethrow => exact .inl rfl
      | interrupt => exact .inr ⟨i1, i2⟩

theorem gen_step {ins : Nat → In} {p p' : Pool} {sel run : List Nat} {r : Option Nat} (d : List Nat) (h : Pool.Step E ins p sel run p' r) :
    PoolG.Step (Opt.iface E) E (p.gen d) (p'.gen (d ++ run)) r := by
  cases h with
  | @mk p₁ p₂ _ t _ _ hd hne h1 h2 h3 hend h4 =>
    have hfail : t.failed = [] := by
      rcases exec_failed h3 ⟨rfl, fun i hi => hi⟩ with h | h
      · rw [hend.2.2] at h; cases h
      · rw [hend.2.1] at h
        cases hf : t.failed with
        | nil => rfl
        | cons x xs => exact absurd (h.1 x (by simp [hf])) (by simp)
    obtain ⟨d', e1, e2⟩ := gen_exec h3 hend.2.2 hfail d
    rw [hend.2.1, List.append_nil] at e2
    subst e2
    refine .mk (p₁ := p₁.gen d) (p₂ := p₂.gen d) (t := ⟨t.pool.gen (d ++ p₂.launch.futs), t.running, t.futs⟩) hd hne ?_ (gen_refill d h2) e1 ⟨hend.1, hend.2.1⟩ ?_
    · rw [h1]
      show _ = (if p.own.stepCount = 0 then (p.gen d).signal .start else p.gen d).signal .preStep
      split <;> rfl
    · have := gen_testStop (E := E) { t.pool.signal .postStep with own := { t.pool.own with stepCount := t.pool.own.stepCount + 1 } } (d ++ p₂.launch.futs)
      rw [h4] at this
      exact this

/-- **C117.** What holds for pools of anything holds for the pools of optimizers of C40: every history of such a pool is one in the present model, and `done` are the members stepped. -/
theorem C117_flat (cfg : PoolCfg) (info : ObjInfo) {P : Opt → Prop} {ls : List (List Nat × List Nat)} {p : Pool} (h : Pool.Hist E P (Pool.init cfg info) ls p) :
    PoolG.Hist (Nest.iface E 0) E P (PoolG.init cfg info) (p.gen (steppedOf ls)) := by
  generalize hp0 : Pool.init cfg info = p0 at h
  induction h with
  | nil => subst hp0; exact .nil
  | step _ st ih =>
    have := ih.step (gen_step _ st)
    simpa [steppedOf] using this
  | push _ hm ih => exact ih.push hm
  | addCond _ ih => exact ih.addCond
  | interrupt _ ih => exact ih.interrupt
  | @test q ls h ih =>
    have := ih.test
    rw [show (q.gen (steppedOf ls)).testStop (Nest.iface E 0) E = _ from gen_testStop (E := E) q (steppedOf ls)] at this
    exact this

/-! ## one schedule, computed -/

section
variable {M : Type} (I : Iface M) (E : OptEnv) (f : Nat → M → Option M)

def finishAllG : List Nat → List M → Option (List M)
  | [], ms => some ms
  | i :: is, ms => ms[i]?.bind fun m => (f i m).bind fun m' => finishAllG is (ms.set i m')

def collectAllG : List Nat → PoolG M → Option (PoolG M)
  | [], p => some p
  | i :: is, p => match p.collect I i with
    | (p', .ok ()) => collectAllG is p'
    | _ => none

def okB {α : Type} : Res α → Bool
  | .ok _ => true
  | _ => false

def refillWithG (ord : List Nat) (p : PoolG M) : Option (List Nat × PoolG M) :=
  if p.queue = [] then
    match predictLoopG I p.cfg p.own.info 0 p.members with
    | (ms, .ok preds) =>
      match fillLoopG I p.cfg.concurrent preds ord [] ms with
      | (ms', .ok q) =>
        if sortedB p.own.info preds ord && (p.own.stepCount == 0 || okB (({ p with members := ms' } : PoolG M).view I)) &&
            ms'.all (fun m => okB (I.view m)) then some (q, { p with members := ms', queue := q }) else none
      | _ => none
    | _ => none
  else some ([], p)

def PoolG.stepWith (ord : List Nat) (p : PoolG M) : Option (PoolG M) :=
  if p.own.info.dim = 0 ∨ p.members.length = 0 then none
  else (refillWithG I ord ((if p.own.stepCount = 0 then p.signal .start else p).signal .preStep)).bind fun (_, p₂) =>
    (finishAllG f p₂.launch.futs p₂.members).bind fun ms =>
      (collectAllG I p₂.launch.futs { p₂.launch.pool with members := ms }).bind fun t =>
        match PoolG.testStop I E { t.signal .postStep with own := { t.own with stepCount := t.own.stepCount + 1 } } with
        | (p₃, .ok _) => some p₃
        | _ => none

variable {I E f}

theorem RunExecG.trans {a b c : RunStG M} (h : RunExecG I a b) (h' : RunExecG I b c) : RunExecG I a c := by
  induction h' with
  | nil => exact h
  | snoc _ st ih => exact ih.snoc st

theorem finishAllG_sound (hf : ∀ i m m', f i m = some m' → I.Step m m') (futs : List Nat) : ∀ (is : List Nat) (p : PoolG M) (ms : List M), finishAllG f is p.members = some ms →
    RunExecG I ⟨p, is, futs⟩ ⟨{ p with members := ms }, [], futs⟩
  | [], p, ms, h => by cases h; exact .nil
  | i :: is, p, ms, h => by
    simp only [finishAllG, Option.bind_eq_some_iff] at h
    obtain ⟨m, hm, m', hm', h⟩ := h
    have := finishAllG_sound hf futs is { p with members := p.members.set i m' } ms h
    have st : RunStepG I ⟨p, i :: is, futs⟩ _ := .finish (by simp) hm (hf i m m' hm')
    simp only [List.erase_cons_head] at st
    exact (RunExecG.nil.snoc st).trans this

theorem collectAllG_sound : ∀ (is : List Nat) (p p' : PoolG M), collectAllG I is p = some p' → RunExecG I ⟨p, [], is⟩ ⟨p', [], []⟩
  | [], p, p', h => by cases h; exact .nil
  | i :: is, p, p', h => by
    simp only [collectAllG] at h
    split at h
    · rename_i q hc
      have st : RunStepG I ⟨p, [], i :: is⟩ _ := .collect rfl (by simp) hc
      exact (RunExecG.nil.snoc st).trans (collectAllG_sound is q p' h)
    · cases h

theorem refillWithG_sound {ord : List Nat} {p p' : PoolG M} {sel : List Nat} (h : refillWithG I ord p = some (sel, p')) : RefillG I p sel p' := by
  unfold refillWithG at h
  split at h
  · rename_i hq
    split at h
    · rename_i ms preds hp
      split at h
      · rename_i ms' q hf
        split at h
        · rename_i hs
          cases h
          simp only [Bool.and_eq_true, Bool.or_eq_true, beq_iff_eq, List.all_eq_true] at hs
          refine .fill hq hp (sortedB_sound hs.1.1) hf (fun h0 hc => ?_) fun m hm hc => ?_
          · rcases hs.1.2 with h | h
            · omega
            · rw [hc] at h; cases h
          · have := hs.2 m hm
            rw [hc] at this; cases this
        · cases h
      · cases h
    · cases h
  · rename_i hq
    cases h
    exact .keep hq

theorem stepWithG_sound (hf : ∀ i m m', f i m = some m' → I.Step m m') {ord : List Nat} {p p' : PoolG M} (h : p.stepWith I E f ord = some p') : ∃ r, PoolG.Step I E p p' r := by
  unfold PoolG.stepWith at h
  split at h
  · cases h
  · rename_i hd
    push Not at hd
    simp only [Option.bind_eq_some_iff] at h
    obtain ⟨⟨sel, p₂⟩, h1, ms, h2, t, h3, h4⟩ := h
    split at h4
    · rename_i p₃ r ht
      cases h4
      exact ⟨r, .mk (t := ⟨t, [], []⟩) hd.1 (by intro h0; rw [h0] at hd; simp at hd) rfl (refillWithG_sound h1)
        ((finishAllG_sound hf _ _ p₂.launch.pool ms h2).trans (collectAllG_sound _ _ _ h3)) ⟨rfl, rfl⟩ ht⟩
    · cases h4

end

/-- A step of an optimizer that evaluates one point with fitness `q`. -/
def optStep (q : ℚ) (m : Opt) : Option Opt :=
  match m.step optEnv (Opt.internal optEnv (fitIns (fun _ => some q) 0)) with
  | (m', .ok _) => some m'
  | _ => none

theorem optStep_sound {q : ℚ} {m m' : Opt} (h : optStep q m = some m') : (Opt.iface optEnv).Step m m' := by
  unfold optStep at h
  split at h
  · rename_i x hs; cases h; exact ⟨_, _, hs⟩
  · cases h

/-- A step of a pool of two optimizers, which find fitness `a` and `b`. -/
def innerStep (a b : ℚ) (p : PoolG Opt) : Option (PoolG Opt) := p.stepWith (Opt.iface optEnv) optEnv (fun i => optStep (if i = 0 then a else b)) [0, 1]

theorem innerStep_sound {a b : ℚ} {p p' : PoolG Opt} (h : innerStep a b p = some p') : ∃ r, PoolG.Step (Nest.iface optEnv 0) optEnv p p' r :=
  stepWithG_sound (fun _ _ _ h => optStep_sound h) h

/-- A pool of two optimizers that has been stepped once. -/
def innerOnce : Option (PoolG Opt) := innerStep 4 3 (((PoolG.init {} optInfo : PoolG Opt).push (Opt.iface optEnv) (Opt.new optInfo 0)).push (Opt.iface optEnv) (Opt.new optInfo 0))

/-- The steps of the members of the pool below. -/
def outerF (i : Nat) : Opt ⊕ PoolG Opt → Option (Opt ⊕ PoolG Opt) := Sum.elim (fun m => (optStep 5 m).map .inl) fun p => (innerStep (6 - i) 2 p).map .inr

theorem outerF_sound (i : Nat) (m m' : Opt ⊕ PoolG Opt) (h : outerF i m = some m') : (Nest.iface optEnv 1).Step m m' := by
  cases m with
  | inl m =>
    obtain ⟨x, hx, rfl⟩ := Option.map_eq_some_iff.1 (h : (optStep 5 m).map .inl = some m')
    exact .inl (optStep_sound hx)
  | inr p =>
    obtain ⟨x, hx, rfl⟩ := Option.map_eq_some_iff.1 (h : (innerStep _ 2 p).map .inr = some m')
    exact .inr (innerStep_sound hx)

/-- A pool with an optimizer and this pool, stepped once. -/
def outerOnce : Option (PoolG (Opt ⊕ PoolG Opt)) := innerOnce.bind fun q =>
  (((PoolG.init {} optInfo : PoolG (Opt ⊕ PoolG Opt)).push (Nest.iface optEnv 1) (Sum.inl (Opt.new optInfo 0) : Opt ⊕ PoolG Opt)).push (Nest.iface optEnv 1) (Sum.inr q : Opt ⊕ PoolG Opt)).stepWith
    (Nest.iface optEnv 1) optEnv outerF [0, 1]

theorem outerOnce_hist {p : PoolG (Opt ⊕ PoolG Opt)} (h : outerOnce = some p) :
    PoolG.Hist (Nest.iface optEnv 1) optEnv (Nest.Built optEnv optInfo.minimize 1) (PoolG.init {} optInfo) p := by
  obtain ⟨q, hq, h⟩ := Option.bind_eq_some_iff.1 h
  have hf : Opt.Fits optInfo.minimize (Opt.new optInfo 0) := ⟨by decide, by decide⟩
  obtain ⟨r, st⟩ := stepWithG_sound outerF_sound h
  refine ((PoolG.Hist.nil.push ?_).push ?_).step st
  · exact hf
  · obtain ⟨r, st⟩ := innerStep_sound hq
    exact ⟨{}, optInfo, rfl, ((PoolG.Hist.nil.push hf).push hf).step st⟩

/-- An example with three optimizers in two pools, all of which have been stepped; the best fitness, 2, was found by the second optimizer of the inner pool. -/
example : ∃ p : PoolG (Nest 1), PoolG.Hist (Nest.iface optEnv 1) optEnv (Nest.Built optEnv optInfo.minimize 1) (PoolG.init {} optInfo) p ∧
    p.done = [0, 1] ∧ (p.gather (Nest.reached 1)).map (fun o => o.vis.bestFitness) = [.fin 5, .fin 4, .fin 2, .fin 4, .fin 2] ∧
    bestsOf (p.view (Nest.iface optEnv 1)) = .ok (.fin 2, [.fin 1]) := by
  have h : (match outerOnce with
    | some p => decide (p.done = [0, 1] ∧ (p.gather (Nest.reached 1)).map (fun o => o.vis.bestFitness) = [.fin 5, .fin 4, .fin 2, .fin 4, .fin 2] ∧
      bestsOf (p.view (Nest.iface optEnv 1)) = .ok (.fin 2, [.fin 1]))
    | none => false) = true := by decide +kernel
  split at h
  · rename_i p hp
    exact ⟨p, outerOnce_hist hp, of_decide_eq_true h⟩
  · cases h

/-- The pool in this pool has been stepped twice, its best fitness is 2, it has a window of 100, and predicts 0. -/
example : ∃ (p : PoolG (Nest 1)) (q : PoolG (Nest 0)), PoolG.Hist (Nest.iface optEnv 1) optEnv (Nest.Built optEnv optInfo.minimize 1) (PoolG.init {} optInfo) p ∧
    (.inr q : Nest 1) ∈ p.members ∧ q.own.capacity = 100 ∧ q.own.stepCount = 2 ∧ q.done = [0, 1, 0, 1] ∧ ((Nest.iface optEnv 1).predicted 10 (.inr q)).2 = .ok (.fin 0) := by
  have h : (match outerOnce with
    | some p => (match p.members with
      | [.inl _, .inr q] => decide (q.own.capacity = 100 ∧ q.own.stepCount = 2 ∧ q.done = [0, 1, 0, 1])
      | _ => false)
    | none => false) = true := by decide +kernel
  split at h
  · rename_i p hp
    split at h
    · rename_i m q hm
      have hh := outerOnce_hist hp
      have hmem : (.inr q : Nest 1) ∈ p.members := by rw [hm]; exact List.mem_cons_of_mem _ (List.mem_singleton.2 rfl)
      have h2 := of_decide_eq_true h
      exact ⟨p, q, hh, hmem, h2.1, h2.2.1, h2.2.2, C117_predicts_zero 0 (C117_members 1 {} optInfo hh _ hmem) (by rw [h2.1]; decide) 10⟩
    · cases h
  · cases h

/-- A pool with a new pool in it can not be stepped. -/
example (p' : PoolG (Nest 1)) (r : Option Nat) :
    ¬ PoolG.Step (Nest.iface optEnv 1) optEnv ((PoolG.init {} optInfo : PoolG (Nest 1)).push (Nest.iface optEnv 1) (.inr (PoolG.init {} optInfo : PoolG (Nest 0)))) p' r :=
  C117_unstepped 0 {} optInfo (PoolG.Hist.nil.push (show Nest.Built optEnv optInfo.minimize 1 (.inr (PoolG.init {} optInfo)) from ⟨{}, optInfo, rfl, .nil⟩)) rfl
    (q := { (PoolG.init {} optInfo : PoolG (Nest 0)) with own := (PoolG.init {} optInfo : PoolG (Nest 0)).own.setWindow 100 }) (List.mem_singleton.2 rfl) rfl

end Spot
