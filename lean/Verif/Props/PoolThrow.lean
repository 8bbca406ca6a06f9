import Verif.Lemmas.PoolThrow
import Verif.Props.NestedFlat

/-! # Pools after steps that ended with an exception (C121) -/

namespace Spot

variable {E : OptEnv}

/-- A pool of optimizers that is used further after steps of it have ended with an exception. -/
abbrev Pool.Goes (E : OptEnv) (info : ObjInfo) (p q : PoolG Opt) (S : List Nat) : Prop := PoolG.HistX (Opt.iface E) (Opt.Throws E) E (Opt.Fits info.minimize) p q S

theorem goes_inv {info : ObjInfo} {cfg : PoolCfg} {p : PoolG Opt} {S : List Nat} (h : Pool.Goes E info (PoolG.init cfg info) p S) :
    GBest (Opt.iface E) info (Opt.Fits info.minimize) S p ∧ Told info p :=
  histX_inv (opt_lawful E info) (throws_grows E info) h (initG_best cfg rfl) ⟨List.Pairwise.nil, by simp [PoolG.init, announced], by simp [PoolG.init]⟩

/-- **C121.** After any calls of a pool, some of which have ended with exceptions of its members or of stop conditions, with any schedule of the threads: as soon as one member has been looked at, the getters
return the best fitness and the best point of a member that has been looked at, and no member that has not been stepped since it was looked at is better. -/
theorem C121_best (cfg : PoolCfg) (info : ObjInfo) {p : PoolG Opt} {S : List Nat} (h : Pool.Goes E info (PoolG.init cfg info) p S) (hd : p.done ≠ []) :
    ∃ v, p.view (Opt.iface E) = .ok v ∧ (∃ k ∈ p.done, ∃ m, p.members[k]? = some m ∧ v.bestFitness = m.vis.bestFitness ∧ v.bestPoint = m.vis.bestPoint) ∧
      ∀ i ∈ p.done, i ∉ S → ∃ m, p.members[i]? = some m ∧ info.isBetter m.vis.bestFitness v.bestFitness = false := by
  obtain ⟨G, -⟩ := goes_inv h
  cases hk : p.bestIdx with
  | none => exact absurd (G.noneYet hk) hd
  | some k =>
    obtain ⟨h1, m, b, hm, hb, h4⟩ := G.isBest k hk
    obtain rfl := Res.ok.inj (hb : Res.ok (m.vis.bestFitness, m.vis.bestPoint) = _)
    have hv : bestsOf (p.view (Opt.iface E)) = .ok (m.vis.bestFitness, m.vis.bestPoint) := by
      rw [view_bestsOf, bestMember_ok.2 ⟨k, hk, hm⟩]; rfl
    obtain ⟨v, hv, e1, e2⟩ := bestsOf_ok.1 hv
    refine ⟨v, hv, ⟨k, h1, m, hm, e1, e2⟩, fun i hi hS => ?_⟩
    obtain ⟨x, c, hx, hc, hlow⟩ := G.low i hi hS
    obtain rfl := Res.ok.inj (hc : Res.ok (x.vis.bestFitness, x.vis.bestPoint) = _)
    refine ⟨x, hx, ?_⟩
    rw [e1]
    dsimp only at h4 hlow ⊢
    rcases h4 with h4 | ⟨-, h4⟩
    · rw [h4]; exact hlow
    · by_contra hcon
      rw [Bool.not_eq_false] at hcon
      rw [better_trans hcon h4] at hlow
      cases hlow

/-- **C121.** Before that the getters fail an assertion. -/
theorem C121_no_best_yet (cfg : PoolCfg) (info : ObjInfo) {p : PoolG Opt} {S : List Nat} (h : Pool.Goes E info (PoolG.init cfg info) p S) (hd : p.done = []) :
    p.view (Opt.iface E) = .ub := by
  obtain ⟨G, -⟩ := goes_inv h
  unfold PoolG.view PoolG.bestMember
  cases hk : p.bestIdx with
  | none => rfl
  | some k =>
    have := (G.isBest k hk).1
    rw [hd] at this
    cases this

/-- **C121.** The fitnesses announced by `on_new_best` get better and better, and `best_fitness()` is never worse than any of them. -/
theorem C121_announced (cfg : PoolCfg) (info : ObjInfo) {p : PoolG Opt} {S : List Nat} (h : Pool.Goes E info (PoolG.init cfg info) p S) :
    (announced p.log).Pairwise (fun a b => info.isBetter b a = true) ∧
    ∀ a ∈ announced p.log, ∃ v, p.view (Opt.iface E) = .ok v ∧ (v.bestFitness = a ∨ info.isBetter v.bestFitness a = true) := by
  obtain ⟨G, H⟩ := goes_inv h
  refine ⟨H.sorted, fun a ha => ?_⟩
  obtain ⟨h0, h1⟩ := H.known a ha
  obtain ⟨k, hk⟩ := Option.ne_none_iff_exists'.1 h0
  obtain ⟨-, m, b, hm, hb, h4⟩ := G.isBest k hk
  have hv : bestsOf (p.view (Opt.iface E)) = .ok b := by
    rw [view_bestsOf, bestMember_ok.2 ⟨k, hk, hm⟩]; exact hb
  obtain ⟨v, hv, e1, -⟩ := bestsOf_ok.1 hv
  refine ⟨v, hv, ?_⟩
  rw [e1]
  rcases h4 with h4 | ⟨-, h4⟩
  · rw [h4]; exact h1
  · rcases h1 with h1 | h1
    · rw [← h1]; exact .inr h4
    · exact .inr (better_trans h4 h1)

/-- **C121.** The pool stays usable: the members that are queued exist, and whatever the threads do in a step, the next member that is looked at is one that can be looked at. -/
theorem C121_usable (cfg : PoolCfg) (info : ObjInfo) {p : PoolG Opt} {S : List Nat} (h : Pool.Goes E info (PoolG.init cfg info) p S) :
    (∀ i ∈ p.queue, i < p.members.length) ∧
    ∀ (p₂ : PoolG Opt) (sel : List Nat) (t : RunStX Opt), RefillG (Opt.iface E) p.begin sel p₂ → RunExecX (Opt.iface E) (Opt.Throws E) (p₂.launchX S) t →
      ∀ i is, t.futs = i :: is → (t.pool.collect (Opt.iface E) i).2 ≠ .ub := by
  obtain ⟨G, H⟩ := goes_inv h
  refine ⟨H.queued, fun p₂ sel t h2 h3 i is hi => ?_⟩
  have X := runX_inv (opt_lawful E info) (throws_grows E info) G H h2 h3
  have hl := X.futs i (by rw [hi]; exact List.mem_cons_self)
  have hm : t.pool.members[i]? = some t.pool.members[i] := List.getElem?_eq_getElem hl
  have good : ∀ (q : PoolG Opt) (k : Nat) (e : Vis → Event), q.bestIdx = some k → k < q.members.length →
      (match q.view (Opt.iface E) with
        | .ok b => (q.signal (e b), Res.ok ())
        | _ => (q, .ub)).2 ≠ .ub := by
    intro q k e hk hl
    have : ∃ v, q.view (Opt.iface E) = .ok v := by
      unfold PoolG.view
      rw [bestMember_ok.2 ⟨k, hk, List.getElem?_eq_getElem hl⟩]
      exact ⟨_, rfl⟩
    obtain ⟨v, hv⟩ := this
    rw [hv]; simp
  unfold PoolG.collect
  rw [hm]
  dsimp only
  rw [show (Opt.iface E).view t.pool.members[i] = .ok t.pool.members[i].vis from rfl]
  dsimp only
  generalize hnb : (t.pool.bestIdx.isNone || _) = nb
  cases nb with
  | false =>
    rw [Bool.or_eq_false_iff] at hnb
    simp only [Bool.false_eq_true, if_false, Bool.false_and, if_true]
    have hne : t.pool.bestIdx ≠ none := by intro h0; rw [h0] at hnb; cases hnb.1
    obtain ⟨k, hk⟩ := Option.ne_none_iff_exists'.1 hne
    obtain ⟨-, m, -, hkm, -⟩ := X.inv.isBest k hk
    exact good _ k (fun b => .postEvaluate [] b.curFitnesses false) hk (List.getElem?_eq_some_iff.1 hkm).1
  | true =>
    simp only [if_true, Bool.true_and]
    have set := (setTargets_like (Ok := Opt.Fits info.minimize) (opt_lawful E info) t.pool.members[i].vis.bestFitness t.pool.members).length
    split
    · split
      · refine good _ i (fun b => .postEvaluate [] b.curFitnesses true) rfl ?_
        exact lt_of_lt_of_eq hl set.symm
      · simp
    · simp only [if_true]
      exact good _ i (fun b => .postEvaluate [] b.curFitnesses true) rfl hl

/-- **C121.** A step launches at most `concurrent_optimizations` members. It looks at the first of them, `l`, all of them unless it ends with an exception, and not at `l'`. Of the others the best fitnesses and
the best points stay as they are. It is counted if it does not end with an exception. -/
theorem C121_step (info : ObjInfo) {p p' : PoolG Opt} {S S' : List Nat} {x : Bool} (st : PoolG.StepX (Opt.iface E) (Opt.Throws E) E p S p' S' x) :
    ∃ l l', (l ++ l').length ≤ p.cfg.concurrent ∧ p'.done = p.done ++ l ∧ (x = false → l' = []) ∧ (∀ j, j ∈ S' ↔ j ∈ l' ∨ (j ∈ S ∧ j ∉ l)) ∧
      (∀ j, j ∉ l ++ l' → p'.members[j]?.map (fun m => (m.vis.bestFitness, m.vis.bestPoint)) = p.members[j]?.map (fun m => (m.vis.bestFitness, m.vis.bestPoint))) ∧
      (x = false → p'.own.stepCount = p.own.stepCount + 1) ∧ (p'.own.stepCount = p.own.stepCount ∨ p'.own.stepCount = p.own.stepCount + 1) := by
  obtain ⟨l, l', h1, h2, h3, h4, h5, h6, h7, h8⟩ := stepX_track (opt_lawful E info) st
  refine ⟨l, l', h1, h2, h3, h4, fun j hj => ?_, h7, h8⟩
  cases hm : p.members[j]? with
  | none =>
    have : p'.members[j]? = none := by
      rw [List.getElem?_eq_none_iff, h5]; exact List.getElem?_eq_none_iff.1 hm
    rw [this]
  | some m =>
    obtain ⟨m', hm', -, hb⟩ := h6 j hj m hm
    rw [hm']
    exact congrArg some (Res.ok.inj (hb : Res.ok (m'.vis.bestFitness, m'.vis.bestPoint) = Res.ok (m.vis.bestFitness, m.vis.bestPoint)))

/-! ## one schedule, computed -/

section
variable {M : Type} (I : Iface M) (E : OptEnv) (T : M → M → Prop) (f : Nat → M → Option (M × Bool))

def finishAllX : List Nat → List M → List Nat → Option (List M × List Nat)
  | [], ms, fl => some (ms, fl)
  | i :: is, ms, fl => ms[i]?.bind fun m => (f i m).bind fun x => finishAllX is (ms.set i x.1) (if x.2 then i :: fl else fl)

def collectAllX (fl : List Nat) : List Nat → PoolG M → List Nat → Option (RunStX M)
  | [], p, S => some ⟨p, [], [], fl, false, S⟩
  | i :: is, p, S =>
    if i ∈ fl then some ⟨p, [], i :: is, fl, true, S⟩
    else match p.collect I i with
    | (p', .ok ()) => collectAllX fl is p' (S.filter (fun j => decide (j ≠ i)))
    | _ => none

def PoolG.stepX (ord : List Nat) (x : PoolG M × List Nat) : Option (PoolG M × List Nat) :=
  if x.1.own.info.dim = 0 ∨ x.1.members.length = 0 then none
  else (refillWithG I ord x.1.begin).bind fun (_, p₂) =>
    (finishAllX f (p₂.launchX x.2).futs p₂.members []).bind fun (ms, fl) =>
      (collectAllX I fl (p₂.launchX x.2).futs { (p₂.launchX x.2).pool with members := ms } x.2).bind fun t =>
        if t.running = [] then
          if t.threw then some (t.pool, t.futs ++ t.stale)
          else if t.futs = [] then
            match PoolG.testStop I E t.pool.made with
            | (p₃, .ok _) => some (p₃, t.stale)
            | _ => none
          else none
        else none

variable {I E f T}

theorem RunExecX.trans {a b c : RunStX M} (h : RunExecX I T a b) (h' : RunExecX I T b c) : RunExecX I T a c := by
  induction h' with
  | nil => exact h
  | snoc _ st ih => exact ih.snoc st

theorem finishAllX_sound (hf : ∀ i m m', f i m = some (m', false) → I.Step m m') (ht : ∀ i m m', f i m = some (m', true) → T m m') (futs S : List Nat) :
    ∀ (is : List Nat) (p : PoolG M) (fl : List Nat) (ms : List M) (fl' : List Nat), finishAllX f is p.members fl = some (ms, fl') →
    RunExecX I T ⟨p, is, futs, fl, false, S⟩ ⟨{ p with members := ms }, [], futs, fl', false, S⟩
  | [], p, fl, ms, fl', h => by cases h; exact .nil
  | i :: is, p, fl, ms, fl', h => by
    simp only [finishAllX, Option.bind_eq_some_iff] at h
    obtain ⟨m, hm, ⟨m', b⟩, hm', h⟩ := h
    have := finishAllX_sound hf ht futs S is { p with members := p.members.set i m' } _ ms fl' h
    cases b with
    | false =>
      have st : RunStepX I T ⟨p, i :: is, futs, fl, false, S⟩ _ := .finish (by simp) hm (hf i m m' hm')
      simp only [List.erase_cons_head] at st
      exact (RunExecX.nil.snoc st).trans this
    | true =>
      have st : RunStepX I T ⟨p, i :: is, futs, fl, false, S⟩ _ := .fail (by simp) hm (ht i m m' hm')
      simp only [List.erase_cons_head] at st
      exact (RunExecX.nil.snoc st).trans this

theorem collectAllX_sound (fl : List Nat) : ∀ (is : List Nat) (p : PoolG M) (S : List Nat) (t : RunStX M), collectAllX I fl is p S = some t → RunExecX I T ⟨p, [], is, fl, false, S⟩ t
  | [], p, S, t, h => by cases h; exact .nil
  | i :: is, p, S, t, h => by
    simp only [collectAllX] at h
    split at h
    · rename_i hi
      cases h
      exact RunExecX.nil.snoc (.rethrow rfl rfl (by simp) hi)
    · rename_i hi
      split at h
      · rename_i q hc
        have st : RunStepX I T ⟨p, [], i :: is, fl, false, S⟩ _ := .collect rfl rfl (by simp) hi hc
        exact (RunExecX.nil.snoc st).trans (collectAllX_sound fl is q _ t h)
      · cases h

theorem stepX_sound (hf : ∀ i m m', f i m = some (m', false) → I.Step m m') (ht : ∀ i m m', f i m = some (m', true) → T m m') {ord : List Nat} {x y : PoolG M × List Nat}
    (h : PoolG.stepX I E f ord x = some y) : ∃ b, PoolG.StepX I T E x.1 x.2 y.1 y.2 b := by
  unfold PoolG.stepX at h
  split at h
  · cases h
  · rename_i hd
    push Not at hd
    have hne : x.1.members ≠ [] := by intro h0; rw [h0] at hd; simp at hd
    simp only [Option.bind_eq_some_iff] at h
    obtain ⟨⟨sel, p₂⟩, h1, ⟨ms, fl⟩, h2, t, h3, h4⟩ := h
    have run := (finishAllX_sound hf ht (p₂.launchX x.2).futs x.2 _ (p₂.launchX x.2).pool [] ms fl h2).trans (collectAllX_sound fl _ _ _ t h3)
    split at h4
    · rename_i hr
      split at h4
      · rename_i hthrew
        cases h4
        exact ⟨true, .running hd.1 hne (refillWithG_sound h1) run ⟨hr, hthrew⟩⟩
      · rename_i hthrew
        split at h4
        · rename_i hfu
          split at h4
          · rename_i p₃ r ht
            cases h4
            exact ⟨false, .ends hd.1 hne (refillWithG_sound h1) run ⟨hr, hfu, by simpa using hthrew⟩ ht⟩
          · cases h4
        · cases h4
    · cases h4

end

/-- A member whose evaluator throws. -/
def throwStep (m : Opt) : Option Opt := (m.stages (fitIns (fun _ => some 0) 0)).getLast?

theorem throwStep_sound {m m' : Opt} (h : throwStep m = some m') : Opt.Throws optEnv m m' := ⟨_, _, .inl (List.mem_of_getLast? h), .inl rfl⟩

/-- The first member throws; the others find fitness `a` and `b`. -/
def failFirst (a b : ℚ) (i : Nat) (m : Opt) : Option (Opt × Bool) :=
  if i = 0 then (throwStep m).map fun m' => (m', true) else (optStep (if i = 1 then a else b) m).map fun m' => (m', false)

theorem failFirst_step {a b : ℚ} (i : Nat) (m m' : Opt) (h : failFirst a b i m = some (m', false)) : (Opt.iface optEnv).Step m m' := by
  unfold failFirst at h
  split at h
  · obtain ⟨y, -, e⟩ := Option.map_eq_some_iff.1 h
    cases e
  · obtain ⟨y, hy, e⟩ := Option.map_eq_some_iff.1 h
    cases e
    exact optStep_sound hy

theorem failFirst_throws {a b : ℚ} (i : Nat) (m m' : Opt) (h : failFirst a b i m = some (m', true)) : Opt.Throws optEnv m m' := by
  unfold failFirst at h
  split at h
  · obtain ⟨y, hy, e⟩ := Option.map_eq_some_iff.1 h
    cases e
    exact throwStep_sound hy
  · obtain ⟨y, -, e⟩ := Option.map_eq_some_iff.1 h
    cases e

/-- A pool of three optimizers, two of which are stepped at once. -/
def threeOpts : PoolG Opt :=
  (((PoolG.init { concurrent := 2 } optInfo : PoolG Opt).push (Opt.iface optEnv) (Opt.new optInfo 0)).push (Opt.iface optEnv) (Opt.new optInfo 0)).push (Opt.iface optEnv) (Opt.new optInfo 0)

/-- The second and the third member are stepped and find 5 and 7; then the first one is stepped, and throws; then the first and the second are stepped; the first throws, the second finds 1. -/
def threeSteps : Option (PoolG Opt × List Nat) :=
  ((PoolG.stepX (Opt.iface optEnv) optEnv (failFirst 5 7) [1, 2, 0] (threeOpts, [])).bind (PoolG.stepX (Opt.iface optEnv) optEnv (failFirst 5 7) [0, 1, 2])).bind
    (PoolG.stepX (Opt.iface optEnv) optEnv (failFirst 1 3) [0, 1, 2])

/-- Then the third is stepped, and finds 3. -/
def fourSteps : Option (PoolG Opt × List Nat) := threeSteps.bind (PoolG.stepX (Opt.iface optEnv) optEnv (failFirst 1 3) [0, 1, 2])

theorem stepX_goes {p : PoolG Opt} {a b : ℚ} {ord : List Nat} {x y : PoolG Opt × List Nat} (h : Pool.Goes optEnv optInfo p x.1 x.2)
    (hs : PoolG.stepX (Opt.iface optEnv) optEnv (failFirst a b) ord x = some y) : Pool.Goes optEnv optInfo p y.1 y.2 := by
  obtain ⟨c, st⟩ := stepX_sound failFirst_step failFirst_throws hs
  exact h.step st

theorem threeSteps_goes {x : PoolG Opt × List Nat} (h : threeSteps = some x) : Pool.Goes optEnv optInfo (PoolG.init { concurrent := 2 } optInfo) x.1 x.2 := by
  have hf : Opt.Fits optInfo.minimize (Opt.new optInfo 0) := ⟨by decide, by decide⟩
  obtain ⟨y, h, h3⟩ := Option.bind_eq_some_iff.1 h
  obtain ⟨z, h1, h2⟩ := Option.bind_eq_some_iff.1 h
  exact stepX_goes (stepX_goes (stepX_goes (((PoolG.HistX.nil.push hf).push hf).push hf) h1) h2) h3

/-- **C121 (finding).** After steps that have ended with an exception `best_fitness()` can be better than what the pool remembers, and then get worse: from 1 to 3, while the member that found 1 has not changed.
It is one of those (0 and 1) that have not been looked at since they were stepped; the fitness 1 was never announced. -/
theorem C121_gets_worse : ∃ (p q : PoolG Opt) (S : List Nat) (v w : Vis), Pool.Goes optEnv optInfo (PoolG.init { concurrent := 2 } optInfo) p S ∧
    (∃ x, PoolG.StepX (Opt.iface optEnv) (Opt.Throws optEnv) optEnv p S q S x) ∧ q.own.stepCount = p.own.stepCount + 1 ∧ (∀ i, i ∈ S ↔ i = 0 ∨ i = 1) ∧ p.view (Opt.iface optEnv) = .ok v ∧ q.view (Opt.iface optEnv) = .ok w ∧
    v.bestFitness = .fin 1 ∧ w.bestFitness = .fin 3 ∧ 1 ∈ p.done ∧ p.members[1]?.map (fun m => m.vis.bestFitness) = some (.fin 1) ∧ q.members[1]?.map (fun m => m.vis.bestFitness) = some (.fin 1) ∧
    announced q.log = [.fin 5, .fin 3] := by
  have h : (match threeSteps with
    | some x => match PoolG.stepX (Opt.iface optEnv) optEnv (failFirst 1 3) [0, 1, 2] x with
      | some y => decide (x.2 = [0, 1, 0] ∧ y.2 = [0, 1, 0] ∧ y.1.own.stepCount = x.1.own.stepCount + 1 ∧ bestsOf (x.1.view (Opt.iface optEnv)) = .ok (.fin 1, [.fin 1]) ∧
          bestsOf (y.1.view (Opt.iface optEnv)) = .ok (.fin 3, [.fin 1]) ∧
          1 ∈ x.1.done ∧ x.1.members[1]?.map (fun m => m.vis.bestFitness) = some (.fin 1) ∧ y.1.members[1]?.map (fun m => m.vis.bestFitness) = some (.fin 1) ∧
          announced y.1.log = [.fin 5, .fin 3])
      | none => false
    | none => false) = true := by decide +kernel
  split at h
  · rename_i x hx
    split at h
    · rename_i y hy
      obtain ⟨h1, h2, hc, h3, h4, h5, h6, h7, h8⟩ := of_decide_eq_true h
      obtain ⟨b, st⟩ := stepX_sound failFirst_step failFirst_throws hy
      have hg := threeSteps_goes hx
      rw [h1] at hg st
      rw [h2] at st
      obtain ⟨v, hv, v1, -⟩ := bestsOf_ok.1 h3
      obtain ⟨w, hw, w1, -⟩ := bestsOf_ok.1 h4
      exact ⟨x.1, y.1, [0, 1, 0], v, w, hg, ⟨b, st⟩, hc, by simp; tauto, hv, hw, v1, w1, h5, h6, h7, h8⟩
    · cases h
  · cases h

/-- **C121.** The histories of a pool without exceptions (C117) are among these, and in them there are no members that have not been looked at. -/
theorem C121_without_exceptions (info : ObjInfo) {p q : PoolG Opt} (h : PoolG.Hist (Opt.iface E) E (Opt.Fits info.minimize) p q) : Pool.Goes E info p q [] := by
  have run : ∀ {r r' : RunStG Opt}, RunExecG (Opt.iface E) r r' →
      RunExecX (Opt.iface E) (Opt.Throws E) ⟨r.pool, r.running, r.futs, [], false, []⟩ ⟨r'.pool, r'.running, r'.futs, [], false, []⟩ := by
    intro r r' h
    induction h with
    | nil => exact .nil
    | snoc _ st ih =>
      refine ih.snoc ?_
      cases st with
      | finish h hm hs => exact .finish h hm hs
      | collect h hr hc => exact .collect rfl h hr (by simp) hc
      | interrupt => exact .interrupt
  induction h with
  | nil => exact .nil
  | step _ st ih =>
    refine ih.step (S' := []) (x := false) ?_
    cases st with
    | @mk p₁ p₂ _ t sel _ hd hne h1 h2 h3 hend h4 =>
      rw [h1] at h2
      have := run h3
      rw [hend.1, hend.2] at this
      exact PoolG.StepX.ends (t := ⟨t.pool, [], [], [], false, []⟩) hd hne h2 this ⟨rfl, rfl, rfl⟩ h4
  | push _ hm ih => exact ih.push hm
  | addCond _ ih => exact ih.addCond
  | setWindow _ ih => exact ih.setWindow
  | predicted _ ih => exact ih.predicted
  | setTarget _ hc ih => exact ih.setTarget hc
  | interrupt _ ih => exact ih.interrupt
  | test _ ih => exact ih.test

end Spot
