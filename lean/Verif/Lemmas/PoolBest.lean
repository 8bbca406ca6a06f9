import Verif.Lemmas.Pool

/-! # The best member of a pool -/

namespace Spot

theorem better_trans {info : ObjInfo} {a b c : Dbl} (h : info.isBetter a b = true) (h' : info.isBetter b c = true) :
    info.isBetter a c = true := by
  unfold ObjInfo.isBetter at *
  cases hm : info.minimize <;> simp only [hm, if_true, if_false, Bool.false_eq_true] at *
  · exact Dbl.lt_trans h' h
  · exact Dbl.lt_trans h h'

theorem better_irrefl (info : ObjInfo) (a : Dbl) : info.isBetter a a = false := by
  unfold ObjInfo.isBetter; split <;> exact Dbl.lt_irrefl a

theorem better_ne_nan {info : ObjInfo} {a b : Dbl} (h : info.isBetter a b = true) : a ≠ .nan ∧ b ≠ .nan := by
  unfold ObjInfo.isBetter at h
  constructor <;> rintro rfl <;> split at h <;> first | (simp [Dbl.lt] at h; done) | (cases a <;> simp [Dbl.lt] at h; done) | (cases b <;> simp [Dbl.lt] at h)

theorem isBetter_minimize {i j : ObjInfo} (h : i.minimize = j.minimize) : i.isBetter = j.isBetter := by
  funext a b; unfold ObjInfo.isBetter; rw [h]

/-- The state of the pool after the futures of `S` except `o` have been looked at. -/
structure PoolBest (S o : List Nat) (p : Pool) : Prop where
  mem : ∀ m ∈ p.members, m.vis.bestFitness ≠ .nan ∧ m.vis.info.minimize = p.own.info.minimize
  noneYet : p.bestIdx = none → ∀ i ∈ S, i ∈ o
  isBest : ∀ k, p.bestIdx = some k → k ∈ S ∧ p.best ≠ .nan ∧ ∃ m, p.members[k]? = some m ∧
    (m.vis.bestFitness = p.best ∨ (k ∈ o ∧ p.own.info.isBetter m.vis.bestFitness p.best = true))
  low : ∀ i ∈ S, i ∉ o → ∃ m, p.members[i]? = some m ∧ p.own.info.isBetter m.vis.bestFitness p.best = false

theorem sig_get {ms ms' : List Opt} (h : ms'.map Opt.sig = ms.map Opt.sig) {i : Nat} {m : Opt} (hm : ms[i]? = some m) :
    ∃ m', ms'[i]? = some m' ∧ m'.sig = m.sig := by
  have := congrArg (·[i]?) h
  simp only [List.getElem?_map, hm, Option.map_some] at this
  cases h' : ms'[i]? with
  | none => simp [h'] at this
  | some m' => rw [h'] at this; simp at this; exact ⟨m', rfl, this⟩

theorem PoolBest.congr {S o : List Nat} {p p' : Pool} (I : PoolBest S o p) (hs : p'.members.map Opt.sig = p.members.map Opt.sig)
    (hi : p'.own.info = p.own.info) (hb : p'.best = p.best) (hx : p'.bestIdx = p.bestIdx) : PoolBest S o p' := by
  refine ⟨?_, ?_, ?_, ?_⟩
  · intro m hm
    obtain ⟨k, hk⟩ := List.getElem?_of_mem hm
    obtain ⟨m', hm', hsig⟩ := sig_get hs.symm hk
    have := I.mem m' (List.mem_of_getElem? hm')
    simp only [Opt.sig, Prod.mk.injEq] at hsig
    rw [hi, ← hsig.1, ← hsig.2.2]; exact this
  · rw [hx]; exact I.noneYet
  · intro k hk
    rw [hx] at hk
    obtain ⟨h1, h2, m, hm, h3⟩ := I.isBest k hk
    obtain ⟨m', hm', hsig⟩ := sig_get hs hm
    simp only [Opt.sig, Prod.mk.injEq] at hsig
    exact ⟨h1, hb ▸ h2, m', hm', by rw [hb, hi, hsig.1]; exact h3⟩
  · intro i h1 h2
    obtain ⟨m, hm, h3⟩ := I.low i h1 h2
    obtain ⟨m', hm', hsig⟩ := sig_get hs hm
    simp only [Opt.sig, Prod.mk.injEq] at hsig
    exact ⟨m', hm', by rw [hb, hi, hsig.1]; exact h3⟩

/-- A member that has not been looked at is stepped. -/
theorem PoolBest.finish {S o : List Nat} {p : Pool} (I : PoolBest S o p) {i : Nat} (hi : i ∈ o) {m m' : Opt}
    (hm : p.members[i]? = some m) (h1 : m'.vis.info = m.vis.info)
    (h2 : m'.vis.bestFitness = m.vis.bestFitness ∨ m.vis.info.isBetter m'.vis.bestFitness m.vis.bestFitness = true) :
    PoolBest S o { p with members := p.members.set i m' } := by
  have hok := I.mem m (List.mem_of_getElem? hm)
  have hl : i < p.members.length := (List.getElem?_eq_some_iff.1 hm).1
  rw [isBetter_minimize hok.2] at h2
  refine ⟨?_, I.noneYet, ?_, ?_⟩
  · intro x hx
    rcases List.mem_or_eq_of_mem_set hx with hx | rfl
    · exact I.mem x hx
    · refine ⟨?_, by rw [h1]; exact hok.2⟩
      rcases h2 with h2 | h2
      · rw [h2]; exact hok.1
      · exact (better_ne_nan h2).1
  · intro k hk
    obtain ⟨a, b, x, hx, h3⟩ := I.isBest k hk
    refine ⟨a, b, ?_⟩
    by_cases hik : i = k
    · subst hik
      rw [hm] at hx; cases hx
      refine ⟨m', by simp [hl], ?_⟩
      rcases h2 with h2 | h2
      · rw [h2]; exact h3
      · rcases h3 with h3 | h3
        · exact .inr ⟨hi, h3 ▸ h2⟩
        · exact .inr ⟨hi, better_trans h2 h3.2⟩
    · exact ⟨x, by simp only [List.getElem?_set_ne hik, hx], h3⟩
  · intro j hj hjo
    obtain ⟨x, hx, h3⟩ := I.low j hj hjo
    have hij : i ≠ j := by rintro rfl; exact hjo hi
    exact ⟨x, by simp only [List.getElem?_set_ne hij, hx], h3⟩

theorem collect_fields {p p' : Pool} {i : Nat} {x : Res Unit} (h : p.collect i = (p', x)) :
    p'.members.map Opt.sig = p.members.map Opt.sig ∧ p'.own = p.own ∧ p'.queue = p.queue ∧ p'.cfg = p.cfg ∧ p'.conds = p.conds ∧
    p'.stopped = p.stopped := by
  unfold Pool.collect at h
  split at h
  · cases h; simp
  · rename_i m hm
    dsimp only at h
    generalize hnb : (p.bestIdx.isNone || p.own.info.isBetter m.vis.bestFitness p.best) = nb at h
    cases nb <;> cases hu : p.cfg.usePredicted <;> simp [hu] at h
    all_goals first
      | (split at h <;> cases h <;> simp [Pool.signal]; done)
      | skip
    split at h
    · split at h <;> cases h <;> simp [Pool.signal, setTargets_sig]
    · cases h; simp [setTargets_sig]

theorem collect_best {p p' : Pool} {i : Nat} (h : p.collect i = (p', .ok ())) : ∃ m, p.members[i]? = some m ∧
    if p.bestIdx = none ∨ p.own.info.isBetter m.vis.bestFitness p.best = true then p'.bestIdx = some i ∧ p'.best = m.vis.bestFitness
    else p'.bestIdx = p.bestIdx ∧ p'.best = p.best := by
  unfold Pool.collect at h
  split at h
  · cases h
  · rename_i m hm
    refine ⟨m, hm, ?_⟩
    have hc : (p.bestIdx.isNone || p.own.info.isBetter m.vis.bestFitness p.best) = true ↔
        p.bestIdx = none ∨ p.own.info.isBetter m.vis.bestFitness p.best = true := by
      simp
    rw [if_congr hc.symm rfl rfl]
    dsimp only at h
    generalize (p.bestIdx.isNone || p.own.info.isBetter m.vis.bestFitness p.best) = nb at h
    cases nb <;> cases hu : p.cfg.usePredicted <;> simp [hu] at h ⊢
    all_goals first
      | (split at h <;> cases h <;> simp [Pool.signal]; done)
      | skip
    split at h
    · split at h <;> cases h <;> simp [Pool.signal]
    · cases h

/-- A future is looked at. -/
theorem PoolBest.collect {S is : List Nat} {i : Nat} {p p' : Pool} (I : PoolBest S (i :: is) p) (hi : i ∈ S)
    (h : p.collect i = (p', .ok ())) : PoolBest S is p' := by
  obtain ⟨hs, ho, -⟩ := collect_fields h
  obtain ⟨m, hm, hb⟩ := collect_best h
  have hok := I.mem m (List.mem_of_getElem? hm)
  have hmem : ∀ m ∈ p'.members, m.vis.bestFitness ≠ .nan ∧ m.vis.info.minimize = p'.own.info.minimize := by
    intro x hx
    obtain ⟨k, hk⟩ := List.getElem?_of_mem hx
    obtain ⟨x', hx', hsig⟩ := sig_get hs.symm hk
    have := I.mem x' (List.mem_of_getElem? hx')
    simp only [Opt.sig, Prod.mk.injEq] at hsig
    rw [ho, ← hsig.1, ← hsig.2.2]; exact this
  obtain ⟨m', hm', hsig⟩ := sig_get hs hm
  simp only [Opt.sig, Prod.mk.injEq] at hsig
  split at hb
  · rename_i hc
    obtain ⟨h1, h2⟩ := hb
    refine ⟨hmem, by simp [h1], ?_, ?_⟩
    · intro k hk
      rw [h1] at hk; cases hk
      exact ⟨hi, h2 ▸ hok.1, m', hm', .inl (by rw [h2, hsig.1])⟩
    · intro j hj hji
      by_cases hij : j = i
      · subst hij
        exact ⟨m', hm', by rw [h2, hsig.1]; exact better_irrefl _ _⟩
      · cases hx : p.bestIdx with
        | none => have := I.noneYet hx j hj; simp [hij, hji] at this
        | some k =>
          obtain ⟨x, hx', h3⟩ := I.low j hj (by simp [hij, hji])
          obtain ⟨x', hx'', hsig'⟩ := sig_get hs hx'
          simp only [Opt.sig, Prod.mk.injEq] at hsig'
          refine ⟨x', hx'', ?_⟩
          rw [ho, h2, hsig'.1]
          rcases hc with hc | hc
          · rw [hx] at hc; cases hc
          · by_contra hcon
            rw [Bool.not_eq_false] at hcon
            rw [better_trans hcon hc] at h3
            cases h3
  · rename_i hc
    obtain ⟨h1, h2⟩ := hb
    push Not at hc
    obtain ⟨hc1, hc2⟩ := hc
    refine ⟨hmem, fun hn => absurd (h1 ▸ hn) hc1, ?_, ?_⟩
    · intro k hk
      rw [h1] at hk
      obtain ⟨a, b, x, hx, h3⟩ := I.isBest k hk
      obtain ⟨x', hx', hsig'⟩ := sig_get hs hx
      simp only [Opt.sig, Prod.mk.injEq] at hsig'
      refine ⟨a, h2 ▸ b, x', hx', ?_⟩
      rw [h2, ho, hsig'.1]
      rcases h3 with h3 | ⟨h3, h4⟩
      · exact .inl h3
      · by_cases hki : k = i
        · subst hki
          rw [hm] at hx; cases hx
          exact absurd h4 hc2
        · exact .inr ⟨by simpa [hki] using h3, h4⟩
    · intro j hj hji
      by_cases hij : j = i
      · subst hij
        exact ⟨m', hm', by rw [ho, h2, hsig.1]; simpa using hc2⟩
      · obtain ⟨x, hx', h3⟩ := I.low j hj (by simp [hij, hji])
        obtain ⟨x', hx'', hsig'⟩ := sig_get hs hx'
        simp only [Opt.sig, Prod.mk.injEq] at hsig'
        exact ⟨x', hx'', by rw [ho, h2, hsig'.1]; exact h3⟩

/-- During a step of the pool. -/
structure RunInv (S L : List Nat) (r : RunSt) : Prop where
  inv : r.threw = false → PoolBest (S ++ L) r.futs r.pool
  sub : r.threw = false → ∀ i ∈ r.running, i ∈ r.futs
  futs : ∀ i ∈ r.futs, i ∈ L

theorem RunInv.step {E : OptEnv} {ins : Nat → In} {S L : List Nat} {r r' : RunSt} (I : RunInv S L r) (st : RunStep E ins r r') :
    RunInv S L r' := by
  cases st with
  | @finish i m m' x h hm hs =>
    have hb := step_best E m (ins i)
    rw [hs] at hb
    refine ⟨fun ht => (I.inv ht).finish (I.sub ht i h) hm hb.1 hb.2, fun ht j hj => I.sub ht j (List.mem_of_mem_erase hj), I.futs⟩
  | @fail i m m' h hm hs =>
    have hb := step_best E m (ins i)
    rw [hs] at hb
    refine ⟨fun ht => (I.inv ht).finish (I.sub ht i h) hm hb.1 hb.2, fun ht j hj => I.sub ht j (List.mem_of_mem_erase hj), I.futs⟩
  | @collect i is p h hr hf hc =>
    have hi : i ∈ S ++ L := List.mem_append_right _ (I.futs i (by simp [h]))
    refine ⟨fun ht => ?_, fun ht j hj => ?_, fun j hj => I.futs j (by rw [h]; exact List.mem_cons_of_mem _ hj)⟩
    · have := I.inv ht; rw [h] at this; exact this.collect hi hc
    · have := I.sub ht j hj
      rw [h] at this
      rcases List.mem_cons.1 this with rfl | h'
      · exact absurd hj hr
      · exact h'
  | throws h hr hf hc => exact ⟨fun ht => by simp at ht, fun ht => by simp at ht, fun _ h => by simp at h⟩
  | rethrow h hr hf => exact ⟨fun ht => by simp at ht, fun ht => by simp at ht, fun _ h => by simp at h⟩
  | interrupt =>
    exact ⟨fun ht => (I.inv ht).congr (interrupt_sig _) rfl rfl rfl, I.sub, I.futs⟩

theorem RunInv.exec {E : OptEnv} {ins : Nat → In} {S L : List Nat} {r r' : RunSt} (h : RunExec E ins r r') (I : RunInv S L r) :
    RunInv S L r' := by
  induction h with
  | nil => exact I
  | snoc _ st ih => exact ih.step st

/-- Which parts of a pool a test of its stop conditions leaves alone. -/
theorem testCond_fields (E : OptEnv) (p : Pool) (c : PCond) : let p' := (p.testCond E c).1
    p'.members.map Opt.sig = p.members.map Opt.sig ∧ p'.own.core = p.own.core ∧ p'.queue = p.queue ∧ p'.cfg = p.cfg ∧
    p'.conds = p.conds ∧ p'.best = p.best ∧ p'.bestIdx = p.bestIdx ∧ p'.stopped = p.stopped ∧ p'.log = p.log := by
  cases c with
  | allStopped => simp [Pool.testCond, testAll_sig]
  | own c =>
    simp only [Pool.testCond]
    split
    · exact ⟨rfl, rfl, rfl, rfl, rfl, rfl, rfl, rfl, rfl⟩
    · exact ⟨rfl, rfl, rfl, rfl, rfl, rfl, rfl, rfl, rfl⟩
    · exact ⟨rfl, test_core E c p.own, rfl, rfl, rfl, rfl, rfl, rfl, rfl⟩

theorem testLoop_fields (E : OptEnv) (cs : List PCond) : ∀ (k : Nat) (p : Pool), let p' := (Pool.testLoop E k cs p).1
    p'.members.map Opt.sig = p.members.map Opt.sig ∧ p'.own.core = p.own.core ∧ p'.queue = p.queue ∧ p'.cfg = p.cfg ∧
    p'.conds = p.conds ∧ p'.best = p.best ∧ p'.bestIdx = p.bestIdx ∧ p'.stopped = p.stopped ∧ p'.log = p.log := by
  induction cs with
  | nil => intro k p; simp [Pool.testLoop]
  | cons c cs ih =>
    intro k p
    have := testCond_fields E p c
    simp only [Pool.testLoop]
    split
    · rename_i heq; rw [heq] at this; exact this
    · rename_i p' heq; rw [heq] at this
      have ih := ih (k + 1) p'
      dsimp only at this ih ⊢
      obtain ⟨a1, a2, a3, a4, a5, a6, a7, a8, a9⟩ := this
      obtain ⟨b1, b2, b3, b4, b5, b6, b7, b8, b9⟩ := ih
      exact ⟨b1.trans a1, b2.trans a2, b3.trans a3, b4.trans a4, b5.trans a5, b6.trans a6, b7.trans a7, b8.trans a8, b9.trans a9⟩
    · rename_i heq; rw [heq] at this; exact this
    · rename_i heq; rw [heq] at this; exact this

theorem poolTest_fields (E : OptEnv) (p : Pool) : let p' := (p.testStop E).1
    p'.members.map Opt.sig = p.members.map Opt.sig ∧ p'.own.core = p.own.core ∧ p'.queue = p.queue ∧ p'.cfg = p.cfg ∧
    p'.conds = p.conds ∧ p'.best = p.best ∧ p'.bestIdx = p.bestIdx := by
  have := testLoop_fields E p.conds 0 p
  unfold Pool.testStop
  dsimp only at this ⊢
  split
  · simp
  · split
    · rename_i heq; rw [heq] at this; obtain ⟨a1, a2, a3, a4, a5, a6, a7, a8, a9⟩ := this; exact ⟨a1, a2, a3, a4, a5, a6, a7⟩
    · rename_i heq; rw [heq] at this; obtain ⟨a1, a2, a3, a4, a5, a6, a7, a8, a9⟩ := this; exact ⟨a1, a2, a3, a4, a5, a6, a7⟩

theorem refill_fields {E : OptEnv} {p p' : Pool} {sel : List Nat} (h : Refill E p sel p') :
    p'.members.map Opt.sig = p.members.map Opt.sig ∧ p'.own = p.own ∧ p'.cfg = p.cfg ∧ p'.conds = p.conds ∧ p'.best = p.best ∧
    p'.bestIdx = p.bestIdx ∧ p'.stopped = p.stopped ∧ p'.queue = p.queue ++ sel ∧ p'.log = p.log := by
  cases h with
  | keep h => simp
  | @fill ms ms' preds ord q h hp ho hf hb =>
    have h1 := predictLoop_sig E p.cfg p.own.info p.members 0
    have h2 := fillLoop_sig E p.cfg.concurrent preds ord [] ms
    rw [hp] at h1; rw [hf] at h2
    simp [h, h2, h1]

theorem PoolBest.poolStep {E : OptEnv} {ins : Nat → In} {S : List Nat} {p p' : Pool} {sel run : List Nat} {r : Option Nat}
    (I : PoolBest S [] p) (st : Pool.Step E ins p sel run p' r) : PoolBest (S ++ run) [] p' := by
  cases st with
  | @mk p₁ p₂ _ t _ _ hd hne h1 h2 h3 hend h4 =>
    have I1 : PoolBest S [] p₁ := by
      rw [h1]; split <;> exact I.congr rfl rfl rfl rfl
    obtain ⟨f1, f2, f3, f4, f5, f6, f7, f8⟩ := refill_fields h2
    have I2 : PoolBest S [] p₂ := I1.congr f1 (by rw [f2]) f5 f6
    have R0 : RunInv S p₂.launch.futs p₂.launch := by
      refine ⟨fun _ => ?_, fun _ i hi => hi, fun i hi => hi⟩
      refine ⟨I2.mem, ?_, ?_, ?_⟩
      · intro hn i hi
        rcases List.mem_append.1 hi with hi | hi
        · have := I2.noneYet hn i hi; simp at this
        · exact hi
      · intro k hk
        obtain ⟨a, b, m, hm, h⟩ := I2.isBest k hk
        refine ⟨by simp [a], b, m, hm, .inl ?_⟩
        rcases h with h | ⟨h, -⟩
        · exact h
        · simp at h
      · intro i hi hni
        rcases List.mem_append.1 hi with hi | hi
        · exact I2.low i hi (by simp)
        · exact absurd hi hni
    have R := R0.exec h3
    have I3 := R.inv hend.2.2
    rw [hend.2.1] at I3
    have hf := poolTest_fields E { t.pool.signal .postStep with own := { t.pool.own with stepCount := t.pool.own.stepCount + 1 } }
    rw [h4] at hf
    have hci := (core_ext hf.2.1).1
    exact I3.congr hf.1 hci hf.2.2.2.2.2.1 hf.2.2.2.2.2.2

/-- The members that have been stepped. -/
def steppedOf (ls : List (List Nat × List Nat)) : List Nat := ls.flatMap (·.2)

/-- Members that may be added: same direction, and a best fitness that is a number (as that of any optimizer is, see C20). -/
def Opt.Fits (minimize : Bool) (m : Opt) : Prop := m.vis.bestFitness ≠ .nan ∧ m.vis.info.minimize = minimize

theorem push_getElem (p : Pool) (m : Opt) {k : Nat} {x : Opt} (h : p.members[k]? = some x) : (p.push m).members[k]? = some x := by
  unfold Pool.push
  exact (List.getElem?_append_left (List.getElem?_eq_some_iff.1 h).1).trans h

theorem push_sig (p : Pool) (m : Opt) : (p.push m).members.map Opt.sig = p.members.map Opt.sig ++ [m.sig] := by
  unfold Pool.push
  dsimp only
  simp only [List.map_append, List.map_cons, List.map_nil]
  congr 2
  split
  · unfold Opt.addCond Opt.sig; dsimp only; split <;> rfl
  · rfl

theorem exec_info {E : OptEnv} {ins : Nat → In} {r t : RunSt} (hr : RunExec E ins r t) : t.pool.own.info = r.pool.own.info := by
  induction hr with
  | nil => rfl
  | snoc _ st ih =>
    refine Eq.trans ?_ ih
    cases st with
    | finish => rfl
    | fail => rfl
    | collect h hr hf hc => exact congrArg Vis.info (collect_fields hc).2.1
    | throws h hr hf hc => exact congrArg Vis.info (collect_fields hc).2.1
    | rethrow => rfl
    | interrupt => rfl

theorem hist_best {E : OptEnv} {p p' : Pool} {ls : List (List Nat × List Nat)} {S : List Nat}
    (h : Pool.Hist E (Opt.Fits p.own.info.minimize) p ls p') (I : PoolBest S [] p) :
    PoolBest (S ++ steppedOf ls) [] p' ∧ p'.own.info = p.own.info := by
  induction h with
  | nil => exact ⟨by simpa [steppedOf] using I, rfl⟩
  | @step q q' ls sel run ins r h st ih =>
    have hi : q'.own.info = q.own.info := by
      cases st with
      | @mk p₁ p₂ _ t _ _ hd hne h1 h2 h3 hend h4 =>
        have hf := poolTest_fields E { t.pool.signal .postStep with own := { t.pool.own with stepCount := t.pool.own.stepCount + 1 } }
        rw [h4] at hf
        have hci := (core_ext hf.2.1).1
        have hx : t.pool.own.info = p₂.own.info := exec_info h3
        have h1' : p₁.own = q.own := by rw [h1]; split <;> rfl
        exact hci.trans (hx.trans (by rw [(refill_fields h2).2.1, h1']))
    refine ⟨?_, hi.trans ih.2⟩
    have := ih.1.poolStep st
    simpa [steppedOf, List.append_assoc] using this
  | @push q ls m h hm ih =>
    obtain ⟨I', hi⟩ := ih
    refine ⟨⟨?_, I'.noneYet, ?_, ?_⟩, hi⟩
    · intro x hx
      obtain ⟨k, hk⟩ := List.getElem?_of_mem hx
      have := congrArg (·[k]?) (push_sig q m)
      simp only [List.getElem?_map, hk, Option.map_some] at this
      show _ ∧ x.vis.info.minimize = q.own.info.minimize
      rcases lt_or_ge k q.members.length with hlt | hge
      · rw [List.getElem?_append_left (by simpa using hlt), List.getElem?_map] at this
        rw [List.getElem?_eq_getElem hlt] at this
        simp only [Option.map_some, Option.some.injEq, Opt.sig, Prod.mk.injEq] at this
        rw [this.1, this.2.2]
        exact I'.mem _ (List.getElem_mem hlt)
      · rw [List.getElem?_append_right (by simpa using hge)] at this
        have hk0 : k - q.members.length = 0 := by
          by_contra hne
          rw [List.getElem?_eq_none (by simp; omega)] at this
          cases this
        simp only [List.length_map, hk0, List.getElem?_cons_zero, Option.some.injEq, Opt.sig, Prod.mk.injEq] at this
        rw [this.1, this.2.2, hi]
        exact hm
    · intro k hk
      obtain ⟨a, b, x, hx, h⟩ := I'.isBest k hk
      exact ⟨a, b, x, push_getElem q m hx, h⟩
    · intro i h1 h2
      obtain ⟨x, hx, h⟩ := I'.low i h1 h2
      exact ⟨x, push_getElem q m hx, h⟩
  | @addCond q ls c h ih =>
    obtain ⟨I', hi⟩ := ih
    have : (q.addCond c).own.info = q.own.info := by unfold Pool.addCond; dsimp only; split <;> rfl
    exact ⟨I'.congr rfl this rfl rfl, this.trans hi⟩
  | @interrupt q ls h ih =>
    obtain ⟨I', hi⟩ := ih
    exact ⟨I'.congr (interrupt_sig _) rfl rfl rfl, hi⟩
  | @test q ls h ih =>
    obtain ⟨I', hi⟩ := ih
    have hf := poolTest_fields E q
    have hci := (core_ext hf.2.1).1
    exact ⟨I'.congr hf.1 hci hf.2.2.2.2.2.1 hf.2.2.2.2.2.2, hci.trans hi⟩

end Spot
