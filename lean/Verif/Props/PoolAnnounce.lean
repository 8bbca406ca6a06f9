import Verif.Props.PoolCases

/-! # C40: what a pool announces is what its getters return -/

namespace Spot

variable {E : OptEnv}

/-- Points and fitnesses announced by `on_new_best`, in order. -/
def announcements (log : List Event) : List (Pt × Dbl) :=
  log.filterMap fun e => match e with
    | .newBest pt f => some (pt, f)
    | _ => none

/-- The last announcement is the best point and fitness of the best member, unless that member has been stepped since. -/
def LastAnn (o : List Nat) (p : Pool) : Prop :=
  (p.bestIdx = none → announcements p.log = []) ∧
  ∀ k, p.bestIdx = some k → ∃ m pt, p.members[k]? = some m ∧ (announcements p.log).getLast? = some (pt, p.best) ∧
    ((m.vis.bestFitness = p.best ∧ m.vis.bestPoint = pt) ∨ (k ∈ o ∧ p.own.info.isBetter m.vis.bestFitness p.best = true))

theorem LastAnn.congr {o : List Nat} {p q : Pool} (I : LastAnn o p) (hl : announcements q.log = announcements p.log)
    (hs : q.members.map Opt.sig = p.members.map Opt.sig) (hi : q.own.info = p.own.info) (hb : q.best = p.best)
    (hx : q.bestIdx = p.bestIdx) : LastAnn o q := by
  refine ⟨fun h => by rw [hl]; exact I.1 (hx ▸ h), fun k hk => ?_⟩
  obtain ⟨m, pt, h1, h2, h3⟩ := I.2 k (hx ▸ hk)
  obtain ⟨m', hm', hsig⟩ := sig_get hs h1
  simp only [Opt.sig, Prod.mk.injEq] at hsig
  exact ⟨m', pt, hm', by rw [hl, hb]; exact h2, by rw [hsig.1, hsig.2.1, hb, hi]; exact h3⟩

theorem LastAnn.finish {S o : List Nat} {p : Pool} (I : LastAnn o p) (J : PoolBest S o p) {i : Nat} (hi : i ∈ o) {m m' : Opt}
    (hm : p.members[i]? = some m)
    (h2 : (m'.vis.bestFitness = m.vis.bestFitness ∧ m'.vis.bestPoint = m.vis.bestPoint) ∨
      m.vis.info.isBetter m'.vis.bestFitness m.vis.bestFitness = true) :
    LastAnn o { p with members := p.members.set i m' } := by
  have hok := J.mem m (List.mem_of_getElem? hm)
  have hl : i < p.members.length := (List.getElem?_eq_some_iff.1 hm).1
  rw [isBetter_minimize hok.2] at h2
  refine ⟨I.1, fun k hk => ?_⟩
  obtain ⟨x, pt, hx, ha, h3⟩ := I.2 k hk
  by_cases hik : i = k
  · subst hik
    rw [hm] at hx; cases hx
    refine ⟨m', pt, by simp [hl], ha, ?_⟩
    rcases h2 with ⟨h2, h2'⟩ | h2
    · rw [h2, h2']; exact h3
    · rcases h3 with h3 | h3
      · exact .inr ⟨hi, h3.1 ▸ h2⟩
      · exact .inr ⟨hi, better_trans h2 h3.2⟩
  · exact ⟨x, pt, by simp only [List.getElem?_set_ne hik, hx], ha, h3⟩

theorem LastAnn.collect {is : List Nat} {i : Nat} {p p' : Pool} (I : LastAnn (i :: is) p) (h : p.collect i = (p', .ok ())) :
    LastAnn is p' := by
  obtain ⟨hs, ho, -⟩ := collect_fields h
  obtain ⟨m, fs, hm, hl⟩ := collect_log h
  obtain ⟨m', hm', hb⟩ := collect_best h
  rw [hm] at hm'; cases hm'
  split at hb
  · rename_i hc
    rw [if_pos hc] at hl
    refine ⟨fun hn => (by rw [hb.1] at hn; cases hn), fun k hk => ?_⟩
    rw [hb.1] at hk; cases hk
    obtain ⟨y, hy, hsig⟩ := sig_get hs hm
    simp only [Opt.sig, Prod.mk.injEq] at hsig
    refine ⟨y, m.vis.bestPoint, hy, ?_, .inl ⟨by rw [hsig.1, hb.2], hsig.2.1⟩⟩
    rw [hl, hb.2]; simp [announcements]
  · rename_i hc
    rw [if_neg hc] at hl
    push Not at hc
    have ha : announcements p'.log = announcements p.log := by rw [hl]; simp [announcements]
    refine ⟨fun hn => by rw [ha]; exact I.1 (hb.1 ▸ hn), fun k hk => ?_⟩
    rw [hb.1] at hk
    obtain ⟨x, pt, hx, h2, h3⟩ := I.2 k hk
    obtain ⟨y, hy, hsig⟩ := sig_get hs hx
    simp only [Opt.sig, Prod.mk.injEq] at hsig
    refine ⟨y, pt, hy, by rw [ha, hb.2]; exact h2, ?_⟩
    rw [hsig.1, hsig.2.1, hb.2, ho]
    rcases h3 with h3 | ⟨h3, h4⟩
    · exact .inl h3
    · by_cases hki : k = i
      · subst hki
        rw [hm] at hx; cases hx
        exact absurd h4 hc.2
      · exact .inr ⟨by simpa [hki] using h3, h4⟩

theorem LastAnn.exec {ins : Nat → In} {S L : List Nat} {r t : RunSt} (h : RunExec E ins r t) (ht : t.threw = false)
    (R : RunInv S L r) (I : LastAnn r.futs r.pool) : LastAnn t.futs t.pool := by
  induction h with
  | nil => exact I
  | @snoc s t hx st ih =>
    have R' := RunInv.exec hx R
    cases st with
    | @finish i m m' x h hm hs =>
      have hb := step_bestPoint E m (ins i)
      rw [hs] at hb
      exact (ih ht).finish (R'.inv ht) (R'.sub ht i h) hm hb
    | @fail i m m' h hm hs =>
      have hb := step_bestPoint E m (ins i)
      rw [hs] at hb
      exact (ih ht).finish (R'.inv ht) (R'.sub ht i h) hm hb
    | @collect i is p h hr hf hc =>
      have := ih ht
      rw [h] at this
      exact this.collect hc
    | throws => cases ht
    | rethrow => cases ht
    | interrupt => exact (ih ht).congr rfl (interrupt_sig _) rfl rfl rfl

theorem poolTest_announcements (p : Pool) : announcements (p.testStop E).1.log = announcements p.log := by
  have hf := testLoop_fields E p.conds 0 p
  unfold Pool.testStop
  split
  · rfl
  · split
    · rename_i k heq
      rw [heq] at hf
      have h9 := hf.2.2.2.2.2.2.2.2
      dsimp only at h9
      simp [Pool.signal, h9, announcements]
    · rename_i heq
      rw [heq] at hf
      have h9 := hf.2.2.2.2.2.2.2.2
      dsimp only at h9
      rw [h9]

theorem hist_lastAnn {p p' : Pool} {ls : List (List Nat × List Nat)} {S : List Nat}
    (h : Pool.Hist E (Opt.Fits p.own.info.minimize) p ls p') (J : PoolBest S [] p) (I : LastAnn [] p) : LastAnn [] p' := by
  induction h with
  | nil => exact I
  | @step q q' ls sel run ins r h st ih =>
    have Jq := (hist_best h J).1
    cases st with
    | @mk p₁ p₂ _ t _ _ hd hne h1 h2 h3 hend h4 =>
      have I1 : LastAnn [] p₁ := by
        rw [h1]; split <;> refine ih.congr ?_ rfl rfl rfl rfl <;> simp [announcements, Pool.signal]
      have J1 : PoolBest (S ++ steppedOf ls) [] p₁ := by
        rw [h1]; split <;> exact Jq.congr rfl rfl rfl rfl
      obtain ⟨f1, f2, f3, f4, f5, f6, f7, f8, f9⟩ := refill_fields h2
      have I2 : LastAnn [] p₂ := I1.congr (by rw [f9]) f1 (by rw [f2]) f5 f6
      have J2 : PoolBest (S ++ steppedOf ls) [] p₂ := J1.congr f1 (by rw [f2]) f5 f6
      have R0 : RunInv (S ++ steppedOf ls) p₂.launch.futs p₂.launch := by
        refine ⟨fun _ => ?_, fun _ i hi => hi, fun i hi => hi⟩
        refine ⟨J2.mem, ?_, ?_, ?_⟩
        · intro hn i hi
          rcases List.mem_append.1 hi with hi | hi
          · have := J2.noneYet hn i hi; simp at this
          · exact hi
        · intro k hk
          obtain ⟨a, b, m, hm, h⟩ := J2.isBest k hk
          refine ⟨List.mem_append_left _ a, b, m, hm, .inl ?_⟩
          rcases h with h | ⟨h, -⟩
          · exact h
          · simp at h
        · intro i hi hni
          rcases List.mem_append.1 hi with hi | hi
          · exact J2.low i hi (by simp)
          · exact absurd hi hni
      have I0 : LastAnn p₂.launch.futs p₂.launch.pool := by
        refine ⟨I2.1, fun k hk => ?_⟩
        obtain ⟨m, pt, hm, ha, h⟩ := I2.2 k hk
        refine ⟨m, pt, hm, ha, .inl ?_⟩
        rcases h with h | ⟨h, -⟩
        · exact h
        · simp at h
      have I3 := I0.exec h3 hend.2.2 R0
      rw [hend.2.1] at I3
      have hf := poolTest_fields E { t.pool.signal .postStep with own := { t.pool.own with stepCount := t.pool.own.stepCount + 1 } }
      have ha := poolTest_announcements (E := E) { t.pool.signal .postStep with own := { t.pool.own with stepCount := t.pool.own.stepCount + 1 } }
      rw [h4] at hf ha
      have hci := (core_ext hf.2.1).1
      refine I3.congr (ha.trans ?_) hf.1 hci hf.2.2.2.2.2.1 hf.2.2.2.2.2.2
      simp [announcements, Pool.signal]
  | @push q ls m h hm ih =>
    refine ⟨ih.1, fun k hk => ?_⟩
    obtain ⟨x, pt, hx, ha, h3⟩ := ih.2 k hk
    exact ⟨x, pt, push_getElem q m hx, ha, h3⟩
  | @addCond q ls c h ih =>
    have : (q.addCond c).own.info = q.own.info := by unfold Pool.addCond; dsimp only; split <;> rfl
    exact ih.congr rfl rfl this rfl rfl
  | interrupt h ih => exact ih.congr rfl (interrupt_sig _) rfl rfl rfl
  | @test q ls h ih =>
    have hf := poolTest_fields E q
    exact ih.congr (poolTest_announcements q) hf.1 (core_ext hf.2.1).1 hf.2.2.2.2.2.1 hf.2.2.2.2.2.2

/-- **C40.** Whenever the getters have a value, they return the point and the fitness of the last `on_new_best` of the pool; and before
the first `on_new_best` they have none. -/
theorem C40_announced_values (cfg : PoolCfg) (info : ObjInfo) {ls : List (List Nat × List Nat)} {p : Pool}
    (h : Pool.Hist E (Opt.Fits info.minimize) (Pool.init cfg info) ls p) :
    match (announcements p.log).getLast? with
    | some (pt, f) => p.bestPoint = .ok pt ∧ p.bestFitness = .ok f
    | none => p.bestPoint = .ub ∧ p.bestFitness = .ub := by
  have h' : Pool.Hist E (Opt.Fits (Pool.init cfg info).own.info.minimize) (Pool.init cfg info) ls p := by rw [init_own]; exact h
  have I := hist_lastAnn h' (init_best cfg info) ⟨fun _ => by simp [Pool.init, announcements], by simp [Pool.init]⟩
  cases hb : p.bestIdx with
  | none =>
    rw [I.1 hb]
    simp [Pool.bestPoint, Pool.bestFitness, Pool.bestMember, hb]
  | some k =>
    obtain ⟨m, pt, hm, ha, h3⟩ := I.2 k hb
    rw [ha]
    rcases h3 with h3 | ⟨h3, -⟩
    · have hbm : p.bestMember = .ok m := by unfold Pool.bestMember; rw [hb]; dsimp only; rw [hm]
      constructor
      · unfold Pool.bestPoint; rw [hbm, ← h3.2]; rfl
      · unfold Pool.bestFitness; rw [hbm, ← h3.1]; rfl
    · simp at h3

/-- Three members in two steps: four announcements are made; the getters return the last of them. -/
example : ∃ ls p, Pool.Hist optEnv (Opt.Fits optInfo.minimize) (Pool.init {} optInfo) ls p ∧
    ((announcements p.log).map Prod.snd = [.fin 5, .fin 4, .fin 3, .fin 2] ∧ (announcements p.log).getLast?.map (fun x => (Res.ok x.1, Res.ok x.2)) =
      some (p.bestPoint, p.bestFitness)) :=
  exists_hist (n := 3) (w := [(fitIns (fun i => some (5 - i)), [0, 1, 2]), (fitIns (fun i => some (i * i - 2 * i + 3)), [0, 1, 2])])
    (by decide +kernel)

end Spot
