import Verif.Lemmas.PoolEnd

/-!
# A pool of members with step limits ends (C97)
-/

namespace Spot

variable {E : OptEnv}

theorem init_count (N : Nat) (cfg : PoolCfg) (info : ObjInfo) : CountInv N (Pool.init cfg info).queue (fun _ => 0) (Pool.init cfg info).members :=
  ⟨by simp [Pool.init], by simp [Pool.init], by simp [Pool.init], by simp [Pool.init], by simp [Pool.init]⟩

theorem push_limited {N : Nat} (p : Pool) {m : Opt} (hm : m.Limited N) : ∃ m', (p.push m).members = p.members ++ [m'] ∧ m'.Limited N := by
  obtain ⟨hc, n, hn, h⟩ := hm
  unfold Pool.push
  dsimp only
  refine ⟨_, rfl, ?_⟩
  split
  · refine ⟨?_, n, hn, by simp [Opt.addCond, h]⟩
    obtain ⟨b, rest, hc⟩ := hc
    exact ⟨b, rest ++ [.predicted p.own.info.worstFitness p.cfg.lookAhead p.cfg.start], by simp [Opt.addCond, hc]⟩
  · exact ⟨hc, n, hn, h⟩

theorem hist_count {N : Nat} {p0 p : Pool} {ls : List (List Nat × List Nat)} (h : Pool.Hist E (Opt.Limited N) p0 ls p)
    (h0 : CountInv N p0.queue (fun _ => 0) p0.members) :
    CountInv N p.queue (fun j => (steppedOf ls).count j) p.members ∧ ∀ j ∈ steppedOf ls, j < p.members.length := by
  induction h with
  | nil => exact ⟨by simpa [steppedOf] using h0, by simp [steppedOf]⟩
  | @step q q' ls sel run ins r h st ih =>
    obtain ⟨I, hin⟩ := ih
    obtain ⟨g1, g2, g3, g4⟩ := CountInv.step st I
    have e : steppedOf (ls ++ [(sel, run)]) = steppedOf ls ++ run := by simp [steppedOf]
    refine ⟨?_, ?_⟩
    · have : (fun j => (steppedOf (ls ++ [(sel, run)])).count j) = fun j => (steppedOf ls).count j + if j ∈ run then 1 else 0 := by
        funext j
        rw [e, List.count_append, g1.count]
      rw [this]; exact g4
    · intro j hj
      rw [e] at hj
      rw [g3]
      rcases List.mem_append.1 hj with hj | hj
      · exact hin j hj
      · exact g2 j hj
  | @push q ls m h hm ih =>
    obtain ⟨I, hin⟩ := ih
    obtain ⟨m', hm', hl⟩ := push_limited q hm
    have hq : (q.push m).queue = q.queue := rfl
    have hget : ∀ (i : Nat) (u : Opt), (q.push m).members[i]? = some u → (q.members[i]? = some u) ∨ (i = q.members.length ∧ u = m') := by
      intro i u hu
      rw [hm'] at hu
      by_cases hlt : i < q.members.length
      · rw [List.getElem?_append_left hlt] at hu; exact .inl hu
      · rw [List.getElem?_append_right (by omega)] at hu
        have : i - q.members.length = 0 := by
          by_contra hne
          rw [List.getElem?_eq_none (by simp; omega)] at hu; cases hu
        rw [this] at hu
        simp only [List.getElem?_cons_zero, Option.some.injEq] at hu
        exact .inr ⟨by omega, hu.symm⟩
    refine ⟨⟨I.nodup, ?_, ?_, ?_, ?_⟩, ?_⟩
    · intro i u hu
      rcases hget i u hu with hu | ⟨rfl, rfl⟩
      · exact I.lim i u hu
      · exact hl
    · intro i u hu hi
      rcases hget i u hu with hu | ⟨rfl, rfl⟩
      · exact I.below i u hu hi
      · exact absurd (I.inside _ hi) (by omega)
    · intro i hi
      have := I.inside i hi
      rw [hm', List.length_append]; omega
    · intro i u hu
      rcases hget i u hu with hu | ⟨rfl, rfl⟩
      · exact I.bound i u hu
      · have : (steppedOf ls).count q.members.length = 0 := List.count_eq_zero.2 (fun hj => absurd (hin _ hj) (by omega))
        rw [this, Nat.zero_add]
        unfold weight
        split <;> omega
    · intro j hj
      have := hin j hj
      rw [hm', List.length_append]; omega
  | addCond h ih => exact ih
  | interrupt h ih =>
    refine ⟨ih.1.later (interrupt_later _), fun j hj => ?_⟩
    have := ih.2 j hj
    simpa [Pool.interrupt] using this
  | @test q ls h ih =>
    have hl := poolTest_later E q
    have hf := poolTest_fields E q
    refine ⟨?_, fun j hj => by rw [hl.1]; exact ih.2 j hj⟩
    rw [hf.2.2.1]
    exact ih.1.later hl

/-- **C97.** In every history of a pool whose members have a step limit of at most `N`, no member is stepped more than `N` times: the
pool never steps a member that has reached its limit, although it selects members some time before it steps them. -/
theorem C97_member_steps (cfg : PoolCfg) (info : ObjInfo) (N : Nat) {ls : List (List Nat × List Nat)} {p : Pool}
    (h : Pool.Hist E (Opt.Limited N) (Pool.init cfg info) ls p) (j : Nat) : (steppedOf ls).count j ≤ N := by
  obtain ⟨I, hin⟩ := hist_count h (init_count N cfg info)
  by_cases hj : j < p.members.length
  · have := I.bound j _ (List.getElem?_eq_getElem hj)
    omega
  · rw [List.count_eq_zero.2 (fun h => hj (hin j h))]; omega

/-- **C97.** Nor does any member ever have more than `N` steps (if it had no more when it was added). -/
theorem C97_current_step (cfg : PoolCfg) (info : ObjInfo) (N : Nat) {ls : List (List Nat × List Nat)} {p : Pool}
    (h : Pool.Hist E (fun m => m.Limited N ∧ m.vis.stepCount ≤ N) (Pool.init cfg info) ls p) : ∀ m ∈ p.members, m.vis.stepCount ≤ N := by
  have key : ∀ {r t : RunSt} {ins : Nat → In} {c : Nat → Nat}, RunExec E ins r t → CountInv N (r.running ++ r.pool.queue) c r.pool.members →
      t.failed = [] → t.threw = false → (∀ m ∈ r.pool.members, m.vis.stepCount ≤ N) → ∀ m ∈ t.pool.members, m.vis.stepCount ≤ N := by
    intro r t ins c hx I
    induction hx with
    | nil => intro _ _ h; exact h
    | @snoc s t hx st ih =>
      intro hf ht hr
      cases st with
      | @finish i m m' x hi hm hs =>
        have := ih hf ht hr
        obtain ⟨-, c', -, J⟩ := CountInv.exec hx I hf ht
        intro u hu
        obtain ⟨k, hk, hku⟩ := List.mem_iff_getElem.1 hu
        by_cases hki : i = k
        · subst hki
          rw [List.getElem_set_self] at hku
          subst hku
          obtain ⟨-, -, h3⟩ := step_counts (J.lim i m hm) hs
          have := J.below i m hm (List.mem_append_left _ hi)
          omega
        · rw [List.getElem_set_ne hki] at hku
          subst hku
          exact this _ (List.getElem_mem _)
      | fail => simp at hf
      | @collect i is p h hr' hf' hc =>
        intro u hu
        obtain ⟨k, hk⟩ := List.getElem?_of_mem hu
        obtain ⟨m, hm, hl⟩ := (collect_later hc).2 k u hk
        rw [hl.count]
        exact ih hf ht hr m (List.mem_of_getElem? hm)
      | throws => cases ht
      | rethrow => cases ht
      | interrupt =>
        intro u hu
        obtain ⟨k, hk⟩ := List.getElem?_of_mem hu
        obtain ⟨m, hm, hl⟩ := (interrupt_later _).2 k u hk
        rw [hl.count]
        exact ih hf ht hr m (List.mem_of_getElem? hm)
  have later : ∀ {ms ms' : List Opt}, LaterL ms ms' → (∀ m ∈ ms, m.vis.stepCount ≤ N) → ∀ m ∈ ms', m.vis.stepCount ≤ N := by
    intro ms ms' hl h u hu
    obtain ⟨k, hk⟩ := List.getElem?_of_mem hu
    obtain ⟨m, hm, hl⟩ := hl.2 k u hk
    rw [hl.count]
    exact h m (List.mem_of_getElem? hm)
  have weaken : ∀ {ls : List (List Nat × List Nat)} {p0 p : Pool}, Pool.Hist E (fun m => m.Limited N ∧ m.vis.stepCount ≤ N) p0 ls p →
      Pool.Hist E (Opt.Limited N) p0 ls p := by
    intro ls p0 p h
    induction h with
    | nil => exact .nil
    | step _ st ih => exact .step ih st
    | push _ hm ih => exact .push ih hm.1
    | addCond _ ih => exact .addCond ih
    | interrupt _ ih => exact .interrupt ih
    | test _ ih => exact .test ih
  have h0 := init_count N cfg info
  generalize hp0 : Pool.init cfg info = p0 at h h0
  induction h with
  | nil => subst hp0; simp [Pool.init]
  | @step q q' ls sel run ins r h st ih =>
    have ih := ih
    obtain ⟨I, -⟩ := hist_count (weaken h) h0
    cases st with
    | @mk p₁ p₂ _ t _ _ hd hne h1 h2 h3 hend h4 =>
      have h1' : p₁.queue = q.queue ∧ p₁.members = q.members := by rw [h1]; split <;> exact ⟨rfl, rfl⟩
      have hth := hend.2.2
      have hfu := failed_futs h3 rfl (List.Subset.refl _) hth
      rw [hend.2.1] at hfu
      have hfa : t.failed = [] := List.subset_nil.1 hfu.1
      have I1 : CountInv N p₁.queue (fun j => (steppedOf ls).count j) p₁.members := by rw [h1'.1, h1'.2]; exact I
      have I2 : CountInv N p₂.queue (fun j => (steppedOf ls).count j) p₂.members := by
        obtain ⟨g1, g2, g3⟩ := refill_sel E h2
        obtain ⟨f1, f2, f3, f4, f5, f6, f7, f8, f9⟩ := refill_fields h2
        have hl := refill_later h2
        by_cases hq : p₁.queue = []
        · rw [hq] at I1 f8
          rw [f8]
          exact (I1.later hl).select g1 g2
        · rw [f8, g3 hq, List.append_nil]
          exact I1.later hl
      have I3 : CountInv N (p₂.launch.running ++ p₂.launch.pool.queue) (fun j => (steppedOf ls).count j) p₂.launch.pool.members := by
        have : p₂.launch.running ++ p₂.launch.pool.queue = p₂.queue := List.take_append_drop ..
        rw [this]; exact I2
      have hl4 := poolTest_later E { t.pool.signal .postStep with own := { t.pool.own with stepCount := t.pool.own.stepCount + 1 } }
      rw [h4] at hl4
      refine later hl4 (key h3 I3 hfa hth ?_)
      show ∀ m ∈ p₂.members, _
      refine later (refill_later h2) ?_
      rw [h1'.2]; exact ih
  | @push q ls m h hm ih =>
    have ih := ih
    intro u hu
    unfold Pool.push at hu
    dsimp only at hu
    rcases List.mem_append.1 hu with hu | hu
    · exact ih u hu
    · simp only [List.mem_singleton] at hu
      subst hu
      split
      · show (Vis.stepCount (if _ then _ else _)) ≤ N
        split <;> exact hm.2
      · exact hm.2
  | addCond h ih => exact ih
  | interrupt h ih => exact later (interrupt_later _) ih
  | test h ih => exact later (poolTest_later E _) ih

/-- A step of a pool in which no member is stepped returns a stop condition, if predictions are better than the worst fitness. -/
theorem idle_stops {ins : Nat → In} {p p' : Pool} {sel run : List Nat} {r : Option Nat} (h : Pool.Step E ins p sel run p' r)
    (hc : PCond.allStopped ∈ p.conds) (ha : 0 < p.cfg.active) (hcc : 0 < p.cfg.concurrent)
    (hpr : ∀ m ∈ p.members, m.Going E → p.cfg.start ≤ m.vis.stepCount → ∀ x, (m.vis.predictedFitness E p.cfg.lookAhead).2 = .ok x →
      p.own.info.isBetter x p.own.info.worstFitness = true) (hr : run = []) : r ≠ none := by
  cases h with
  | @mk p₁ p₂ _ t _ _ hd hne h1 h2 h3 hend h4 =>
    have h1' : p₁.own = p.own ∧ p₁.members = p.members ∧ p₁.cfg = p.cfg ∧ p₁.conds = p.conds := by
      rw [h1]; split <;> exact ⟨rfl, rfl, rfl, rfl⟩
    obtain ⟨f1, f2, f3, f4, f5, f6, f7, f8, f9⟩ := refill_fields h2
    have hc2 : p₂.cfg.concurrent = p.cfg.concurrent := by rw [f3, h1'.2.2.1]
    have hq2 : p₂.queue = [] := by
      have : p₂.queue.take p₂.cfg.concurrent = [] := hr
      rw [List.take_eq_nil_iff] at this
      rcases this with h | h
      · omega
      · exact h
    have hall : ∀ m ∈ p₂.members, m.stopped.isSome := by
      cases h2 with
      | keep h => exact absurd hq2 h
      | @fill ms ms' preds ord q h hp ho hf hb =>
        replace hq2 : _ = ([] : List Nat) := hq2
        have hbw : ∀ info : ObjInfo, info.isBetter info.bestFitness info.worstFitness = true := by
          intro info
          unfold ObjInfo.isBetter ObjInfo.bestFitness ObjInfo.worstFitness
          cases info.minimize <;> decide +kernel
        have hpri := predictLoop_priorities E _ _ _ _ _ _ hp
        have hcase : ∀ x ∈ preds, x = p₁.own.info.worstFitness ∨ p₁.own.info.isBetter x p₁.own.info.worstFitness = true := by
          intro x hx
          obtain ⟨k, hk⟩ := List.getElem?_of_mem hx
          have hkl : k < p₁.members.length := by rw [← hpri.1]; exact (List.getElem?_eq_some_iff.1 hk).1
          have h5 := hpri.2 k _ x (List.getElem?_eq_getElem hkl) hk
          split at h5
          · rename_i hg
            right
            split at h5
            · rename_i hst
              rw [h1'.1]
              rw [h1'.2.2.1] at hst h5
              refine hpr _ ?_ hg.1 hst x h5
              rw [← h1'.2.1]; exact List.getElem_mem _
            · rw [h5]; exact hbw _
          · exact .inl h5
        have hnan : Dbl.nan ∉ preds := by
          intro hn
          rcases hcase _ hn with h5 | h5
          · exact worst_ne_nan _ h5.symm
          · exact (better_ne_nan h5).1 rfl
        have hnone : ∀ m ∈ p₁.members, ¬ m.Going E := by
          intro m hm hg
          -- the first member that is going gets a priority better than the worst
          have hex : ∃ k, ∃ hk : k < p₁.members.length, p₁.members[k].Going E := by
            obtain ⟨k, hk, hkm⟩ := List.mem_iff_getElem.1 hm
            exact ⟨k, hk, by rw [hkm]; exact hg⟩
          classical
          obtain ⟨hk, hgk⟩ := Nat.find_spec hex
          have hfirst : ((p₁.members.take (Nat.find hex)).filter (fun m => decide (m.Going E))) = [] := by
            rw [List.filter_eq_nil_iff]
            intro u hu
            obtain ⟨i, hi, hiu⟩ := List.mem_iff_getElem.1 hu
            rw [List.length_take] at hi
            rw [List.getElem_take] at hiu
            have := Nat.find_min hex (m := i) (by omega)
            simp only [decide_eq_true_eq]
            intro hgu
            exact this ⟨by omega, by rw [hiu]; exact hgu⟩
          have hpl : Nat.find hex < preds.length := by rw [hpri.1]; exact hk
          have h5 := hpri.2 _ _ _ (List.getElem?_eq_getElem hk) (List.getElem?_eq_getElem hpl)
          rw [hfirst, if_pos ⟨hgk, by rw [h1'.2.2.1]; simpa using ha⟩] at h5
          refine fill_progress E hp ho hf hnan ⟨_, List.getElem_mem hpl, ?_⟩ hq2
          split at h5
          · rename_i hst
            rw [h1'.1]
            rw [h1'.2.2.1] at hst h5
            refine hpr _ ?_ hgk hst _ h5
            rw [← h1'.2.1]; exact List.getElem_mem _
          · rw [h5]; exact hbw _
        have h6 := predictLoop_all _ _ _ _ _ _ hp (by rw [h1'.2.2.1]; exact ha) hnone
        have h7 := fillLoop_later E p₁.cfg.concurrent preds ord [] ms
        rw [hf] at h7
        intro u hu
        obtain ⟨k, hk⟩ := List.getElem?_of_mem hu
        obtain ⟨m, hm, hl⟩ := h7.2 k u hk
        exact hl.latch (h6 m (List.mem_of_getElem? hm))
    have hidle : ∀ {r t : RunSt}, RunExec E ins r t → r.running = [] → t.running = [] ∧ LaterL r.pool.members t.pool.members := by
      intro r t hx hr
      induction hx with
      | nil => exact ⟨hr, .refl _⟩
      | snoc _ st ih =>
        obtain ⟨i1, i2⟩ := ih
        cases st with
        | finish h => rw [i1] at h; simp at h
        | fail h => rw [i1] at h; simp at h
        | collect h hr hf hc => exact ⟨i1, i2.trans (collect_later hc)⟩
        | throws h hr hf hc => exact ⟨i1, i2.trans (collect_later hc)⟩
        | rethrow => exact ⟨i1, i2⟩
        | interrupt => exact ⟨i1, i2.trans (interrupt_later _)⟩
    have hl := (hidle h3 hr).2
    have hst : ∀ m ∈ t.pool.members, m.stopped.isSome := by
      intro u hu
      obtain ⟨k, hk⟩ := List.getElem?_of_mem hu
      obtain ⟨m, hm, hl⟩ := hl.2 k u hk
      exact hl.latch (hall m (List.mem_of_getElem? hm))
    have hcs : PCond.allStopped ∈ t.pool.conds := by
      rw [(exec_queue E h3).2.2.1]
      show _ ∈ p₂.conds
      rw [f4, h1'.2.2.2]; exact hc
    rintro rfl
    unfold Pool.testStop at h4
    split at h4
    · cases h4
    · have := all_stopped (E := E) _ 0
        ({ t.pool.signal .postStep with own := { t.pool.own with stepCount := t.pool.own.stepCount + 1 } } : Pool) hcs hst
      split at h4
      · cases h4
      · rename_i heq
        change (Pool.testLoop E 0 t.pool.conds _).2 ≠ _ at this
        change Pool.testLoop E 0 t.pool.conds _ = _ at heq
        rw [heq] at this
        cases h4
        exact this rfl

/-- **C97.** A pool of members with a step limit of at most `N` ends: however its steps go, after at most `N` times the number of members
steps (counted from any moment) one of them returns a stop condition. Needed for that: the pool may step members at all
(`active_optimizations` and `concurrent_optimizations` are not 0), and what is predicted for members that have not stopped is better than
the worst fitness (C41: otherwise the pool may select no members although some have not stopped). -/
theorem C97_ends (cfg : PoolCfg) (info : ObjInfo) (N K : Nat) {ls : List (List Nat × List Nat)} (σ : Nat → Pool)
    (h : Pool.Hist E (Opt.Limited N) (Pool.init cfg info) ls (σ 0)) (ha : 0 < cfg.active) (hc : 0 < cfg.concurrent)
    (hs : ∀ k < K, ∃ ins sel run, Pool.Step E ins (σ k) sel run (σ (k + 1)) none)
    (hp : ∀ k < K, ∀ m ∈ (σ k).members, m.Going E → cfg.start ≤ m.vis.stepCount →
      ∀ x, (m.vis.predictedFitness E cfg.lookAhead).2 = .ok x → info.isBetter x info.worstFitness = true) :
    K ≤ (σ 0).members.length * N := by
  have key : ∀ k ≤ K, ∃ ls', Pool.Hist E (Opt.Limited N) (Pool.init cfg info) ls' (σ k) ∧ k ≤ (steppedOf ls').length ∧
      (σ k).members.length = (σ 0).members.length := by
    intro k
    induction k with
    | zero => intro _; exact ⟨ls, h, Nat.zero_le _, rfl⟩
    | succ k ih =>
      intro hk
      obtain ⟨ls', h1, h2, h3⟩ := ih (by omega)
      obtain ⟨ins, sel, run, st⟩ := hs k (by omega)
      refine ⟨ls' ++ [(sel, run)], h1.step st, ?_, ?_⟩
      · have hcfg : (σ k).cfg = cfg := by
          clear st hs hp h2 h3
          generalize σ k = pk at h1
          generalize hp0 : Pool.init cfg info = p0 at h1
          induction h1 with
          | nil => subst hp0; rfl
          | @step q q' ls sel run ins r h st ih =>
            cases st with
            | @mk p₁ p₂ _ t _ _ hd hne h1 h2 h3 hend h4 =>
              have hf := poolTest_fields E { t.pool.signal .postStep with own := { t.pool.own with stepCount := t.pool.own.stepCount + 1 } }
              rw [h4] at hf
              have e1 : p₁.cfg = q.cfg := by rw [h1]; split <;> rfl
              exact hf.2.2.2.1.trans ((exec_queue E h3).2.1.trans ((refill_fields h2).2.2.1.trans (e1.trans ih)))
          | push h hm ih => exact ih
          | addCond h ih => exact ih
          | interrupt h ih => exact ih
          | @test q ls h ih => exact (poolTest_fields E q).2.2.2.1.trans ih
        have hinfo : (σ k).own.info = info := by
          have := (hist_improves h1).2
          rw [this, init_own]
        obtain ⟨cs, hcs⟩ := conds_hist cfg info h1
        have hne : run ≠ [] := by
          intro hr
          refine idle_stops st (by rw [hcs]; simp) (by rw [hcfg]; exact ha) (by rw [hcfg]; exact hc) ?_ hr rfl
          rw [hcfg, hinfo]
          exact hp k (by omega)
        have : steppedOf (ls' ++ [(sel, run)]) = steppedOf ls' ++ run := by simp [steppedOf]
        rw [this, List.length_append]
        have := List.length_pos_iff.2 hne
        omega
      · obtain ⟨I, -⟩ := hist_count h1 (init_count N cfg info)
        rw [(CountInv.step st I).2.2.1, h3]
  obtain ⟨ls', h1, h2, h3⟩ := key K le_rfl
  obtain ⟨I, hin⟩ := hist_count h1 (init_count N cfg info)
  have hsum : (steppedOf ls').length ≤ (σ K).members.length * N := by
    have hl : (steppedOf ls').length = ∑ j ∈ Finset.range (σ K).members.length, (steppedOf ls').count j := by
      have : (Multiset.card (↑(steppedOf ls') : Multiset ℕ)) = ∑ j ∈ Finset.range (σ K).members.length, Multiset.count j ↑(steppedOf ls') := by
        rw [Multiset.sum_count_eq_card]
        intro a ha
        exact Finset.mem_range.2 (hin a (by simpa using ha))
      simpa using this
    rw [hl]
    calc _ ≤ ∑ j ∈ Finset.range (σ K).members.length, N := Finset.sum_le_sum (fun j _ => C97_member_steps cfg info N h1 j)
      _ = _ := by simp
  rw [h3] at hsum
  omega

/-- **C97.** If predictions start when members are at their limit or later (by default they start after 100 steps), nothing has to be
known about them. -/
theorem C97_ends_unpredicted (cfg : PoolCfg) (info : ObjInfo) (N K : Nat) {ls : List (List Nat × List Nat)} (σ : Nat → Pool)
    (h : Pool.Hist E (Opt.Limited N) (Pool.init cfg info) ls (σ 0)) (ha : 0 < cfg.active) (hc : 0 < cfg.concurrent) (hN : N ≤ cfg.start)
    (hs : ∀ k < K, ∃ ins sel run, Pool.Step E ins (σ k) sel run (σ (k + 1)) none) : K ≤ (σ 0).members.length * N := by
  have hist : ∀ k ≤ K, ∃ ls', Pool.Hist E (Opt.Limited N) (Pool.init cfg info) ls' (σ k) := by
    intro k
    induction k with
    | zero => intro _; exact ⟨ls, h⟩
    | succ k ih =>
      intro hk
      obtain ⟨ls', h1⟩ := ih (by omega)
      obtain ⟨ins, sel, run, st⟩ := hs k (by omega)
      exact ⟨_, h1.step st⟩
  refine C97_ends cfg info N K σ h ha hc hs ?_
  intro k hk m hm hg hst
  obtain ⟨ls', h1⟩ := hist k (by omega)
  obtain ⟨I, -⟩ := hist_count h1 (init_count N cfg info)
  obtain ⟨i, hi⟩ := List.getElem?_of_mem hm
  have := (going_below (I.lim i m hi) hg).2
  omega

/-- **C97.** The members meant: any optimizer to which a step limit of at most `N` has been added, whatever has been done with it before. -/
theorem C97_limited (E : OptEnv) (info : ObjInfo) (e : Int) (hd : info.dim ≠ 0) (h : List Op) (hv : ∀ o ∈ h, o.Valid info) (n N : Nat) (hn : n ≤ N)
    (hm : Cond.maxSteps n ∈ ((Opt.new info e).after E h).conds) : ((Opt.new info e).after E h).Limited N :=
  ⟨(history_facts E info e hd h hv).2, n, hn, hm⟩

/-- A pool of `n` new optimizers with a step limit. -/
def limPool (cfg : PoolCfg) (N : Nat) : Nat → Pool
  | 0 => Pool.init cfg optInfo
  | n + 1 => (limPool cfg N n).push ((Opt.new optInfo 0).addCond (.maxSteps N))

theorem limPool_hist (cfg : PoolCfg) (N n : Nat) : Pool.Hist E (fun m => m.Limited N ∧ m.vis.stepCount ≤ N) (Pool.init cfg optInfo) [] (limPool cfg N n) := by
  induction n with
  | zero => exact .nil
  | succ n ih => exact ih.push ⟨⟨⟨false, [.maxSteps N], rfl⟩, N, le_rfl, by simp [Opt.addCond]⟩, Nat.zero_le _⟩

/-- Two members with a limit of two steps, one stepped at a time: every member is stepped twice (C97_member_steps is sharp), three steps
of the pool return null, the fourth (C97_ends: 2 * 2) returns the condition of the pool. -/
example : let p := limPool { concurrent := 1 } 2 2
    let f := fun (p : Pool) (ord : List Nat) => p.stepWith optEnv (fitIns (fun i => some (5 - i))) ord
    ∃ p1 p2 p3 p4, f p [0, 1] = some ([0, 1], [0], p1, none) ∧ f p1 [] = some ([], [1], p2, none) ∧
      f p2 [0, 1] = some ([0, 1], [0], p3, none) ∧ f p3 [] = some ([], [1], p4, some 2) := by
  intro p f
  have pull : ∀ {x : Option (List Nat × List Nat × Pool × Option Nat)} {a b : List Nat} {r : Option Nat},
      x.map (fun y => (y.1, y.2.1, y.2.2.2)) = some (a, b, r) → ∀ q, x.map (fun y => y.2.2.1) = some q → x = some (a, b, q, r) := by
    rintro (_ | ⟨a', b', q', r'⟩) a b r h q hq
    · cases h
    · simp at h hq
      obtain ⟨rfl, rfl, rfl⟩ := h
      subst hq; rfl
  let g := fun (o : Option Pool) (ord : List Nat) => o.bind (fun p => (f p ord).map (fun y => y.2.2.1))
  have h1 : ((f p [0, 1]).map (fun y => (y.1, y.2.1, y.2.2.2))) = some ([0, 1], [0], none) := by decide +kernel
  have h2 : ((g (some p) [0, 1]).bind (fun p => (f p []).map (fun y => (y.1, y.2.1, y.2.2.2)))) = some ([], [1], none) := by decide +kernel
  have h3 : ((g (g (some p) [0, 1]) []).bind (fun p => (f p [0, 1]).map (fun y => (y.1, y.2.1, y.2.2.2)))) = some ([0, 1], [0], none) := by
    decide +kernel
  have h4 : ((g (g (g (some p) [0, 1]) []) [0, 1]).bind (fun p => (f p []).map (fun y => (y.1, y.2.1, y.2.2.2)))) =
      some ([], [1], some 2) := by decide +kernel
  have ex : ∀ {o : Option Pool} {h : Pool → Option (List Nat × List Nat × Option Nat)} {y}, o.bind h = some y → ∃ q, o = some q ∧ h q = some y := by
    rintro (_ | q) h y hy
    · cases hy
    · exact ⟨q, rfl, hy⟩
  obtain ⟨p1, e1, h2⟩ := ex h2
  obtain ⟨p2, e2, h3⟩ := ex h3
  obtain ⟨p3, e3, h4⟩ := ex h4
  have e4 : ∃ p4, (f p3 []).map (fun y => y.2.2.1) = some p4 := by
    rcases hx : f p3 [] with _ | y
    · rw [hx] at h4; cases h4
    · exact ⟨y.2.2.1, rfl⟩
  obtain ⟨p4, e4⟩ := e4
  refine ⟨p1, p2, p3, p4, pull h1 _ e1, pull h2 _ ?_, pull h3 _ ?_, pull h4 _ e4⟩
  · rw [e1] at e2; exact e2
  · rw [e2] at e3; exact e3

/-! ### without that condition -/

/-- Two members, one has stopped, what is predicted for the other one is not a number; nothing is selected. -/
structure Stuck (E : OptEnv) (p : Pool) : Prop where
  dim : p.own.info.dim ≠ 0
  queue : p.queue = []
  active : 0 < p.cfg.active
  conds : p.conds = [.own .abort, .own (.error false), .allStopped]
  going : p.stopped = none ∧ p.own.stopRequested = false
  best : p.bestIdx = some 0
  members : ∃ a b k N, p.members = [a, b] ∧ a.stopped = some k ∧ b.stopped = none ∧ b.conds = [.abort, .error false, .maxSteps N] ∧
    b.vis.stepCount < N ∧ b.vis.stopRequested = false ∧ p.cfg.start ≤ b.vis.stepCount ∧ b.vis.capacity ≠ 0 ∧ 2 ≤ b.vis.history.length ∧
    b.vis.trendStep = some b.vis.samples ∧ ∀ k, E.evalLin b.vis.trend k = .nan

theorem Stuck.step {p : Pool} (S : Stuck E p) (ins : Nat → In) : ∃ p', Pool.Step E ins p [] [] p' none ∧ Stuck E p' := by
  obtain ⟨a, b, k, N, hm, ha, hb, hbc, hN, hr, hst, hcap, hh, htr, hnan⟩ := S.members
  have hta : a.testStop E = (a, .ok (some k)) := testStop_latched ha
  have htb : b.testStop E = (b, .ok none) := by
    have : testLoop E 0 b.conds b.vis = (b.vis, .ok none) := by
      rw [hbc]
      simp [testLoop, Cond.test, hr, Nat.not_le.2 hN]
    unfold Opt.testStop
    rw [hb]; dsimp only; rw [this]
    dsimp only
    congr 1
    rw [← hb]
  have hpb : b.vis.predictedFitness E p.cfg.lookAhead = (b.vis, .ok .nan) := by
    unfold Vis.predictedFitness Vis.fitnessTrend
    rw [if_neg hcap, if_pos hh, if_neg (by simp [htr])]
    simp [hnan]
  have hpl : predictLoop E p.cfg p.own.info 0 p.members = ([a, b], .ok [p.own.info.worstFitness, .nan]) := by
    rw [hm]
    simp only [predictLoop, if_pos S.active, hta, htb, if_pos (show b.vis.stepCount ≥ p.cfg.start from hst), hpb]
    rfl
  have hso : SortedOrder p.own.info [p.own.info.worstFitness, .nan] [0, 1] := ⟨List.Perm.refl _, fun h => absurd (by simp) h⟩
  have hfl : fillLoop E p.cfg.concurrent [p.own.info.worstFitness, .nan] [0, 1] [] [a, b] = ([a, b], .ok []) := by
    simp [fillLoop, hta]
  set p₁ := (if p.own.stepCount = 0 then p.signal .start else p).signal .preStep with hp1
  have h1 : p₁.own = p.own ∧ p₁.members = p.members ∧ p₁.cfg = p.cfg ∧ p₁.conds = p.conds ∧ p₁.queue = p.queue ∧
      p₁.bestIdx = p.bestIdx ∧ p₁.stopped = p.stopped := by rw [hp1]; split <;> exact ⟨rfl, rfl, rfl, rfl, rfl, rfl, rfl⟩
  clear_value p₁
  obtain ⟨e1, e2, e3, e4, e5, e6, e7⟩ := h1
  have hbm : ∀ q : Pool, q.bestIdx = some 0 → q.members = [a, b] → q.bestMember = .ok a := by
    intro q h h'; unfold Pool.bestMember; rw [h]; dsimp only; rw [h']; rfl
  have hrf : Refill E p₁ [] { p₁ with members := [a, b], queue := [] } :=
    .fill (by rw [e5, S.queue]) (by rw [e3, e1, e2]; exact hpl) (by rw [e1]; exact hso) (by rw [e3]; exact hfl)
      (fun _ => by rw [hbm p₁ (by rw [e6]; exact S.best) (by rw [e2]; exact hm)]; simp)
  have hloop : ∀ q : Pool, q.bestIdx = some 0 → q.members = [a, b] → q.own.stopRequested = false →
      q.conds = [.own .abort, .own (.error false), .allStopped] → q.stopped = none → q.testStop E = (q, .ok none) := by
    intro q h1 h2 h3 h4 h5
    obtain ⟨v, hv, hvr, hvt⟩ : ∃ v, q.view = .ok v ∧ v.stopRequested = false ∧ (v.trend = q.own.trend ∧ v.trendStep = q.own.trendStep) := by
      unfold Pool.view; rw [hbm q h1 h2]; exact ⟨_, rfl, h3, rfl, rfl⟩
    have hta' : testAll E q.members = (q.members, .ok false) := by
      rw [h2]; simp [testAll, hta, htb]
    have c1 : q.testCond E (.own .abort) = (q, .ok false) := by
      simp only [Pool.testCond, hv, Cond.test, hvr, hvt.1, hvt.2]
    have c2 : q.testCond E (.own (.error false)) = (q, .ok false) := by
      simp only [Pool.testCond, hv, Cond.test, hvt.1, hvt.2]
    have c3 : q.testCond E .allStopped = (q, .ok false) := by
      simp only [Pool.testCond, hta']
    unfold Pool.testStop
    rw [h5, h4]
    simp only [Pool.testLoop, c1, c2, c3]
  have hfut : ({ p₁ with members := [a, b], queue := [] } : Pool).launch.futs = [] := by simp [Pool.launch]
  have st := Pool.Step.mk (ins := ins) (t := ({ p₁ with members := [a, b], queue := [] } : Pool).launch) S.dim (by rw [hm]; simp) hp1 hrf .nil
    ⟨hfut, hfut, rfl⟩
    (hloop _ (by show p₁.bestIdx = _; rw [e6]; exact S.best) rfl (by show p₁.own.stopRequested = _; rw [e1]; exact S.going.2)
      (by show p₁.conds = _; rw [e4]; exact S.conds) (by show p₁.stopped = _; rw [e7]; exact S.going.1))
  rw [hfut] at st
  refine ⟨_, st, ?_⟩
  · refine ⟨?_, ?_, ?_, ?_, ⟨?_, ?_⟩, ?_, a, b, k, N, rfl, ha, hb, hbc, hN, hr, ?_, hcap, hh, htr, hnan⟩
    · show p₁.own.info.dim ≠ 0; rw [e1]; exact S.dim
    · simp [Pool.launch, Pool.signal]
    · show 0 < p₁.cfg.active; rw [e3]; exact S.active
    · show p₁.conds = _; rw [e4]; exact S.conds
    · show p₁.stopped = _; rw [e7]; exact S.going.1
    · show p₁.own.stopRequested = _; rw [e1]; exact S.going.2
    · show p₁.bestIdx = _; rw [e6]; exact S.best
    · show p₁.cfg.start ≤ _; rw [e3]; exact hst

/-- Predictions that are not numbers, as for members all of whose points could not be evaluated (their fitnesses are infinite). -/
def nanEnv : OptEnv := { optEnv with evalLin := fun _ _ => .nan }

/-- A pool of two optimizers with limits of 2 and 100 steps. -/
def stuckPool : Pool := ((Pool.init { window := 10, start := 2, lookAhead := 10 } optInfo).push ((Opt.new optInfo 0).addCond (.maxSteps 2))).push
  ((Opt.new optInfo 0).addCond (.maxSteps 100))

/-- What is needed of the state, as computed. -/
def stuckB (p : Pool) : Bool :=
  decide (p.own.info.dim ≠ 0) && decide (p.queue = []) && decide (0 < p.cfg.active) && decide (p.cfg.start ≤ 2) &&
  (match p.conds with | [.own .abort, .own (.error false), .allStopped] => true | _ => false) &&
  decide (p.stopped = none ∧ p.own.stopRequested = false) && decide (p.bestIdx = some 0) &&
  (match p.members with
    | [a, b] => a.stopped.isSome && decide (b.stopped = none) &&
      (match b.conds with | [.abort, .error false, .maxSteps N] => decide (b.vis.stepCount < N) | _ => false) &&
      decide (b.vis.stopRequested = false) && decide (2 ≤ b.vis.stepCount) && decide (b.vis.capacity ≠ 0) &&
      decide (2 ≤ b.vis.history.length) && decide (b.vis.trendStep = some b.vis.samples)
    | _ => false)

theorem stuckB_sound {p : Pool} (h : stuckB p = true) : Stuck nanEnv p := by
  unfold stuckB at h
  simp only [Bool.and_eq_true, decide_eq_true_eq] at h
  obtain ⟨⟨⟨⟨⟨⟨⟨h1, h2⟩, h3⟩, h4⟩, h5⟩, h6⟩, h7⟩, h8⟩ := h
  refine ⟨h1, h2, h3, ?_, h6, h7, ?_⟩
  · split at h5
    · assumption
    · cases h5
  · split at h8
    · rename_i a b hm
      simp only [Bool.and_eq_true, decide_eq_true_eq] at h8
      obtain ⟨⟨⟨⟨⟨⟨⟨g1, g2⟩, g3⟩, g4⟩, g5⟩, g6⟩, g7⟩, g8⟩ := h8
      obtain ⟨k, hk⟩ := Option.isSome_iff_exists.1 g1
      split at g3
      · rename_i N hN
        exact ⟨a, b, k, N, hm, hk, g2, hN, by simpa using g3, g4, by omega, g6, g7, g8, fun _ => rfl⟩
      · cases g3
    · cases h8

/-- **C97 (finding).** Without the condition on predictions a pool can run forever although every member has a step limit: once there are
predictions that are not numbers (the order of the members is arbitrary then) and another member has stopped, `step` may do nothing and
return null, again and again. -/
theorem C97_livelock : ∃ (E : OptEnv) (cfg : PoolCfg) (ls : List (List Nat × List Nat)) (p : Pool),
    Pool.Hist E (Opt.Limited 100) (Pool.init cfg optInfo) ls p ∧ 0 < cfg.active ∧ 0 < cfg.concurrent ∧
    (∃ m ∈ p.members, m.Going E) ∧
    ∃ σ : Nat → Pool, σ 0 = p ∧ ∀ k, ∃ ins, Pool.Step E ins (σ k) [] [] (σ (k + 1)) none := by
  have h0 : Pool.Hist nanEnv (Opt.Limited 100) (Pool.init { window := 10, start := 2, lookAhead := 10 } optInfo) [] stuckPool :=
    (Pool.Hist.nil.push ⟨⟨false, [.maxSteps 2], rfl⟩, 2, by omega, by simp [Opt.addCond]⟩).push
      ⟨⟨false, [.maxSteps 100], rfl⟩, 100, le_rfl, by simp [Opt.addCond]⟩
  have hd : (match Pool.runs nanEnv [(fitIns (fun _ => some 5), [0, 1]), (fitIns (fun _ => some 5), [0, 1]), (fitIns (fun _ => some 5), [0, 1])]
      stuckPool with | some (_, p) => stuckB p && p.members.any (fun m => decide (m.Going nanEnv)) | none => false) = true := by decide +kernel
  split at hd
  · rename_i ls p hr
    rw [Bool.and_eq_true, List.any_eq_true] at hd
    obtain ⟨hd, m, hm, hg⟩ := hd
    have S := stuckB_sound hd
    have hh := runs_sound _ _ _ [] h0 ls p hr
    let next : { q : Pool // Stuck nanEnv q } → { q : Pool // Stuck nanEnv q } := fun q =>
      ⟨(q.2.step (fitIns (fun _ => some 5))).choose, (q.2.step (fitIns (fun _ => some 5))).choose_spec.2⟩
    refine ⟨nanEnv, _, _, p, hh, by decide, by decide, ⟨m, hm, by simpa using hg⟩, fun k => (next^[k] ⟨p, S⟩).1, rfl, fun k => ?_⟩
    refine ⟨fitIns (fun _ => some 5), ?_⟩
    dsimp only
    rw [Function.iterate_succ_apply']
    exact ((next^[k] ⟨p, S⟩).2.step (fitIns (fun _ => some 5))).choose_spec.1
  · cases hd

end Spot
