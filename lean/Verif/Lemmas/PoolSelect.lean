import Verif.Lemmas.PoolBest

/-! # Which members a pool steps -/

namespace Spot

variable (E : OptEnv)

theorem ft_idem (v : Vis) : (v.fitnessTrend E).1.fitnessTrend E = v.fitnessTrend E := by
  unfold Vis.fitnessTrend
  by_cases h : v.trendStep = some v.samples <;> simp [h]

theorem predicted_ft (v : Vis) (k : Nat) :
    (v.fitnessTrend E).1.predictedFitness E k = ((v.fitnessTrend E).1, (v.predictedFitness E k).2) := by
  have := core_ext (fitnessTrend_core E v)
  unfold Vis.predictedFitness
  rw [ft_idem, this.2.2.2.2.2.2.2.2.2.1, this.2.2.2.2.2.2.2.2.1, this.2.1]
  split
  · rfl
  · split <;> rfl

theorem progress_ft (v : Vis) : (v.fitnessTrend E).1.progress E = ((v.fitnessTrend E).1, (v.progress E).2) := by
  have := core_ext (fitnessTrend_core E v)
  unfold Vis.progress
  rw [ft_idem, this.2.2.2.2.2.2.2.2.2.1, this.2.2.2.2.2.2.2.2.1, this.2.2.2.2.2.2.2.1, this.1]
  split
  · rfl
  · split <;> rfl

theorem predicted_fst (v : Vis) (k : Nat) : (v.predictedFitness E k).1 = v ∨ (v.predictedFitness E k).1 = (v.fitnessTrend E).1 := by
  unfold Vis.predictedFitness
  split
  · exact .inl rfl
  · split
    · exact .inr rfl
    · exact .inl rfl

theorem progress_fst (v : Vis) : (v.progress E).1 = v ∨ (v.progress E).1 = (v.fitnessTrend E).1 := by
  unfold Vis.progress
  split
  · exact .inl rfl
  · split
    · exact .inr rfl
    · exact .inl rfl

theorem test_ft (c : Cond) (v : Vis) : c.test E (v.fitnessTrend E).1 = ((v.fitnessTrend E).1, (c.test E v).2) := by
  have hc := fitnessTrend_core E v
  obtain ⟨h1, h2, h3, h4, h5, h6, h7, h8, h9, h10, h11, h12⟩ := core_ext hc
  cases c with
  | abort => simp [Cond.test, h11]
  | error => simp [Cond.test]
  | flat e => simp only [Cond.test, h2, h6]; split <;> [(split <;> rfl); rfl]
  | target => simp [Cond.test, h1, h3]
  | maxSteps => simp [Cond.test, h2]
  | minProgress p m =>
    simp only [Cond.test, h2, progress_ft]
    rcases hp : v.progress E with ⟨v', r⟩
    cases r <;> split <;> simp
  | predicted f a m =>
    simp only [Cond.test, h2, predicted_ft, h1]
    rcases hp : v.predictedFitness E a with ⟨v', r⟩
    cases r <;> split <;> simp
  | custom w a t =>
    cases a
    · simp [Cond.test, hc]
    · simp [Cond.test, ft_idem]

theorem test_fst (c : Cond) (v : Vis) : (c.test E v).1 = v ∨ (c.test E v).1 = (v.fitnessTrend E).1 := by
  cases c with
  | abort => exact .inl rfl
  | error => exact .inl rfl
  | flat e => simp only [Cond.test]; split <;> [(split <;> exact .inl rfl); exact .inl rfl]
  | target => exact .inl rfl
  | maxSteps => exact .inl rfl
  | minProgress p m =>
    have := progress_fst E v
    simp only [Cond.test]
    split
    · rcases hp : v.progress E with ⟨v', r⟩
      rw [hp] at this
      cases r <;> exact this
    · exact .inl rfl
  | predicted f a m =>
    have := predicted_fst E v a
    simp only [Cond.test]
    split
    · rcases hp : v.predictedFitness E a with ⟨v', r⟩
      rw [hp] at this
      cases r <;> exact this
    · exact .inl rfl
  | custom w a t =>
    cases a
    · exact .inl rfl
    · exact .inr rfl

theorem testLoop_ft (cs : List Cond) : ∀ (k : Nat) (v : Vis),
    testLoop E k cs (v.fitnessTrend E).1 = ((v.fitnessTrend E).1, (testLoop E k cs v).2) := by
  induction cs with
  | nil => intro k v; rfl
  | cons c cs ih =>
    intro k v
    simp only [testLoop]
    rw [test_ft]
    rcases hc : c.test E v with ⟨v', r⟩
    have := test_fst E c v
    rw [hc] at this
    cases r with
    | ok b =>
      cases b
      · dsimp only
        rw [ih]
        rcases this with rfl | rfl
        · rfl
        · rw [ih]
      · rfl
    | err => rfl
    | ub => rfl

theorem testLoop_fst (cs : List Cond) : ∀ (k : Nat) (v : Vis),
    (testLoop E k cs v).1 = v ∨ (testLoop E k cs v).1 = (v.fitnessTrend E).1 := by
  induction cs with
  | nil => intro k v; exact .inl rfl
  | cons c cs ih =>
    intro k v
    simp only [testLoop]
    rcases hc : c.test E v with ⟨v', r⟩
    have := test_fst E c v
    rw [hc] at this
    cases r with
    | ok b =>
      cases b
      · dsimp only
        rcases this with rfl | rfl
        · exact ih _ _
        · rw [testLoop_ft]; exact .inr rfl
      · exact this
    | err => exact this
    | ub => exact this

/-- Filling the cache of the trend does not change the result of a test. -/
theorem testStop_ft {m m' : Opt} (hc : m'.conds = m.conds) (hs : m'.stopped = m.stopped)
    (hv : m'.vis = m.vis ∨ m'.vis = (m.vis.fitnessTrend E).1) : (m'.testStop E).2 = (m.testStop E).2 := by
  unfold Opt.testStop
  rw [hs, hc]
  cases m.stopped with
  | some k => rfl
  | none =>
    have : (testLoop E 0 m.conds m'.vis).2 = (testLoop E 0 m.conds m.vis).2 := by
      rcases hv with h | h <;> rw [h]
      rw [testLoop_ft]
    dsimp only
    rcases h1 : testLoop E 0 m.conds m'.vis with ⟨v1, r1⟩
    rcases h2 : testLoop E 0 m.conds m.vis with ⟨v2, r2⟩
    rw [h1, h2] at this
    dsimp only at this
    subst this
    cases r1 with
    | ok b => cases b <;> rfl
    | err => rfl
    | ub => rfl

/-- Testing the stop conditions again gives the same result. -/
theorem testStop_again (m : Opt) (r : Option Nat) (h : (m.testStop E).2 = .ok r) : ((m.testStop E).1.testStop E).2 = .ok r := by
  cases r with
  | some k =>
    unfold Opt.testStop at h
    rcases hs : m.stopped with _ | j
    · rw [hs] at h
      dsimp only at h
      rcases h1 : testLoop E 0 m.conds m.vis with ⟨v1, r1⟩
      rw [h1] at h
      cases r1 with
      | ok b =>
        cases b with
        | none => cases h
        | some j =>
          cases h
          have : (m.testStop E).1.stopped = some k := by unfold Opt.testStop; rw [hs]; dsimp only; rw [h1]; rfl
          generalize (m.testStop E).1 = u at this
          unfold Opt.testStop
          rw [this]
      | err => cases h
      | ub => cases h
    · rw [hs] at h
      cases h
      have : (m.testStop E).1 = m := by unfold Opt.testStop; rw [hs]
      rw [this]; unfold Opt.testStop; rw [hs]
  | none =>
    have hs : m.stopped = none := by
      unfold Opt.testStop at h
      split at h
      · cases h
      · assumption
    have hm : (m.testStop E).1 = { m with vis := (testLoop E 0 m.conds m.vis).1 } := by
      unfold Opt.testStop at h ⊢
      rw [hs] at h ⊢
      dsimp only at h ⊢
      rcases h1 : testLoop E 0 m.conds m.vis with ⟨v1, r1⟩
      rw [h1] at h
      cases r1 with
      | ok b => cases b with
        | none => rfl
        | some => cases h
      | err => cases h
      | ub => cases h
    rw [← h]
    exact testStop_ft E (by rw [hm]) (by rw [hm]) (by rw [hm]; exact testLoop_fst E _ _ _)

theorem predictLoop_spec (cfg : PoolCfg) (info : ObjInfo) : ∀ (ms : List Opt) (n : Nat) (ms' : List Opt) (preds : List Dbl),
    predictLoop E cfg info n ms = (ms', .ok preds) → preds.length = ms.length ∧ ms'.length = ms.length ∧
      ∀ (i : Nat) (m : Opt) (x : Dbl), ms'[i]? = some m → preds[i]? = some x → x = info.worstFitness ∨ (m.testStop E).2 = .ok none := by
  intro ms
  induction ms with
  | nil => intro n ms' preds h; cases h; simp
  | cons m ms ih =>
    intro n ms' preds h
    have fin : ∀ (m' : Opt) (x : Dbl) (n' : Nat), (x = info.worstFitness ∨ (m'.testStop E).2 = .ok none) →
        ((m' :: (predictLoop E cfg info n' ms).1, (predictLoop E cfg info n' ms).2 >>= fun xs => Res.ok (x :: xs)) = (ms', .ok preds)) →
        preds.length = (m :: ms).length ∧ ms'.length = (m :: ms).length ∧
        ∀ (i : Nat) (m : Opt) (x : Dbl), ms'[i]? = some m → preds[i]? = some x → x = info.worstFitness ∨ (m.testStop E).2 = .ok none := by
      intro m' x n' hx h
      rcases hr : predictLoop E cfg info n' ms with ⟨ms1, r1⟩
      rw [hr] at h
      cases r1 with
      | ok xs =>
        cases h
        obtain ⟨h1, h2, h3⟩ := ih n' ms1 xs hr
        refine ⟨by simp [h1], by simp [h2], ?_⟩
        intro i m2 x2 hm2 hx2
        cases i with
        | zero => simp at hm2 hx2; subst hm2; subst hx2; exact hx
        | succ i => exact h3 i m2 x2 (by simpa using hm2) (by simpa using hx2)
      | err => cases h
      | ub => cases h
    simp only [predictLoop] at h
    split at h
    · split at h
      · rename_i m' heq
        have hnone : (m.testStop E).2 = .ok none := by rw [heq]
        have hm' : (m'.testStop E).2 = .ok none := by
          have := testStop_again E m none hnone; rw [heq] at this; exact this
        by_cases hs : m'.vis.stepCount ≥ cfg.start
        · simp only [if_pos hs] at h
          rcases hp : m'.vis.predictedFitness E cfg.lookAhead with ⟨v, r⟩
          rw [hp] at h
          cases r with
          | ok x =>
            refine fin _ x (n + 1) (.inr ?_) h
            have hv := predicted_fst E m'.vis cfg.lookAhead
            rw [hp] at hv
            exact (testStop_ft E (m := m') (m' := { m' with vis := v }) rfl rfl hv).trans hm'
          | err => cases h
          | ub => cases h
        · simp only [if_neg hs] at h
          exact fin _ _ (n + 1) (.inr hm') h
      · exact fin _ _ n (.inl rfl) h
      · cases h
      · cases h
    · exact fin _ _ n (.inl rfl) h

/-- Without predictions, the first member that has not stopped gets the best priority. -/
theorem predictLoop_best (cfg : PoolCfg) (info : ObjInfo) : ∀ (ms : List Opt) (n : Nat) (ms' : List Opt) (preds : List Dbl),
    predictLoop E cfg info n ms = (ms', .ok preds) → (∀ m ∈ ms, m.vis.stepCount < cfg.start) →
      (∀ x ∈ preds, x = info.worstFitness ∨ x = info.bestFitness) ∧
      (n < cfg.active → (∃ m ∈ ms, (m.testStop E).2 = .ok none) → info.bestFitness ∈ preds) := by
  intro ms
  induction ms with
  | nil => intro n ms' preds h hs; cases h; simp
  | cons m ms ih =>
    intro n ms' preds h hst
    have hst' : ∀ m ∈ ms, m.vis.stepCount < cfg.start := fun m hm => hst m (by simp [hm])
    have fin : ∀ (m' : Opt) (x : Dbl) (n' : Nat), 
        ((m' :: (predictLoop E cfg info n' ms).1, (predictLoop E cfg info n' ms).2 >>= fun xs => Res.ok (x :: xs)) = (ms', .ok preds)) →
        ∃ xs, preds = x :: xs ∧ predictLoop E cfg info n' ms = ((predictLoop E cfg info n' ms).1, .ok xs) := by
      intro m' x n' h
      rcases hr : predictLoop E cfg info n' ms with ⟨ms1, r1⟩
      rw [hr] at h
      cases r1 with
      | ok xs => cases h; exact ⟨xs, rfl, rfl⟩
      | err => cases h
      | ub => cases h
    simp only [predictLoop] at h
    split at h
    · rename_i hn
      split at h
      · rename_i m' heq
        have hnone : (m.testStop E).2 = .ok none := by rw [heq]
        have hsc : ¬ m'.vis.stepCount ≥ cfg.start := by
          have := (core_ext (testStop_core E m)).2.1
          rw [heq] at this
          have h2 := hst m (by simp)
          dsimp only at this
          omega
        simp only [if_neg hsc] at h
        obtain ⟨xs, rfl, h1⟩ := fin _ _ _ h
        refine ⟨?_, fun _ _ => by simp⟩
        intro x hx
        rcases List.mem_cons.1 hx with rfl | hx
        · exact .inr rfl
        · exact (ih _ _ _ h1 hst').1 x hx
      · rename_i m' k heq
        obtain ⟨xs, rfl, h1⟩ := fin _ _ _ h
        refine ⟨?_, fun hn ⟨u, hu, hu'⟩ => ?_⟩
        · intro x hx
          rcases List.mem_cons.1 hx with rfl | hx
          · exact .inl rfl
          · exact (ih _ _ _ h1 hst').1 x hx
        · rcases List.mem_cons.1 hu with rfl | hu
          · rw [heq] at hu'; cases hu'
          · exact List.mem_cons_of_mem _ ((ih _ _ _ h1 hst').2 hn ⟨u, hu, hu'⟩)
      · cases h
      · cases h
    · rename_i hn
      obtain ⟨xs, rfl, h1⟩ := fin _ _ _ h
      refine ⟨?_, fun hn' => absurd hn' hn⟩
      intro x hx
      rcases List.mem_cons.1 hx with rfl | hx
      · exact .inl rfl
      · exact (ih _ _ _ h1 hst').1 x hx

theorem fillLoop_spec (c : Nat) (preds : List Dbl) : ∀ (is q : List Nat) (ms ms' : List Opt) (q' : List Nat), is.Nodup →
    fillLoop E c preds is q ms = (ms', .ok q') →
    ∃ pre, pre <+: is ∧ q' = q ++ pre ∧ (∀ j, j ∉ is → ms'[j]? = ms[j]?) ∧
      (∀ i ∈ pre, ∃ m, ms'[i]? = some m ∧ (m.testStop E).2 = .ok none) ∧
      (∀ (i : Nat) (t : List Nat) (m : Opt), is = i :: t → ms[i]? = some m → (m.testStop E).2 = .ok none → pre ≠ []) := by
  intro is
  induction is with
  | nil => intro q ms ms' q' hnd h; cases h; exact ⟨[], by simp⟩
  | cons i is ih =>
    intro q ms ms' q' hnd h
    unfold fillLoop at h
    split at h
    · cases h
    · rename_i m hm
      have hl : i < ms.length := (List.getElem?_eq_some_iff.1 hm).1
      split at h
      · rename_i m' k heq
        cases h
        refine ⟨[], by simp, by simp, ?_, by simp, ?_⟩
        · intro j hj
          rw [List.getElem?_set_ne (by rintro rfl; simp at hj)]
        · rintro i' t m2 he hm2 hn
          cases he
          rw [hm] at hm2; cases hm2
          rw [heq] at hn; cases hn
      · rename_i m' heq
        have hnone : (m.testStop E).2 = .ok none := by rw [heq]
        have hm' : (m'.testStop E).2 = .ok none := by
          have := testStop_again E m none hnone; rw [heq] at this; exact this
        dsimp only at h
        have hni : i ∉ is := (List.nodup_cons.1 hnd).1
        split at h
        · cases h
          refine ⟨[i], by simp, rfl, ?_, ?_, by simp⟩
          · intro j hj
            rw [List.getElem?_set_ne (by rintro rfl; simp at hj)]
          · intro j hj
            simp at hj; subst hj
            exact ⟨m', by simp [hl], hm'⟩
        · obtain ⟨pre, h1, h2, h3, h4, h5⟩ := ih _ _ _ _ (List.nodup_cons.1 hnd).2 h
          refine ⟨i :: pre, by simpa using h1, by simp [h2], ?_, ?_, by simp⟩
          · intro j hj
            rw [h3 j (by simp at hj; exact hj.2), List.getElem?_set_ne (by rintro rfl; simp at hj)]
          · intro j hj
            rcases List.mem_cons.1 hj with rfl | hj
            · exact ⟨m', by rw [h3 j hni]; simp [hl], hm'⟩
            · exact h4 j hj
      · cases h
      · cases h

/-- The members put into the queue are different and have not stopped. -/
theorem refill_sel {p p' : Pool} {sel : List Nat} (h : Refill E p sel p') :
    sel.Nodup ∧ (∀ i ∈ sel, ∃ m, p'.members[i]? = some m ∧ (m.testStop E).2 = .ok none) ∧ (p.queue ≠ [] → sel = []) := by
  cases h with
  | keep h => simp
  | @fill ms ms' preds ord q h hp ho hf hb =>
    have hnd : ord.Nodup := ho.1.nodup_iff.2 List.nodup_range
    obtain ⟨pre, h1, h2, h3, h4, h5⟩ := fillLoop_spec E _ _ _ _ _ _ _ hnd hf
    simp only [List.nil_append] at h2
    subst h2
    exact ⟨hnd.sublist h1.sublist, h4, fun hn => absurd h hn⟩

/-- If there is no NaN among the predictions and one is better than the worst fitness, some member is selected. -/
theorem fill_progress {p : Pool} {ms ms' : List Opt} {preds : List Dbl} {ord q : List Nat}
    (hp : predictLoop E p.cfg p.own.info 0 p.members = (ms, .ok preds)) (ho : SortedOrder p.own.info preds ord)
    (hf : fillLoop E p.cfg.concurrent preds ord [] ms = (ms', .ok q)) (hn : Dbl.nan ∉ preds)
    (hx : ∃ x ∈ preds, p.own.info.isBetter x p.own.info.worstFitness = true) : q ≠ [] := by
  have hnd : ord.Nodup := ho.1.nodup_iff.2 List.nodup_range
  obtain ⟨pre, h1, h2, h3, h4, h5⟩ := fillLoop_spec E _ _ _ _ _ _ _ hnd hf
  simp only [List.nil_append] at h2
  subst h2
  obtain ⟨hl1, hl2, hw⟩ := predictLoop_spec E _ _ _ _ _ _ hp
  obtain ⟨x, hx, hxw⟩ := hx
  obtain ⟨k, hk⟩ := List.getElem?_of_mem hx
  have hkl : k < preds.length := (List.getElem?_eq_some_iff.1 hk).1
  have hko : k ∈ ord := ho.1.mem_iff.2 (List.mem_range.2 hkl)
  cases ord with
  | nil => simp at hko
  | cons i t =>
    have hil : i < preds.length := List.mem_range.1 (ho.1.mem_iff.1 (List.mem_cons_self ..))
    have hgi := List.getElem?_eq_getElem hil
    have hgm := List.getElem?_eq_getElem (show i < ms.length by omega)
    refine h5 i t _ rfl hgm ?_
    rcases hw i _ _ hgm hgi with hww | hww
    · exfalso
      rcases List.mem_cons.1 hko with rfl | hkt
      · rw [hgi] at hk; cases hk
        rw [hww, better_irrefl] at hxw; cases hxw
      · have := (List.pairwise_cons.1 (ho.2 hn)).1 k hkt _ _ hgi hk
        rw [hww, hxw] at this; cases this
    · exact hww

/-- The order in which members are selected and stepped. -/
structure QueueInv (ls : List (List Nat × List Nat)) (c : Nat) (p : Pool) : Prop where
  fifo : ls.flatMap (·.1) = ls.flatMap (·.2) ++ p.queue
  nodup : p.queue.Nodup
  conc : p.cfg.concurrent = c
  each : ∀ l ∈ ls, l.1.Nodup ∧ l.2.Nodup ∧ l.2.length ≤ c

theorem exec_queue {ins : Nat → In} {r t : RunSt} (hr : RunExec E ins r t) : t.pool.queue = r.pool.queue ∧ t.pool.cfg = r.pool.cfg ∧
    t.pool.conds = r.pool.conds ∧ t.pool.stopped = r.pool.stopped := by
  induction hr with
  | nil => exact ⟨rfl, rfl, rfl, rfl⟩
  | snoc _ st ih =>
    obtain ⟨h1, h2, h3, h4⟩ := ih
    cases st with
    | finish => exact ⟨h1, h2, h3, h4⟩
    | fail => exact ⟨h1, h2, h3, h4⟩
    | collect h hr hf hc =>
      have := collect_fields hc
      exact ⟨this.2.2.1.trans h1, this.2.2.2.1.trans h2, this.2.2.2.2.1.trans h3, this.2.2.2.2.2.trans h4⟩
    | throws h hr hf hc =>
      have := collect_fields hc
      exact ⟨this.2.2.1.trans h1, this.2.2.2.1.trans h2, this.2.2.2.2.1.trans h3, this.2.2.2.2.2.trans h4⟩
    | rethrow => exact ⟨h1, h2, h3, h4⟩
    | interrupt => exact ⟨h1, h2, h3, h4⟩

theorem QueueInv.hist {P : Opt → Prop} {p p' : Pool} {ls : List (List Nat × List Nat)} (h : Pool.Hist E P p ls p')
    (I : QueueInv [] p.cfg.concurrent p) : QueueInv ls p.cfg.concurrent p' := by
  induction h with
  | nil => exact I
  | @step q q' ls sel run ins r h st ih =>
    cases st with
    | @mk p₁ p₂ _ t _ _ hd hne h1 h2 h3 hend h4 =>
      have hf := poolTest_fields E { t.pool.signal .postStep with own := { t.pool.own with stepCount := t.pool.own.stepCount + 1 } }
      rw [h4] at hf
      have hx := exec_queue E h3
      have h1q : p₁.queue = q.queue ∧ p₁.cfg = q.cfg := by rw [h1]; split <;> exact ⟨rfl, rfl⟩
      obtain ⟨f1, f2, f3, f4, f5, f6, f7, f8, f9⟩ := refill_fields h2
      obtain ⟨g1, g2, g3⟩ := refill_sel E h2
      have hq : q'.queue = p₂.queue.drop p₂.cfg.concurrent := hf.2.2.1.trans hx.1
      have hcf : q'.cfg = q.cfg := (hf.2.2.2.1.trans hx.2.1).trans (f3.trans h1q.2)
      have hnd2 : p₂.queue.Nodup := by
        rw [f8]
        by_cases hqe : p₁.queue = []
        · rw [hqe]; simpa using g1
        · rw [g3 hqe, h1q.1]; simpa using ih.nodup
      refine ⟨?_, ?_, ?_, ?_⟩
      · simp only [List.flatMap_append, List.flatMap_cons, List.flatMap_nil, List.append_nil, hq]
        rw [ih.fifo, List.append_assoc, List.append_assoc]
        congr 1
        show q.queue ++ sel = p₂.queue.take p₂.cfg.concurrent ++ p₂.queue.drop p₂.cfg.concurrent
        rw [List.take_append_drop, f8, h1q.1]
      · rw [hq]; exact hnd2.sublist (List.drop_sublist _ _)
      · rw [hcf]; exact ih.conc
      · intro l hl
        rcases List.mem_append.1 hl with hl | hl
        · exact ih.each l hl
        · simp only [List.mem_singleton] at hl
          subst hl
          refine ⟨g1, hnd2.sublist (List.take_sublist _ _), ?_⟩
          show (p₂.queue.take p₂.cfg.concurrent).length ≤ _
          rw [f3, h1q.2, ih.conc, List.length_take]
          exact Nat.min_le_left _ _
  | push h hm ih => exact ⟨ih.fifo, ih.nodup, ih.conc, ih.each⟩
  | addCond h ih => exact ⟨ih.fifo, ih.nodup, ih.conc, ih.each⟩
  | interrupt h ih => exact ⟨ih.fifo, ih.nodup, ih.conc, ih.each⟩
  | test h ih =>
    have hf := poolTest_fields E ‹Pool›
    refine ⟨?_, ?_, ?_, ih.each⟩
    · rw [hf.2.2.1]; exact ih.fifo
    · rw [hf.2.2.1]; exact ih.nodup
    · rw [hf.2.2.2.1]; exact ih.conc

end Spot
