import Verif.Props.PoolCases

/-! # Which members a pool selects (C71), and what stays stopped (C42) -/

namespace Spot

variable (E : OptEnv)

/-- No stop condition of the member holds. -/
def Opt.Going (m : Opt) : Prop := (m.testStop E).2 = .ok none

instance (m : Opt) : Decidable (m.Going E) := inferInstanceAs (Decidable (_ = _))

theorem going_predicted {m : Opt} (h : m.Going E) (k : Nat) :
    ((m.testStop E).1.vis.predictedFitness E k).2 = (m.vis.predictedFitness E k).2 := by
  have hv : (m.testStop E).1.vis = m.vis ∨ (m.testStop E).1.vis = (m.vis.fitnessTrend E).1 := by
    unfold Opt.Going at h
    unfold Opt.testStop at h ⊢
    split
    · exact .inl rfl
    · rename_i hs
      rw [hs] at h
      dsimp only at h
      rcases h1 : testLoop E 0 m.conds m.vis with ⟨v1, r1⟩
      have := testLoop_fst E m.conds 0 m.vis
      rw [h1] at this h
      cases r1 with
      | ok b =>
        cases b with
        | none => exact this
        | some k => cases h
      | err => cases h
      | ub => cases h
  rcases hv with hv | hv <;> rw [hv]
  rw [predicted_ft]

/-- What `compute_predicted_fitnesses` is meant to compute: among the members that have not stopped, the first `active` count. Of those,
the ones with enough steps get the fitness predicted for them, the others the best fitness there is. All other members get the worst. -/
def Priorities (cfg : PoolCfg) (info : ObjInfo) (ms : List Opt) (preds : List Dbl) : Prop :=
  preds.length = ms.length ∧ ∀ (i : Nat) (m : Opt) (x : Dbl), ms[i]? = some m → preds[i]? = some x →
    if m.Going E ∧ ((ms.take i).filter (fun m => decide (m.Going E))).length < cfg.active then
      (if cfg.start ≤ m.vis.stepCount then (m.vis.predictedFitness E cfg.lookAhead).2 = .ok x else x = info.bestFitness)
    else x = info.worstFitness

theorem predictLoop_priorities (cfg : PoolCfg) (info : ObjInfo) : ∀ (ms : List Opt) (n : Nat) (ms' : List Opt) (preds : List Dbl),
    predictLoop E cfg info n ms = (ms', .ok preds) → preds.length = ms.length ∧
    ∀ (i : Nat) (m : Opt) (x : Dbl), ms[i]? = some m → preds[i]? = some x →
    if m.Going E ∧ n + ((ms.take i).filter (fun m => decide (m.Going E))).length < cfg.active then
      (if cfg.start ≤ m.vis.stepCount then (m.vis.predictedFitness E cfg.lookAhead).2 = .ok x else x = info.bestFitness)
    else x = info.worstFitness := by
  intro ms
  induction ms with
  | nil => intro n ms' preds h; cases h; simp
  | cons m ms ih =>
    intro n ms' preds h
    have fin : ∀ (m' : Opt) (x : Dbl) (n' : Nat),
        (if m.Going E ∧ n < cfg.active then
          (if cfg.start ≤ m.vis.stepCount then (m.vis.predictedFitness E cfg.lookAhead).2 = .ok x else x = info.bestFitness)
         else x = info.worstFitness) →
        ((n < cfg.active ∧ n' = n + (if m.Going E then 1 else 0)) ∨ (cfg.active ≤ n ∧ n' = n)) →
        ((m' :: (predictLoop E cfg info n' ms).1, (predictLoop E cfg info n' ms).2 >>= fun xs => Res.ok (x :: xs)) = (ms', .ok preds)) →
        preds.length = (m :: ms).length ∧
        ∀ (i : Nat) (m1 : Opt) (x : Dbl), (m :: ms)[i]? = some m1 → preds[i]? = some x →
        if m1.Going E ∧ n + (((m :: ms).take i).filter (fun m => decide (m.Going E))).length < cfg.active then
          (if cfg.start ≤ m1.vis.stepCount then (m1.vis.predictedFitness E cfg.lookAhead).2 = .ok x else x = info.bestFitness)
        else x = info.worstFitness := by
      intro m' x n' hx hn' h
      rcases hr : predictLoop E cfg info n' ms with ⟨ms1, r1⟩
      rw [hr] at h
      cases r1 with
      | ok xs =>
        cases h
        obtain ⟨h1, h3⟩ := ih n' ms1 xs hr
        refine ⟨by simp [h1], ?_⟩
        intro i m2 x2 hm2 hx2
        cases i with
        | zero =>
          simp only [List.getElem?_cons_zero, Option.some.injEq] at hm2 hx2
          subst hm2; subst hx2
          simpa using hx
        | succ i =>
          have h4 := h3 i m2 x2 (by simpa using hm2) (by simpa using hx2)
          have e : (m2.Going E ∧ n + (((m :: ms).take (i + 1)).filter (fun m => decide (m.Going E))).length < cfg.active) ↔
              (m2.Going E ∧ n' + ((ms.take i).filter (fun m => decide (m.Going E))).length < cfg.active) := by
            rw [List.take_succ_cons, List.filter_cons]
            rcases hn' with ⟨a, b⟩ | ⟨a, b⟩
            · by_cases hg : m.Going E
              · simp only [hg, decide_true, if_true, List.length_cons] at b ⊢
                constructor <;> rintro ⟨u, v⟩ <;> exact ⟨u, by omega⟩
              · simp only [hg, decide_false, if_false] at b ⊢
                constructor <;> rintro ⟨u, v⟩ <;> refine ⟨u, ?_⟩ <;> simp_all
            · constructor <;> rintro ⟨u, v⟩ <;> omega
          by_cases hc : m2.Going E ∧ n' + ((ms.take i).filter (fun m => decide (m.Going E))).length < cfg.active
          · rw [if_pos (e.2 hc)]; rw [if_pos hc] at h4; exact h4
          · rw [if_neg (fun c => hc (e.1 c))]; rw [if_neg hc] at h4; exact h4
      | err => cases h
      | ub => cases h
    simp only [predictLoop] at h
    split at h
    · rename_i hn
      split at h
      · rename_i m' heq
        have hg : m.Going E := by unfold Opt.Going; rw [heq]
        have hsc : m'.vis.stepCount = m.vis.stepCount := by
          have := (core_ext (testStop_core E m)).2.1; rw [heq] at this; exact this
        have hgp := going_predicted E hg cfg.lookAhead
        rw [heq] at hgp
        dsimp only at hgp
        by_cases hs : m'.vis.stepCount ≥ cfg.start
        · simp only [if_pos hs] at h
          rcases hp : m'.vis.predictedFitness E cfg.lookAhead with ⟨v, r⟩
          rw [hp] at h
          cases r with
          | ok x =>
            refine fin _ x (n + 1) ?_ (.inl ⟨hn, by rw [if_pos hg]⟩) h
            rw [if_pos ⟨hg, hn⟩, if_pos (by omega), ← hgp, hp]
          | err => cases h
          | ub => cases h
        · simp only [if_neg hs] at h
          refine fin _ _ (n + 1) ?_ (.inl ⟨hn, by rw [if_pos hg]⟩) h
          rw [if_pos ⟨hg, hn⟩, if_neg (by omega)]
      · rename_i m' k heq
        have hg : ¬ m.Going E := by unfold Opt.Going; rw [heq]; simp
        refine fin _ _ n ?_ (.inl ⟨hn, by rw [if_neg hg]; rfl⟩) h
        rw [if_neg (fun c => hg c.1)]
      · cases h
      · cases h
    · rename_i hn
      refine fin _ _ n ?_ (.inr ⟨by omega, rfl⟩) h
      rw [if_neg (fun c => hn c.2)]

/-- How far the loop that fills the queue goes: to the first member that has stopped, the end, or the first change of the prediction
after `concurrent` members. -/
theorem fillLoop_extent (c : Nat) (preds : List Dbl) : ∀ (is q : List Nat) (ms ms' : List Opt) (q' : List Nat),
    is.Nodup → fillLoop E c preds is q ms = (ms', .ok q') → ∃ pre rest, is = pre ++ rest ∧ q' = q ++ pre ∧
      (∀ (k : Nat) (i j : Nat), c ≤ q.length + k + 1 → pre[k]? = some i → pre[k + 1]? = some j → nextDiffers preds i [j] = false) ∧
      (rest = [] ∨ (∃ j t m, rest = j :: t ∧ ms[j]? = some m ∧ ∃ r, (m.testStop E).2 = .ok (some r)) ∨
        (c ≤ (q ++ pre).length ∧ ∃ i j t, pre.getLast? = some i ∧ rest = j :: t ∧ nextDiffers preds i [j] = true)) := by
  intro is
  induction is with
  | nil => intro q ms ms' q' hnd h; cases h; exact ⟨[], [], rfl, by simp, by simp, .inl rfl⟩
  | cons i is ih =>
    intro q ms ms' q' hnd h
    unfold fillLoop at h
    split at h
    · cases h
    · rename_i m hm
      split at h
      · rename_i m' k heq
        cases h
        exact ⟨[], i :: is, rfl, by simp, by simp, .inr (.inl ⟨i, is, m, rfl, hm, k, by rw [heq]⟩)⟩
      · rename_i m' heq
        dsimp only at h
        split at h
        · rename_i hc
          cases h
          rw [Bool.and_eq_true, decide_eq_true_eq] at hc
          refine ⟨[i], is, rfl, rfl, by simp, .inr (.inr ⟨hc.2, ?_⟩)⟩
          cases is with
          | nil => simp [nextDiffers] at hc
          | cons j t => exact ⟨i, j, t, rfl, rfl, hc.1⟩
        · rename_i hc
          obtain ⟨pre, rest, h1, h2, h3, h4⟩ := ih _ _ _ _ (List.nodup_cons.1 hnd).2 h
          refine ⟨i :: pre, rest, by rw [h1]; rfl, by simp [h2], ?_, ?_⟩
          · intro k a b hk ha hb
            cases k with
            | zero =>
              simp only [List.getElem?_cons_zero, Option.some.injEq] at ha
              subst ha
              rw [Bool.not_eq_true, Bool.and_eq_false_iff] at hc
              cases pre with
              | nil => simp at hb
              | cons j pre =>
                simp at hb; subst hb
                rw [h1] at hc
                rcases hc with hc | hc
                · exact hc
                · rw [decide_eq_false_iff_not] at hc
                  simp only [List.length_append, List.length_cons, List.length_nil] at hc
                  omega
            | succ k =>
              refine h3 k a b ?_ (by simpa using ha) (by simpa using hb)
              simp only [List.length_append, List.length_cons, List.length_nil]; omega
          · rcases h4 with h4 | ⟨j, t, m2, h5, h6, h7⟩ | ⟨h5, a, b, t, h6, h7, h8⟩
            · exact .inl h4
            · refine .inr (.inl ⟨j, t, m2, h5, ?_, h7⟩)
              rw [List.getElem?_set_ne] at h6
              · exact h6
              · rintro rfl
                have := (List.nodup_cons.1 hnd).1
                rw [h1, h5] at this
                simp at this
            · refine .inr (.inr ⟨by simpa using h5, a, b, t, ?_, h7, h8⟩)
              cases pre with
              | nil => simp at h6
              | cons => simpa [List.getLast?_cons_cons] using h6
      · cases h
      · cases h

/-- **C71.** When a pool selects members to step, it goes by the priorities described by `Priorities`, best first: no member that is left
out has a better priority than one that is selected. -/
theorem C71_best_first {p p' : Pool} {sel : List Nat} (h : Refill E p sel p') (hq : p.queue = []) :
    ∃ preds, Priorities E p.cfg p.own.info p.members preds ∧
      (Dbl.nan ∉ preds → ∀ i ∈ sel, ∀ j, j ∉ sel → ∀ x y, preds[i]? = some x → preds[j]? = some y → p.own.info.isBetter y x = false) := by
  cases h with
  | keep h => exact absurd hq h
  | @fill ms ms' preds ord q h hp ho hf hb =>
    have hpr := predictLoop_priorities E _ _ _ _ _ _ hp
    simp only [Nat.zero_add] at hpr
    refine ⟨preds, hpr, fun hn i hi j hj x y hx hy => ?_⟩
    have hnd : ord.Nodup := ho.1.nodup_iff.2 List.nodup_range
    obtain ⟨pre, rest, h1, h2, -, -⟩ := fillLoop_extent E _ _ _ _ _ _ _ hnd hf
    simp only [List.nil_append] at h2
    subst h2
    have hjo : j ∈ ord := ho.1.mem_iff.2 (List.mem_range.2 (List.getElem?_eq_some_iff.1 hy).1)
    have hs := ho.2 hn
    rw [h1] at hs hjo
    have hjr : j ∈ rest := by
      rcases List.mem_append.1 hjo with h | h
      · exact absurd h hj
      · exact h
    exact (List.pairwise_append.1 hs).2.2 i hi j hjr x y hx hy

/-- Computing the predictions does not change whether a member has stopped. -/
theorem predictLoop_same (cfg : PoolCfg) (info : ObjInfo) : ∀ (ms : List Opt) (n : Nat) (ms' : List Opt) (preds : List Dbl),
    predictLoop E cfg info n ms = (ms', .ok preds) → ∀ (i : Nat) (m' : Opt), ms'[i]? = some m' → ∃ m, ms[i]? = some m ∧ (m'.testStop E).2 = (m.testStop E).2 := by
  intro ms
  induction ms with
  | nil => intro n ms' preds h i m' hm; cases h; simp at hm
  | cons m ms ih =>
    intro n ms' preds h
    have fin : ∀ (m' : Opt) (x : Dbl) (n' : Nat), (m'.testStop E).2 = (m.testStop E).2 →
        ((m' :: (predictLoop E cfg info n' ms).1, (predictLoop E cfg info n' ms).2 >>= fun xs => Res.ok (x :: xs)) = (ms', .ok preds)) →
        ∀ (i : Nat) (m1 : Opt), ms'[i]? = some m1 → ∃ m2, (m :: ms)[i]? = some m2 ∧ (m1.testStop E).2 = (m2.testStop E).2 := by
      intro m' x n' hx h
      rcases hr : predictLoop E cfg info n' ms with ⟨ms1, r1⟩
      rw [hr] at h
      cases r1 with
      | ok xs =>
        cases h
        intro i m1 hm1
        cases i with
        | zero => simp only [List.getElem?_cons_zero, Option.some.injEq] at hm1; subst hm1; exact ⟨m, rfl, hx⟩
        | succ i => exact ih n' ms1 xs hr i m1 (by simpa using hm1)
      | err => cases h
      | ub => cases h
    simp only [predictLoop] at h
    split at h
    · split at h
      · rename_i m' heq
        have hnone : (m.testStop E).2 = .ok none := by rw [heq]
        have hm' : (m'.testStop E).2 = (m.testStop E).2 := by
          have := testStop_again E m none hnone; rw [heq] at this; rw [hnone]; exact this
        by_cases hs : m'.vis.stepCount ≥ cfg.start
        · simp only [if_pos hs] at h
          rcases hp : m'.vis.predictedFitness E cfg.lookAhead with ⟨v, r⟩
          rw [hp] at h
          cases r with
          | ok x =>
            refine fin _ x (n + 1) ?_ h
            have hv := predicted_fst E m'.vis cfg.lookAhead
            rw [hp] at hv
            exact (testStop_ft E (m := m') (m' := { m' with vis := v }) rfl rfl hv).trans hm'
          | err => cases h
          | ub => cases h
        · simp only [if_neg hs] at h
          exact fin _ _ (n + 1) hm' h
      · rename_i m' k heq
        refine fin _ _ n ?_ h
        have hsome : (m.testStop E).2 = .ok (some k) := by rw [heq]
        have := testStop_again E m (some k) hsome
        rw [heq] at this
        rw [hsome]; exact this
      · cases h
      · cases h
    · exact fin _ _ n rfl h

/-- **C71.** It selects at least `concurrent_optimizations` members, unless the next one in the order has stopped or there is none; and
it selects more than that only as long as the priority stays the same. -/
theorem C71_how_many {p p' : Pool} {sel : List Nat} (h : Refill E p sel p') (hq : p.queue = []) :
    ∃ preds, Priorities E p.cfg p.own.info p.members preds ∧
      (sel.length < p.cfg.concurrent → sel.length = p.members.length ∨
        ∃ j m, j ∉ sel ∧ p.members[j]? = some m ∧ (∃ r, (m.testStop E).2 = .ok (some r)) ∧
          ∀ x, preds[j]? = some x → Dbl.nan ∉ preds → ∀ i y, i ∉ sel → preds[i]? = some y → p.own.info.isBetter y x = false) ∧
      (∀ (k i j : Nat) (x y : Dbl), p.cfg.concurrent ≤ k + 1 → sel[k]? = some i → sel[k + 1]? = some j → preds[i]? = some x →
        preds[j]? = some y → Dbl.eq x y = true) := by
  cases h with
  | keep h => exact absurd hq h
  | @fill ms ms' preds ord q h hp ho hf hb =>
    have hpr := predictLoop_priorities E _ _ _ _ _ _ hp
    simp only [Nat.zero_add] at hpr
    have hnd : ord.Nodup := ho.1.nodup_iff.2 List.nodup_range
    obtain ⟨pre, rest, h1, h2, h3, h4⟩ := fillLoop_extent E _ _ _ _ _ _ _ hnd hf
    simp only [List.nil_append] at h2
    subst h2
    refine ⟨preds, hpr, fun hlt => ?_, fun k i j x y hk hi hj hx hy => ?_⟩
    · rcases h4 with h4 | ⟨j, t, m, h5, h6, h7⟩ | ⟨h5, -⟩
      · left
        rw [h4, List.append_nil] at h1
        rw [← h1, ho.1.length_eq, List.length_range, hpr.1]
      · right
        have hjo : j ∈ ord := by rw [h1, h5]; simp
        have hjl := List.mem_range.1 (ho.1.mem_iff.1 hjo)
        rw [h1, h5] at hnd
        obtain ⟨m0, hm0, hst⟩ := predictLoop_same E _ _ _ _ _ _ hp j m h6
        refine ⟨j, m0, ?_, hm0, by rw [← hst]; exact h7, fun x hx hn i y hi hy => ?_⟩
        · intro hj
          exact (List.nodup_append.1 hnd).2.2 j hj j (by simp) rfl
        · have hio : i ∈ ord := ho.1.mem_iff.2 (List.mem_range.2 (List.getElem?_eq_some_iff.1 hy).1)
          have hs := ho.2 hn
          rw [h1, h5] at hs hio
          rcases List.mem_append.1 hio with hm | hm
          · exact absurd hm hi
          · rcases List.mem_cons.1 hm with rfl | hm
            · rw [hx] at hy; cases hy
              unfold ObjInfo.isBetter; split <;> exact Dbl.lt_irrefl _
            · exact (List.pairwise_cons.1 (List.pairwise_append.1 hs).2.1).1 i hm x y hx hy
      · simp only [List.nil_append] at h5; omega
    · have := h3 k i j (by simpa using hk) hi hj
      simp only [nextDiffers, hx, hy, Bool.not_eq_false'] at this
      exact this

theorem collect_stopped {p p' : Pool} {i : Nat} {x : Res Unit} (h : p.collect i = (p', x)) : p'.stopped = p.stopped :=
  (collect_fields h).2.2.2.2.2

/-- A pool of three new members, two at a time: all three are selected, because they have the same priority. -/
example : ∃ p', Refill optEnv (newPool { concurrent := 2 } 3) [2, 0, 1] p' := by
  have h : ((refillWith optEnv [2, 0, 1] (newPool { concurrent := 2 } 3)).map (fun x => x.1)) = some [2, 0, 1] := by decide +kernel
  rw [Option.map_eq_some_iff] at h
  obtain ⟨⟨sel, p'⟩, h1, h2⟩ := h
  dsimp only at h2
  subst h2
  exact ⟨p', refillWith_sound h1⟩

/-- An interrupted pool has stopped (condition 0). -/
example : ((newPool {} 2).interrupt.testStop optEnv).2 = .ok (some 0) := by decide +kernel

/-- **C42.** A pool that has stopped stays stopped, with the same condition, whatever is called. -/
theorem C42_stays_stopped {P : Opt → Prop} {p q : Pool} {ls : List (List Nat × List Nat)} (k : Nat)
    (hk : (p.testStop E).2 = .ok (some k)) (hh : Pool.Hist E P (p.testStop E).1 ls q) : (q.testStop E).2 = .ok (some k) := by
  have h0 : (p.testStop E).1.stopped = some k := by
    unfold Pool.testStop at hk ⊢
    split
    · rename_i j hj
      rw [hj] at hk; cases hk; exact hj
    · rename_i hs
      rw [hs] at hk
      dsimp only at hk
      rcases h1 : Pool.testLoop E 0 p.conds p with ⟨p1, r⟩
      rw [h1] at hk
      cases r with
      | ok b => cases b with
        | none => cases hk
        | some j => cases hk; rfl
      | err => cases hk
      | ub => cases hk
  have key : q.stopped = some k := by
    generalize (p.testStop E).1 = p0 at hh h0
    clear hk
    induction hh with
    | nil => exact h0
    | @step a b ls sel run ins r h st ih =>
      cases st with
      | @mk p₁ p₂ _ t _ _ hd hne h1 h2 h3 hend h4 =>
        have e1 : p₁.stopped = a.stopped := by rw [h1]; split <;> rfl
        have e2 : p₂.stopped = p₁.stopped := by cases h2 <;> rfl
        have e3 : t.pool.stopped = p₂.stopped := by
          have : ∀ {r t : RunSt}, RunExec E ins r t → t.pool.stopped = r.pool.stopped := by
            intro r t h
            induction h with
            | nil => rfl
            | snoc _ st ih =>
              cases st with
              | finish => exact ih
              | fail => exact ih
              | collect h hr hf hc => rw [← ih]; exact collect_stopped hc
              | throws h hr hf hc => rw [← ih]; exact collect_stopped hc
              | rethrow => exact ih
              | interrupt => exact ih
          exact this h3
        have e4 : ({ t.pool.signal .postStep with own := { t.pool.own with stepCount := t.pool.own.stepCount + 1 } } : Pool).stopped = some k := by
          show t.pool.stopped = some k
          rw [e3, e2, e1]; exact ih
        unfold Pool.testStop at h4
        rw [e4] at h4
        cases h4
        exact e4
    | push h hm ih => exact ih
    | addCond h ih => exact ih
    | interrupt h ih => exact ih
    | @test a ls h ih => unfold Pool.testStop; rw [ih]; exact ih
  unfold Pool.testStop
  rw [key]

end Spot
