import Verif.Lemmas.PoolMark
import Verif.Model.PoolSession
import Verif.Props.Pool
import Verif.Props.PoolEnd
import Verif.Props.PoolSelect
import Verif.Props.Session

/-!
# C108: complete optimizations with a pool

C40 - C42 and C97 say how a pool treats any optimizers. Here its members work on one objective: what `best_point` and `best_fitness` of the pool are, in terms of the objective, and what
`run` of a pool does.
-/

namespace Spot

/-- A population within the bounds, evaluated with the objective `F`. -/
def In.Plays (nan : Prop) (F : Pt → Option Dbl) (info : ObjInfo) (i : In) : Prop :=
  i.pop ≠ [] ∧ (∀ x ∈ i.pop, EvaluatedWithin nan info x) ∧ i.res = i.pop.map F

theorem In.Plays.valid [Libm] {nan : Prop} {F : Pt → Option Dbl} {info : ObjInfo} {i : In} (h : i.Plays nan F info) : i.Valid info :=
  ⟨h.1, by rw [h.2.2, List.length_map], fun p hp => (h.2.1 p hp).length⟩

section
variable [Libm] {E : OptEnv} {nan : Prop} {F : Pt → Option Dbl} {info : ObjInfo}

/-- `ev k` are the evaluations of member `k`, `T` the members that have been stepped, `l` the populations evaluated. -/
structure PlayInv (info : ObjInfo) (ev : Nat → List (Pt × Dbl)) (ms : List Opt) : Prop where
  mem : ∀ (k : Nat) (m : Opt), ms[k]? = some m → m.vis.WF info 0 ∧ BestInv info (ev k) m.vis ∧ m.vis.tested = true
  out : ∀ k, ms.length ≤ k → ev k = []

theorem PlayInv.congr {ev : Nat → List (Pt × Dbl)} {ms ms' : List Opt} (I : PlayInv info ev ms) (h : ms'.map Opt.mark = ms.map Opt.mark) : PlayInv info ev ms' := by
  have hl : ms'.length = ms.length := by simpa using congrArg List.length h
  refine ⟨fun k m hm => ?_, fun k hk => I.out k (by omega)⟩
  obtain ⟨m', hm', hx⟩ := mark_get h.symm hm
  obtain ⟨h1, h2, h3⟩ := I.mem k m' hm'
  simp only [Opt.mark, Prod.mk.injEq] at hx
  obtain ⟨x1, x2, x3, x4, x5⟩ := hx
  exact ⟨⟨x1 ▸ h1.info_eq, x2 ▸ h1.maxErr, x4 ▸ h1.len⟩, bestInv_congr x3.symm x4.symm h2, x5 ▸ h3⟩

omit [Libm] in
theorem tested_stepped {i : In} {v : Vis} (hx : i.Valid info) (h : v.tested = true) : (v.stepped E i).tested = true := by
  have hi : ∀ (v : Vis) b, (v.withInterrupt b).tested = v.tested := fun v b => by unfold Vis.withInterrupt; split <;> rfl
  unfold Vis.stepped
  split
  · rw [hi]; exact h
  · rw [hi]
    unfold Vis.tested
    have : ((v.evaluated (i.res.map (fitOf v.info)) (i.best v.info) (i.bestPt v.info)).track E).curFitnesses = i.res.map (fitOf v.info) := by
      rw [track_fields]; rfl
    dsimp only
    rw [this]
    have hne : i.res ≠ [] := by
      intro h0
      have := hx.results
      rw [h0] at this
      exact hx.nonempty (List.length_eq_zero_iff.1 this.symm)
    simp [hne]

omit [Libm] in
theorem cond_ne_ub (c : Cond) {v : Vis} (h : v.tested = true) : (c.test E v).2 ≠ .ub := by
  cases c with
  | flat eps =>
    unfold Cond.test
    dsimp only
    split
    · rename_i hs
      have hne : v.curFitnesses ≠ [] := by
        unfold Vis.tested at h
        rcases Nat.eq_zero_or_pos v.stepCount with h0 | h0
        · omega
        · have : (v.stepCount == 0) = false := by simp; omega
          rw [this] at h
          simpa using h
      have key : ∀ (R : Dbl → Dbl → Bool), ∃ a, v.curFitnesses[ObjInfo.minElem R v.curFitnesses]? = some a := by
        intro R
        obtain ⟨x, xs, hx⟩ := List.exists_cons_of_ne_nil hne
        rw [hx]
        exact ⟨_, minElem_fold R x xs⟩
      obtain ⟨a, ha⟩ := key fun x b => Dbl.lt b x
      obtain ⟨b, hb⟩ := key fun x b => Dbl.lt x b
      unfold maxOf minOf
      rw [ha, hb]
      simp
    · simp
  | minProgress p m =>
    unfold Cond.test Vis.progress
    dsimp only
    split
    · split
      · simp
      · simp
      · rename_i hh
        split at hh
        · simp at hh
        · split at hh <;> simp at hh
    · simp
  | predicted a b m =>
    unfold Cond.test Vis.predictedFitness
    dsimp only
    split
    · split
      · simp
      · simp
      · rename_i hh
        split at hh
        · simp at hh
        · split at hh <;> simp at hh
    · simp
  | custom w a t => cases a <;> simp [Cond.test]
  | _ => simp [Cond.test]

omit [Libm] in
theorem testLoop_ne_ub (cs : List Cond) : ∀ (k : Nat) (v : Vis), v.tested = true → (testLoop E k cs v).2 ≠ .ub := by
  induction cs with
  | nil => intro k v _; simp [testLoop]
  | cons c cs ih =>
    intro k v h
    have h1 := cond_ne_ub (E := E) c h
    have h2 := tested_core (test_core E c v)
    simp only [testLoop]
    split
    · simp
    · rename_i heq; rw [heq] at h2; exact ih _ _ (h2.trans h)
    · simp
    · rename_i heq; rw [heq] at h1; exact absurd rfl h1

omit [Libm] in
theorem testStop_ne_ub (m : Opt) (h : m.vis.tested = true) : (m.testStop E).2 ≠ .ub := by
  have := testLoop_ne_ub (E := E) m.conds 0 m.vis h
  unfold Opt.testStop
  split
  · simp
  · split
    · simp
    · rename_i heq; rw [heq] at this; exact this

omit [Libm] in
/-- A step of an optimizer whose conditions can be tested, with a population of points with the right number of parameters, has no undefined behaviour. -/
theorem step_ne_ub (hd : info.dim ≠ 0) {m : Opt} (hw : m.vis.WF info 0) (ht : m.vis.tested = true) {i : In} (hx : i.Valid info) : (m.step E (Opt.internal E i)).2 ≠ .ub := by
  have hi : ∀ (v : Vis) b, (v.withInterrupt b).tested = v.tested := fun v b => by unfold Vis.withInterrupt; split <;> rfl
  have hinf := hw.info_eq
  have hd' : m.vis.info.dim ≠ 0 := by rw [hinf]; exact hd
  have hx' : i.Valid m.vis.info := by rw [hinf]; exact hx
  have hl : m.vis.bestPoint.length = m.vis.info.dim := by rw [hinf]; exact hw.len
  have hst := tested_stepped (E := E) hx' ht
  unfold Vis.stepped at hst
  by_cases hf : i.Failed m.vis.maxErrors
  · rw [step_false hd' (internal_failed E m.begun i (by rw [begun_vis]; exact hf))]
    apply testStop_ne_ub
    dsimp only
    rw [ite_interrupt_vis]
    dsimp only
    rw [signal_vis, begun_vis, hi]
    exact ht
  · rw [if_neg hf] at hst
    rw [step_true hd' (internal_completed E m.begun i (by rw [begun_vis]; exact hx') (by rw [begun_vis]; exact hl) (by rw [begun_vis]; exact hf))]
    apply testStop_ne_ub
    have hts : ∀ v : Vis, (v.track E).stepCount = v.stepCount := fun v => by unfold Vis.track; split <;> rfl
    have hne : i.res ≠ [] := by
      intro h0
      have := hx.results
      rw [h0] at this
      exact hx.nonempty (List.length_eq_zero_iff.1 this.symm)
    have key : ∀ (v : Vis) b n, ({ v.withInterrupt b with stepCount := n } : Vis).curFitnesses = v.curFitnesses := fun v b n => by unfold Vis.withInterrupt; split <;> rfl
    simp only [Opt.ended, signal_vis, ite_interrupt_vis, begun_vis]
    unfold Vis.tested
    rw [key, track_fields]
    simp [Vis.evaluated, hne]

/-- The evaluations after member `i` has been stepped. -/
def evAdd (ev : Nat → List (Pt × Dbl)) (i : Nat) (es : List (Pt × Dbl)) : Nat → List (Pt × Dbl) := fun k => if k = i then ev k ++ es else ev k

theorem PlayInv.step (hd : info.dim ≠ 0) {ev : Nat → List (Pt × Dbl)} {ms : List Opt} (I : PlayInv info ev ms) {i : Nat} {m m' : Opt} {x : In} {r : Res (Option Nat)}
    (hx : x.Valid info) (hn : ∀ f, some f ∈ x.res → f ≠ .nan) (hm : ms[i]? = some m) (hs : m.step E (Opt.internal E x) = (m', r)) :
    PlayInv info (evAdd ev i (x.evals info 0)) (ms.set i m') := by
  have hlt : i < ms.length := (List.getElem?_eq_some_iff.1 hm).1
  obtain ⟨h1, h2, h3⟩ := I.mem i m hm
  have hc : m'.vis.core = (m.vis.stepped E x).core := by
    have := apply_core E m (.step x) hd h1 hx
    simpa only [Op.apply, hs, Op.onVis] using this
  have hwf := WF_core hc (stepped_WF E h1 hx)
  obtain ⟨-, -, c3, c4, -⟩ := core_ext hc
  refine ⟨fun k u hu => ?_, fun k hk => ?_⟩
  · by_cases hik : i = k
    · subst hik
      rw [List.getElem?_set_self hlt] at hu
      cases hu
      unfold evAdd
      rw [if_pos rfl]
      exact ⟨hwf, bestInv_congr c3 c4 (bestInv_step h1 hx hn h2), (tested_core hc).trans (tested_stepped hx h3)⟩
    · rw [List.getElem?_set_ne hik] at hu
      unfold evAdd
      rw [if_neg (Ne.symm hik)]
      exact I.mem k u hu
  · rw [List.length_set] at hk
    unfold evAdd
    rw [if_neg (by omega)]
    exact I.out k hk

/-- The state during a step of the pool. -/
theorem PlayInv.exec (hd : info.dim ≠ 0) {ins : Nat → In} {S : List Nat} (hv : ∀ i ∈ S, (ins i).Valid info) (hn : ∀ i ∈ S, ∀ f, some f ∈ (ins i).res → f ≠ .nan) {r t : RunSt}
    (h : RunExec E ins r t) (hS : r.running = S) {ev : Nat → List (Pt × Dbl)} (I : PlayInv info ev r.pool.members) :
    t.pool.members.length = r.pool.members.length ∧ (∀ i ∈ t.running, i ∈ S) ∧ ∃ ev', PlayInv info ev' t.pool.members ∧
      (∀ k e, e ∈ ev k → e ∈ ev' k) ∧ (∀ k, ∀ e ∈ ev' k, e ∈ ev k ∨ ∃ i ∈ S, e ∈ (ins i).evals info 0) ∧
      ∀ i ∈ S, i ∈ t.running ∨ i < t.pool.members.length ∧ ∀ e ∈ (ins i).evals info 0, e ∈ ev' i := by
  induction h with
  | nil => exact ⟨rfl, fun i hi => hS ▸ hi, ev, I, fun _ _ h => h, fun _ _ h => .inl h, fun i hi => .inl (hS ▸ hi)⟩
  | @snoc s t hx st ih =>
    obtain ⟨hlen, hrun, ev', J, h1, h2, h3⟩ := ih
    have same : ∀ {ms : List Opt}, ms.map Opt.mark = s.pool.members.map Opt.mark → ms.length = r.pool.members.length ∧ PlayInv info ev' ms := by
      intro ms hms
      exact ⟨by rw [← hlen]; simpa using congrArg List.length hms, J.congr hms⟩
    have stepped : ∀ {i : Nat} {m m' : Opt} {x : Res (Option Nat)}, i ∈ s.running → s.pool.members[i]? = some m → m.step E (Opt.internal E (ins i)) = (m', x) →
        (s.pool.members.set i m').length = r.pool.members.length ∧ (∀ j ∈ s.running.erase i, j ∈ S) ∧ ∃ ev', PlayInv info ev' (s.pool.members.set i m') ∧
          (∀ k e, e ∈ ev k → e ∈ ev' k) ∧ (∀ k, ∀ e ∈ ev' k, e ∈ ev k ∨ ∃ i ∈ S, e ∈ (ins i).evals info 0) ∧
          ∀ j ∈ S, j ∈ s.running.erase i ∨ j < (s.pool.members.set i m').length ∧ ∀ e ∈ (ins j).evals info 0, e ∈ ev' j := by
      intro i m m' x hi hm hs
      have hlt : i < s.pool.members.length := (List.getElem?_eq_some_iff.1 hm).1
      refine ⟨by rw [List.length_set, hlen], fun j hj => hrun j (List.mem_of_mem_erase hj), evAdd ev' i ((ins i).evals info 0), J.step hd (hv i (hrun i hi)) (hn i (hrun i hi)) hm hs, ?_, ?_, ?_⟩
      · intro k e he
        unfold evAdd
        split
        · exact List.mem_append_left _ (h1 k e he)
        · exact h1 k e he
      · intro k e he
        unfold evAdd at he
        split at he
        · rcases List.mem_append.1 he with he | he
          · exact h2 k e he
          · exact .inr ⟨i, hrun i hi, he⟩
        · exact h2 k e he
      · intro j hj
        by_cases hij : j = i
        · subst hij
          right
          refine ⟨by rw [List.length_set]; exact hlt, fun e he => ?_⟩
          unfold evAdd
          rw [if_pos rfl]
          exact List.mem_append_right _ he
        · rcases h3 j hj with h | ⟨ha, hb⟩
          · exact .inl ((List.mem_erase_of_ne hij).2 h)
          · refine .inr ⟨by rw [List.length_set]; exact ha, fun e he => ?_⟩
            unfold evAdd
            rw [if_neg hij]
            exact hb e he
    cases st with
    | finish hi hm hs => exact stepped hi hm hs
    | fail hi hm hs => exact stepped hi hm hs
    | collect h hr hf hc =>
      obtain ⟨a, b⟩ := same (collect_mark hc)
      exact ⟨a, hrun, ev', b, h1, h2, fun i hi => (h3 i hi).imp id fun h => ⟨by dsimp only; rw [a, ← hlen]; exact h.1, h.2⟩⟩
    | throws h hr hf hc =>
      obtain ⟨a, b⟩ := same (collect_mark hc)
      exact ⟨a, hrun, ev', b, h1, h2, fun i hi => (h3 i hi).imp id fun h => ⟨by dsimp only; rw [a, ← hlen]; exact h.1, h.2⟩⟩
    | rethrow => exact ⟨hlen, hrun, ev', J, h1, h2, h3⟩
    | interrupt =>
      obtain ⟨a, b⟩ := same (interrupt_mark s.pool.members)
      exact ⟨a, hrun, ev', b, h1, h2, fun i hi => (h3 i hi).imp id fun h => ⟨by show i < (s.pool.members.map Opt.interrupt).length; rw [a, ← hlen]; exact h.1, h.2⟩⟩

theorem PlayInv.poolStep (hd : info.dim ≠ 0) {ins : Nat → In} {p p' : Pool} {sel run : List Nat} {x : Option Nat} (st : Pool.Step E ins p sel run p' x)
    (hv : ∀ i ∈ run, (ins i).Valid info) (hn : ∀ i ∈ run, ∀ f, some f ∈ (ins i).res → f ≠ .nan) {ev : Nat → List (Pt × Dbl)} (I : PlayInv info ev p.members) :
    ∃ ev', PlayInv info ev' p'.members ∧ p'.members.length = p.members.length ∧ (∀ k e, e ∈ ev k → e ∈ ev' k) ∧
      (∀ k, ∀ e ∈ ev' k, e ∈ ev k ∨ ∃ i ∈ run, e ∈ (ins i).evals info 0) ∧ ∀ i ∈ run, i < p'.members.length ∧ ∀ e ∈ (ins i).evals info 0, e ∈ ev' i := by
  cases st with
  | @mk p₁ p₂ _ t _ _ hdim hne h1 h2 h3 hend h4 =>
    have e1 : p₁.members = p.members := by rw [h1]; split <;> rfl
    have e2 := refill_mark h2
    rw [e1] at e2
    have I2 : PlayInv info ev p₂.launch.pool.members := I.congr e2
    obtain ⟨a, b, ev', J, c1, c2, c3⟩ := I2.exec hd (S := p₂.launch.futs) hv hn h3 rfl
    have e4 := poolTest_mark E { t.pool.signal .postStep with own := { t.pool.own with stepCount := t.pool.own.stepCount + 1 } }
    rw [h4] at e4
    have hl4 : p'.members.length = t.pool.members.length := by
      have := congrArg List.length e4
      rw [List.length_map, List.length_map] at this
      exact this
    have hl2 : p₂.launch.pool.members.length = p.members.length := by
      have := congrArg List.length e2
      rw [List.length_map, List.length_map] at this
      exact this
    refine ⟨ev', J.congr e4, by rw [hl4, a, hl2], c1, c2, fun i hi => ?_⟩
    rcases c3 i hi with h | ⟨h, h'⟩
    · rw [hend.1] at h; cases h
    · exact ⟨by rw [hl4]; exact h, h'⟩

theorem ready_best (hd : info.dim ≠ 0) {m : Opt} (h : m.Ready E info) : m.vis.WF info 0 ∧ BestInv info [] m.vis ∧ m.vis.tested = true := by
  obtain ⟨h, rfl, hs⟩ := h
  have hv : ∀ o ∈ h, o.Valid info := by
    intro o ho
    cases o with
    | step i => exact absurd rfl (hs _ ho i)
    | _ => trivial
  have he : evalsOf info 0 h = [] := by
    unfold evalsOf
    rw [List.flatMap_eq_nil_iff]
    intro o ho
    cases o with
    | step i => exact absurd rfl (hs _ ho i)
    | _ => rfl
  have hb := best_history E info 0 hd h hv (fun i hi => absurd rfl (hs _ hi i))
  rw [he] at hb
  obtain ⟨hw, ht⟩ := history_induction (E := E) hd (new_WF info 0) (fun _ s => s.vis.tested = true) rfl (fun h s o hw ho ht => by
    rw [tested_core (apply_core E s o hd hw ho)]
    cases o with
    | step i => exact tested_stepped ho ht
    | addCond c => unfold Op.onVis; dsimp only; split <;> exact ht
    | _ => exact ht) h hv
  exact ⟨hw, hb, ht⟩

/-- What is known after any calls. -/
theorem played_inv (hd : info.dim ≠ 0) (hF : ∀ x, F x ≠ some .nan) {cfg : PoolCfg} {l : List In} {p : Pool}
    (h : Pool.Played E (Opt.Ready E info) (In.Plays nan F info) (Pool.init cfg info) l p) :
    (∀ i ∈ l, i.Plays nan F info) ∧ ∃ (ls : List (List Nat × List Nat)) (ev : Nat → List (Pt × Dbl)), Pool.Hist E (Opt.Fits info.minimize) (Pool.init cfg info) ls p ∧ PlayInv info ev p.members ∧
      (∀ k, ∀ e ∈ ev k, ∃ i ∈ l, e ∈ i.evals info 0) ∧ ∀ i ∈ l, ∃ k ∈ steppedOf ls, k < p.members.length ∧ ∀ e ∈ i.evals info 0, e ∈ ev k := by
  generalize hp0 : Pool.init cfg info = p0 at h
  induction h with
  | nil =>
    subst hp0
    exact ⟨by simp, [], fun _ => [], .nil, ⟨fun k m hm => by simp [Pool.init] at hm, fun _ _ => rfl⟩, fun k e he => by simp at he, by simp⟩
  | @step q q' l sel run ins r h st hq ih =>
    obtain ⟨h0, ls, ev, h1, I, h2, h3⟩ := ih
    obtain ⟨ev', J, hl, c1, c2, c3⟩ := I.poolStep hd st (fun i hi => (hq i hi).valid) (fun i hi f hf => by
      rw [(hq i hi).2.2, List.mem_map] at hf
      obtain ⟨x, -, hx⟩ := hf
      rintro rfl
      exact hF x hx)
    refine ⟨?_, ls ++ [(sel, run)], ev', h1.step st, J, ?_, ?_⟩
    · intro i hi
      rcases List.mem_append.1 hi with hi | hi
      · exact h0 i hi
      · obtain ⟨k, hk, rfl⟩ := List.mem_map.1 hi
        exact hq k hk
    · intro k e he
      rcases c2 k e he with he | ⟨i, hi, he⟩
      · obtain ⟨i, hi, he⟩ := h2 k e he
        exact ⟨i, List.mem_append_left _ hi, he⟩
      · exact ⟨ins i, List.mem_append_right _ (List.mem_map_of_mem hi), he⟩
    · have hst : steppedOf (ls ++ [(sel, run)]) = steppedOf ls ++ run := by simp [steppedOf]
      intro i hi
      rcases List.mem_append.1 hi with hi | hi
      · obtain ⟨k, hk, hk', he⟩ := h3 i hi
        exact ⟨k, by rw [hst]; exact List.mem_append_left _ hk, by rw [hl]; exact hk', fun e h => c1 k e (he e h)⟩
      · obtain ⟨k, hk, rfl⟩ := List.mem_map.1 hi
        exact ⟨k, by rw [hst]; exact List.mem_append_right _ hk, c3 k hk⟩
  | @push q l m h hm ih =>
    obtain ⟨h0, ls, ev, h1, I, h2, h3⟩ := ih
    obtain ⟨w, b, bt⟩ := ready_best hd hm
    have hfit : m.Fits info.minimize := ⟨(bestInv_not_better b).1, by rw [w.info_eq]⟩
    have hpl : (q.push m).members.length = q.members.length + 1 := by
      have := congrArg List.length (push_mark q m)
      simpa using this
    refine ⟨h0, ls, ev, h1.push hfit, ⟨?_, fun k hk => I.out k (by omega)⟩, h2, fun i hi => ?_⟩
    · intro k x hx
      rcases lt_or_ge k q.members.length with hlt | hge
      · have := push_getElem q m (List.getElem?_eq_getElem hlt)
        rw [this] at hx
        cases hx
        exact I.mem k _ (List.getElem?_eq_getElem hlt)
      · have hk : k = q.members.length := by
          have := (List.getElem?_eq_some_iff.1 hx).1
          omega
        subst hk
        rw [I.out _ le_rfl]
        have := congrArg (·[q.members.length]?) (push_mark q m)
        simp only [List.getElem?_map, hx, Option.map_some] at this
        rw [List.getElem?_append_right (by simp)] at this
        simp only [List.length_map, Nat.sub_self, List.getElem?_cons_zero, Option.some.injEq, Opt.mark, Prod.mk.injEq] at this
        obtain ⟨x1, x2, x3, x4, x5⟩ := this
        exact ⟨⟨x1.trans w.info_eq, x2.trans w.maxErr, by rw [x4]; exact w.len⟩, bestInv_congr x3 x4 b, x5.trans bt⟩
    · obtain ⟨k, hk, hk', he⟩ := h3 i hi
      exact ⟨k, hk, by omega, he⟩
  | @addCond q l c h ih =>
    obtain ⟨h0, ls, ev, h1, I, h2, h3⟩ := ih
    exact ⟨h0, ls, ev, h1.addCond, I, h2, h3⟩
  | @interrupt q l h ih =>
    obtain ⟨h0, ls, ev, h1, I, h2, h3⟩ := ih
    refine ⟨h0, ls, ev, h1.interrupt, I.congr (interrupt_mark _), h2, fun i hi => ?_⟩
    obtain ⟨k, hk, hk', he⟩ := h3 i hi
    exact ⟨k, hk, by simpa [Pool.interrupt] using hk', he⟩
  | @test q l h ih =>
    obtain ⟨h0, ls, ev, h1, I, h2, h3⟩ := ih
    have hm := poolTest_mark E q
    refine ⟨h0, ls, ev, h1.test, I.congr hm, h2, fun i hi => ?_⟩
    obtain ⟨k, hk, hk', he⟩ := h3 i hi
    have : (q.testStop E).1.members.length = q.members.length := by simpa using congrArg List.length hm
    exact ⟨k, hk, by omega, he⟩

/-- **C108.** After any calls of a pool (steps with any schedule of the member threads and any selection, new members, interrupts, conditions) whose members work on the objective `F`, once a
member has been stepped: no point of a completed step of any member is better than `best_fitness()` of the pool, and `best_point()` was evaluated by a member, in a completed step, is within
the bounds (at 8 digits) and has the best fitness - if any point was better than the worst fitness there is. -/
theorem C108_solution (hd : info.dim ≠ 0) (hF : ∀ x, F x ≠ some .nan) (cfg : PoolCfg) {l : List In} {p : Pool}
    (h : Pool.Played E (Opt.Ready E info) (In.Plays nan F info) (Pool.init cfg info) l p) (hl : l ≠ []) :
    ∃ q f, p.bestPoint = .ok q ∧ p.bestFitness = .ok f ∧
      (∀ i ∈ l, (∀ x ∈ i.pop, F x ≠ none) → ∀ x ∈ i.pop, ∀ g, F x = some g → info.isBetter g f = false) ∧
      (f = info.worstFitness ∧ q = (SearchPoint.ofInfo info).values ∨
        F q = some f ∧ EvaluatedWithin nan info q ∧ ∃ i ∈ l, q ∈ i.pop ∧ ∀ x ∈ i.pop, F x ≠ none) := by
  obtain ⟨h0, ls, ev, h1, I, h2, h3⟩ := played_inv hd hF h
  have hne : steppedOf ls ≠ [] := by
    obtain ⟨i, hi⟩ := List.exists_mem_of_ne_nil _ hl
    obtain ⟨k, hk, -⟩ := h3 i hi
    exact List.ne_nil_of_mem hk
  obtain ⟨k, hk, m, hm, hb, hp, hall⟩ := C40_best cfg info h1 hne
  obtain ⟨w, b, -⟩ := I.mem k m hm
  refine ⟨_, _, hp, hb, ?_, ?_⟩
  · intro i hi hc x hx g hg
    obtain ⟨k', hk', hlt, he⟩ := h3 i hi
    obtain ⟨u, hu, hub⟩ := hall k' hk'
    have bu := bestInv_not_better (I.mem k' u hu).2.1
    have := he (x, g) ((evals_spec (h0 i hi).2.2).2 ⟨hc, hx, hg⟩)
    exact not_better_trans (fun hh => hF x (by rw [hg]; exact congrArg some hh)) bu.1 (bestInv_not_better b).1 (bu.2 _ this) hub
  · rcases b.1 with ⟨h4, h5, -⟩ | ⟨-, -, pre, pt, post, he, -, -, h5⟩
    · exact .inl ⟨h4, h5⟩
    · obtain ⟨i, hi, hei⟩ := h2 k (pt, m.vis.bestFitness) (by rw [he]; simp)
      obtain ⟨hc, hx, hf⟩ := (evals_spec (h0 i hi).2.2).1 hei
      have hw := (h0 i hi).2.1 pt hx
      rw [h5, hw.rounded]
      exact .inr ⟨hf, hw, i, hi, hx, hc⟩

/-! ## The algorithms -/

/-- The populations that MES, EVA and CMA optimizers of the objective `F` evaluate, in any state. -/
inductive In.Made [Libm] (E : OptEnv) (F : Pt → Option Dbl) (info : ObjInfo) : In → Prop
  | es {R : Rng Dbl} (hR : R.NoNaN) (c : EsCfg R info.dim) (hc : c.bounds = Bounds.ofInfo info) (hl : 1 ≤ c.lambda) (h0 : 0 ≤ c.mu) (h1 : c.mu ≤ c.lambda)
      {s t : EsOpt R info.dim} {i : In} {r : Res (Option Nat)} (st : (esMachine E c).Step E F s i t r) : In.Made E F info i
  | cma {G : GaussSrc Dbl} (c : CmaCfg info.dim) (hc : c.bounds = Bounds.ofInfo info) (hl : 1 ≤ c.par.lambda)
      {s t : CmaOpt G info.dim} {i : In} {r : Res (Option Nat)} (st : (cmaMachine E c).Step E F s i t r) : In.Made E F info i

theorem EvaluatedWithin.weaken {x : Pt} (h : EvaluatedWithin False info x) : EvaluatedWithin nan info x := by
  obtain ⟨y, h1, h2, h3⟩ := h
  exact ⟨y, h1, h2, fun k p u hp hu => ⟨(h3 k p u hp hu).1, (h3 k p u hp hu).2.1, (h3 k p u hp hu).2.2.1, fun hn => ((h3 k p u hp hu).2.2.2 hn).elim⟩⟩

theorem In.Made.plays (hd : info.dim ≠ 0) (hv : ∀ p ∈ info.pars, p.isValid = true) {i : In} (h : i.Made E F info) : i.Plays True F info := by
  cases h with
  | es hR c hc hl h0 h1 st =>
    obtain ⟨-, a, b, d⟩ := (es_good hR E info hv c hc hl h0 h1 F).base st
    exact ⟨a, fun x hx => (b x hx).weaken, d⟩
  | cma c hc hl st =>
    obtain ⟨-, a, b, d⟩ := (cma_good E info hd hv c hc hl F).base st
    exact ⟨a, b, d⟩

theorem Pool.Played.mono {P : Opt → Prop} {Q Q' : In → Prop} (hQ : ∀ i, Q i → Q' i) {p q : Pool} {l : List In} (h : Pool.Played E P Q p l q) : Pool.Played E P Q' p l q := by
  induction h with
  | nil => exact .nil
  | step h st hq ih => exact ih.step st fun i hi => hQ _ (hq i hi)
  | push h hm ih => exact ih.push hm
  | addCond h ih => exact ih.addCond
  | interrupt h ih => exact ih.interrupt
  | test h ih => exact ih.test

/-- **C108.** The same for pools of MES, EVA and CMA optimizers in any mixture: the members step as these do. -/
theorem C108_algorithms (hd : info.dim ≠ 0) (hv : ∀ p ∈ info.pars, p.isValid = true) (hF : ∀ x, F x ≠ some .nan) (cfg : PoolCfg) {l : List In} {p : Pool}
    (h : Pool.Played E (Opt.Ready E info) (In.Made E F info) (Pool.init cfg info) l p) (hl : l ≠ []) :
    ∃ q f, p.bestPoint = .ok q ∧ p.bestFitness = .ok f ∧
      (∀ i ∈ l, (∀ x ∈ i.pop, F x ≠ none) → ∀ x ∈ i.pop, ∀ g, F x = some g → info.isBetter g f = false) ∧
      (f = info.worstFitness ∧ q = (SearchPoint.ofInfo info).values ∨
        F q = some f ∧ EvaluatedWithin True info q ∧ ∃ i ∈ l, q ∈ i.pop ∧ ∀ x ∈ i.pop, F x ≠ none) :=
  C108_solution hd hF cfg (h.mono fun _ hi => hi.plays hd hv) hl

/-! ## `run` -/

theorem exec_count {ins : Nat → In} {r t : RunSt} (h : RunExec E ins r t) : t.pool.own.stepCount = r.pool.own.stepCount ∧ t.pool.stopped = r.pool.stopped := by
  induction h with
  | nil => exact ⟨rfl, rfl⟩
  | snoc _ st ih =>
    cases st with
    | finish => exact ih
    | fail => exact ih
    | collect h hr hf hc => exact ⟨by dsimp only; rw [collect_own hc]; exact ih.1, (collect_stopped hc).trans ih.2⟩
    | throws h hr hf hc => exact ⟨by dsimp only; rw [collect_own hc]; exact ih.1, (collect_stopped hc).trans ih.2⟩
    | rethrow => exact ih
    | interrupt => exact ih

theorem poolLoop_stopped (E : OptEnv) (cs : List PCond) : ∀ (k : Nat) (p p' : Pool) (r : Res (Option Nat)), Pool.testLoop E k cs p = (p', r) → p'.stopped = p.stopped := by
  induction cs with
  | nil => intro k p p' r h; unfold Pool.testLoop at h; rw [← (Prod.mk.inj h).1]
  | cons c cs ih =>
    intro k p p' r h
    have hc : (p.testCond E c).1.stopped = p.stopped := by
      cases c with
      | allStopped => rfl
      | own c => simp only [Pool.testCond]; split <;> rfl
    simp only [Pool.testLoop] at h
    split at h
    · rename_i heq; rw [heq] at hc; rw [← (Prod.mk.inj h).1]; exact hc
    · rename_i heq; rw [heq] at hc; exact (ih _ _ _ _ h).trans hc
    · rename_i heq; rw [heq] at hc; rw [← (Prod.mk.inj h).1]; exact hc
    · rename_i heq; rw [heq] at hc; rw [← (Prod.mk.inj h).1]; exact hc

/-- A step of the pool counts as one, and what it returns is what is latched. -/
theorem poolStep_count {ins : Nat → In} {p p' : Pool} {sel run : List Nat} {x : Option Nat} (st : Pool.Step E ins p sel run p' x) :
    p'.own.stepCount = p.own.stepCount + 1 ∧ p'.stopped = x ∧ (∀ k, p.stopped = some k → x = some k) := by
  cases st with
  | @mk p₁ p₂ _ t _ _ hdim hne h1 h2 h3 hend h4 =>
    have e1 : p₁.own = p.own ∧ p₁.stopped = p.stopped := by rw [h1]; split <;> exact ⟨rfl, rfl⟩
    have e2 : p₂.stopped = p₁.stopped := by cases h2 <;> rfl
    obtain ⟨e3, e3'⟩ := exec_count h3
    have e3 : t.pool.own.stepCount = p.own.stepCount := e3.trans (by show p₂.own.stepCount = _; rw [(refill_fields h2).2.1, e1.1])
    have e3' : t.pool.stopped = p.stopped := e3'.trans (e2.trans e1.2)
    have hf := poolTest_fields E { t.pool.signal .postStep with own := { t.pool.own with stepCount := t.pool.own.stepCount + 1 } }
    rw [h4] at hf
    refine ⟨(core_ext hf.2.1).2.1.trans (by dsimp only; rw [e3]), ?_, ?_⟩
    · unfold Pool.testStop at h4
      split at h4
      · rename_i k hk
        cases h4; exact hk
      · rename_i hs
        split at h4
        · cases h4; rfl
        · rename_i p'' r hr heq
          have : p'' = p' ∧ r = .ok x := ⟨congrArg Prod.fst h4, congrArg Prod.snd h4⟩
          obtain ⟨rfl, rfl⟩ := this
          have hst := poolLoop_stopped E _ 0 _ _ _ heq
          rw [hst]
          cases x with
          | none => exact hs
          | some k => exact absurd rfl (hr _)
    · intro k hk
      unfold Pool.testStop at h4
      have : ({ t.pool.signal .postStep with own := { t.pool.own with stepCount := t.pool.own.stepCount + 1 } } : Pool).stopped = some k := e3'.trans hk
      rw [this] at h4
      exact (Res.ok.inj (congrArg Prod.snd h4)).symm

theorem Pool.Played.trans {P : Opt → Prop} {Q : In → Prop} {p q u : Pool} {l l' : List In} (h : Pool.Played E P Q p l q) (h' : Pool.Played E P Q q l' u) :
    Pool.Played E P Q p (l ++ l') u := by
  induction h' with
  | nil => rw [List.append_nil]; exact h
  | step _ st hq ih => rw [← List.append_assoc]; exact ih.step st hq
  | push _ hm ih => exact ih.push hm
  | addCond _ ih => exact ih.addCond
  | interrupt _ ih => exact ih.interrupt
  | test _ ih => exact ih.test

/-- **C108.** `run(n)` of a pool makes steps until one of them returns a condition, but at most `n` (`run(0)`: 2^64 - 1); it returns what the last step returned, which then is the condition the
pool stopped with, or null after `n` steps. Every step counts as one in `current_step()`. A pool that has stopped before makes one step. -/
theorem C108_run {P : Opt → Prop} {Q : In → Prop} {n : Nat} {p q : Pool} {ls : List (List In)} {r : Option Nat} (h : Pool.Run E Q n p ls q r) :
    Pool.Played E P Q p ls.flatten q ∧ q.own.stepCount = p.own.stepCount + ls.length ∧ 1 ≤ ls.length ∧ ls.length ≤ (if n = 0 then 2 ^ 64 - 1 else n) ∧
    (r = none → ls.length = if n = 0 then 2 ^ 64 - 1 else n) ∧ q.stopped = r ∧ ∀ k, p.stopped = some k → r = some k ∧ ls.length = 1 := by
  obtain ⟨-, h⟩ := h
  have hN : 1 ≤ (if n = 0 then 2 ^ 64 - 1 else n) := by split <;> omega
  generalize (if n = 0 then 2 ^ 64 - 1 else n) = N at h hN
  have key : Pool.Played E P Q p ls.flatten q ∧ q.own.stepCount = p.own.stepCount + ls.length ∧ (1 ≤ N → 1 ≤ ls.length) ∧ ls.length ≤ N ∧
      (r = none → ls.length = N) ∧ (1 ≤ N → q.stopped = r) ∧ (1 ≤ N → ∀ k, p.stopped = some k → r = some k ∧ ls.length = 1) := by
    clear hN
    induction h with
    | done => exact ⟨.nil, rfl, fun h => absurd h (by omega), le_rfl, fun _ => rfl, fun h => absurd h (by omega), fun h => absurd h (by omega)⟩
    | @next n p q u sel run ins ls r st hq h ih =>
      obtain ⟨i1, i2, i3, i4, i5, i6, i7⟩ := ih
      obtain ⟨c1, c2, c3⟩ := poolStep_count st
      have h1 : Pool.Played E P Q p (run.map ins) q := by simpa using (Pool.Played.nil (E := E) (P := P) (Q := Q) (p := p)).step st hq
      refine ⟨by rw [List.flatten_cons]; exact h1.trans i1, by rw [i2, c1, List.length_cons]; omega, fun _ => by simp, by simpa using i4, fun hr => by rw [List.length_cons, i5 hr], fun _ => ?_, fun _ k hk => ?_⟩
      · rcases Nat.eq_zero_or_pos n with rfl | hpos
        · cases h; exact c2
        · exact i6 hpos
      · exact absurd (c3 k hk) (by simp)
    | @stop n p q sel run ins k st hq =>
      obtain ⟨c1, c2, c3⟩ := poolStep_count st
      have h1 : Pool.Played E P Q p (run.map ins) q := by simpa using (Pool.Played.nil (E := E) (P := P) (Q := Q) (p := p)).step st hq
      exact ⟨by simpa using h1, by simpa using c1, fun _ => by simp, by simp, fun hr => (by cases hr), fun _ => c2, fun _ j hj => ⟨c3 j hj, rfl⟩⟩
  obtain ⟨a, b, c, d, e, f, g⟩ := key
  exact ⟨a, b, c hN, d, e, f hN, g hN⟩

/-- The steps of a run that returned null, as a sequence. -/
theorem loop_sequence {Q : In → Prop} {N : Nat} {p q : Pool} {ls : List (List In)} {r : Option Nat} (h : Pool.Loop E Q N p ls q r) :
    ∃ σ : Nat → Pool, σ 0 = p ∧ (∀ k, k + 1 < ls.length → ∃ ins sel run, Pool.Step E ins (σ k) sel run (σ (k + 1)) none) ∧
      (r = none → ∀ k, k < ls.length → ∃ ins sel run, Pool.Step E ins (σ k) sel run (σ (k + 1)) none) := by
  induction h with
  | @done p => exact ⟨fun _ => p, rfl, fun k hk => by simp at hk, fun _ k hk => by simp at hk⟩
  | @next n p q u sel run ins ls r st hq h ih =>
    obtain ⟨σ, h0, h1, h2⟩ := ih
    refine ⟨fun k => match k with | 0 => p | k + 1 => σ k, rfl, fun k hk => ?_, fun hr k hk => ?_⟩
    · cases k with
      | zero => exact ⟨ins, sel, run, by dsimp only; rw [h0]; exact st⟩
      | succ k => exact h1 k (by simpa using hk)
    · cases k with
      | zero => exact ⟨ins, sel, run, by dsimp only; rw [h0]; exact st⟩
      | succ k => exact h2 hr k (by simpa using hk)
  | @stop n p q sel run ins k st hq => exact ⟨fun _ => p, rfl, fun k hk => by simp at hk, fun hr => (by cases hr)⟩

/-- **C108.** A pool whose members have a step limit of at most `N` stops within a run: `run(n)` makes at most one step more than `N` times the number of members, and if `n` is more than that
number of steps (or 0), it returns the stop condition. (As in C97: predictions do not start before `N` steps.) -/
theorem C108_run_ends (cfg : PoolCfg) (info : ObjInfo) (N : Nat) {ls : List (List Nat × List Nat)} {p q : Pool} (h : Pool.Hist E (Opt.Limited N) (Pool.init cfg info) ls p)
    (ha : 0 < cfg.active) (hc : 0 < cfg.concurrent) (hN : N ≤ cfg.start) {Q : In → Prop} {n : Nat} {is : List (List In)} {r : Option Nat} (hr : Pool.Run E Q n p is q r) :
    is.length ≤ p.members.length * N + 1 ∧ (p.members.length * N < (if n = 0 then 2 ^ 64 - 1 else n) → r ≠ none) := by
  obtain ⟨-, -, -, -, h5, -⟩ := C108_run (P := fun _ => True) hr
  obtain ⟨-, hl⟩ := hr
  obtain ⟨σ, h0, h1, h2⟩ := loop_sequence hl
  constructor
  · have := C97_ends_unpredicted cfg info N (is.length - 1) σ (by rw [h0]; exact h) ha hc hN (fun k hk => h1 k (by omega))
    rw [h0] at this
    omega
  · intro hlt hn
    have := C97_ends_unpredicted cfg info N is.length σ (by rw [h0]; exact h) ha hc hN (h2 hn)
    rw [h0, h5 hn] at this
    omega

end

/-! ## A concrete optimization -/

deriving instance DecidableEq for In

/-- The loop of `run` with the given populations and orders. -/
def Pool.loopWith (E : OptEnv) : List ((Nat → In) × List Nat) → Pool → Option (List (List In) × Pool × Option Nat)
  | [], p => some ([], p, none)
  | (ins, ord) :: rest, p =>
    match p.stepWith E ins ord with
    | none => none
    | some (_, run, q, some k) => some ([run.map ins], q, some k)
    | some (_, run, q, none) => (Pool.loopWith E rest q).map fun x => (run.map ins :: x.1, x.2.1, x.2.2)

theorem loopWith_sound {E : OptEnv} {Q : In → Prop} : ∀ (w : List ((Nat → In) × List Nat)) (p : Pool) (n : Nat) (ls : List (List In)) (q : Pool) (r : Option Nat), (∀ x ∈ w, ∀ i, Q (x.1 i)) →
    Pool.loopWith E w p = some (ls, q, r) → w.length ≤ n → (r = none → w.length = n) → Pool.Loop E Q n p ls q r := by
  intro w
  induction w with
  | nil =>
    intro p n ls q r _ h _ hn
    cases h
    have := hn rfl
    simp at this
    subst this
    exact .done
  | cons x w ih =>
    intro p n ls q r hQ h hl hn
    obtain ⟨ins, ord⟩ := x
    obtain ⟨n, rfl⟩ : ∃ m, n = m + 1 := ⟨n - 1, by simp at hl; omega⟩
    have h0 := hQ (ins, ord) (by simp)
    simp only [Pool.loopWith] at h
    split at h
    · cases h
    · rename_i sel run q' k hs
      cases h
      exact .stop (stepWith_sound hs) fun i _ => h0 i
    · rename_i sel run q' hs
      obtain ⟨⟨ls', q'', r'⟩, hx, hy⟩ := Option.map_eq_some_iff.1 h
      cases hy
      exact .next (stepWith_sound hs) (fun i _ => h0 i) (ih _ n _ _ _ (fun x hx => hQ x (by simp [hx])) hx (by simpa using hl) fun hr => by simpa using hn hr)

/-- The objective: the square of the parameter. -/
def squareOf : Pt → Option Dbl
  | [.fin a] => some (.fin (a * a))
  | _ => none

/-- Every member evaluates the point `a`. -/
def squareIns (a : ℚ) (_ : Nat) : In := { pop := [[.fin a]], res := [some (.fin (a * a))] }

theorem squareIns_plays (a : ℚ) (hr : rounded (.fin a) = .fin a) (h0 : Dbl.le (bound8 (.fin (-5))) (.fin a) = true) (h1 : Dbl.le (.fin a) (bound8 (.fin 5)) = true) (i : Nat) :
    (squareIns a i).Plays False squareOf optInfo := by
  refine ⟨by simp [squareIns], fun x hx => ?_, rfl⟩
  simp only [squareIns, List.mem_singleton] at hx
  subst hx
  refine ⟨[.fin a], rfl, by simp [hr], fun k p u hp hu => ?_⟩
  obtain _ | k := k
  · simp [optInfo] at hp hu
    subst hp hu
    exact ⟨fun _ => by rw [hr]; exact ⟨h0, h1⟩, by simp, by simp, by simp⟩
  · simp at hu

/-- Two members with a limit of two steps each, one stepped at a time: `run(10)` makes four steps, as many as C108_run_ends allows before the last one, and returns the condition of the pool
(with number 2); the best point is the one evaluated in the second step, 1. -/
example : ∃ ls q, Pool.Run optEnv (In.Plays False squareOf optInfo) 10 (limPool { concurrent := 1 } 2 2) ls q (some 2) ∧
    ls = [[squareIns 3 0], [squareIns 1 1], [squareIns 2 0], [squareIns 4 1]] ∧ q.bestFitness = .ok (.fin 1) ∧ q.bestPoint = .ok [.fin 1] := by
  let w : List ((Nat → In) × List Nat) := [(squareIns 3, [0, 1]), (squareIns 1, []), (squareIns 2, [0, 1]), (squareIns 4, [])]
  have hw : ∀ x ∈ w, ∀ i, (x.1 i).Plays False squareOf optInfo := by
    intro x hx i
    simp only [w, List.mem_cons, List.not_mem_nil, or_false] at hx
    rcases hx with rfl | rfl | rfl | rfl <;> exact squareIns_plays _ (by decide +kernel) (by decide +kernel) (by decide +kernel) i
  have h1 : (Pool.loopWith optEnv w (limPool { concurrent := 1 } 2 2)).map (fun x => (x.2.2, x.2.1.bestFitness, x.2.1.bestPoint)) = some (some 2, .ok (.fin 1), .ok [.fin 1]) := by decide +kernel
  have h2 : (Pool.loopWith optEnv w (limPool { concurrent := 1 } 2 2)).map (fun x => x.1) = some [[squareIns 3 0], [squareIns 1 1], [squareIns 2 0], [squareIns 4 1]] := by decide +kernel
  obtain ⟨⟨ls, q, r⟩, hx, hy⟩ := Option.map_eq_some_iff.1 h1
  rw [hx] at h2
  simp only [Option.map_some, Option.some.injEq] at h2
  simp only [Prod.mk.injEq] at hy
  obtain ⟨rfl, hb, hp⟩ := hy
  refine ⟨ls, q, ⟨by decide +kernel, loopWith_sound w _ _ _ _ _ hw hx (by decide) (by simp)⟩, h2, hb, hp⟩

/-- The members of that pool are as C108_solution and C108_run_ends ask. -/
example : Pool.Played optEnv (Opt.Ready optEnv optInfo) (In.Plays False squareOf optInfo) (Pool.init { concurrent := 1 } optInfo) [] (limPool { concurrent := 1 } 2 2) := by
  have h : ((Opt.new optInfo 0).addCond (.maxSteps 2)).Ready optEnv optInfo := ⟨[.addCond (.maxSteps 2)], rfl, by simp⟩
  exact (Pool.Played.nil.push h).push h

end Spot
