import Verif.Lemmas.Nested
import Verif.Props.Pool
import Verif.Model.PoolThrow

/-! # Facts about pools after steps that ended with an exception -/

namespace Spot

section
variable {M : Type} {I : Iface M} {info : ObjInfo} {Ok : M → Prop} {T : M → M → Prop}

theorem GBest.mono {o o' : List Nat} {p : PoolG M} (G : GBest I info Ok o p) (h : ∀ i ∈ o, i ∈ o') : GBest I info Ok o' p := by
  refine ⟨G.dir, G.mem, G.noneYet, fun k hk => ?_, fun i h1 h2 => G.low i h1 fun h3 => h2 (h i h3)⟩
  obtain ⟨h1, m, b, h2, h3, h4⟩ := G.isBest k hk
  exact ⟨h1, m, b, h2, h3, h4.imp id fun h4 => ⟨h _ h4.1, h4.2⟩⟩

/-- What a step, completed or not, does to a member. -/
def Grows (I : Iface M) (info : ObjInfo) (Ok : M → Prop) (m m' : M) : Prop :=
  Ok m → Ok m' ∧ ∀ b, bestsOf (I.view m) = .ok b → ∃ b', bestsOf (I.view m') = .ok b' ∧ (b' = b ∨ info.isBetter b'.1 b.1 = true)

theorem GBest.change {o : List Nat} {p : PoolG M} (G : GBest I info Ok o p) {i : Nat} (hi : i ∈ o) {m m' : M} (hm : p.members[i]? = some m) (hs : Grows I info Ok m m') :
    GBest I info Ok o { p with members := p.members.set i m' } := by
  have hl : i < p.members.length := (List.getElem?_eq_some_iff.1 hm).1
  obtain ⟨hok, hgr⟩ := hs (G.mem m (List.mem_of_getElem? hm))
  refine ⟨G.dir, fun x hx => ?_, G.noneYet, fun k hk => ?_, fun j hj hjo => ?_⟩
  · rcases List.mem_or_eq_of_mem_set hx with hx | rfl
    · exact G.mem x hx
    · exact hok
  · obtain ⟨h1, x, b, h2, h3, h4⟩ := G.isBest k hk
    refine ⟨h1, ?_⟩
    by_cases hik : i = k
    · subst hik
      rw [hm] at h2; cases h2
      obtain ⟨b', e1, e2⟩ := hgr b h3
      refine ⟨m', b', by simp [hl], e1, ?_⟩
      rcases e2 with rfl | e2
      · exact h4
      · rcases h4 with h4 | ⟨_, h4⟩
        · exact .inr ⟨hi, h4 ▸ e2⟩
        · exact .inr ⟨hi, better_trans e2 h4⟩
    · exact ⟨x, b, by simp only [List.getElem?_set_ne hik, h2], h3, h4⟩
  · obtain ⟨x, b, h2, h3, h4⟩ := G.low j hj hjo
    have hij : i ≠ j := by rintro rfl; exact hjo hi
    exact ⟨x, b, by simp only [List.getElem?_set_ne hij, h2], h3, h4⟩

theorem announced_append (a b : List Event) : announced (a ++ b) = announced a ++ announced b := List.filterMap_append

variable (L : I.Lawful info Ok)
include L

/-- What is done with a future, also if an exception is thrown. -/
theorem collectX_spec {p p' : PoolG M} {i : Nat} {r : Res Unit} (h : p.collect I i = (p', r)) (hr : r ≠ .ub) : ∃ m b, p.members[i]? = some m ∧ bestsOf (I.view m) = .ok b ∧
    LikeAll I Ok p'.members p.members ∧ p'.own = p.own ∧ p'.queue = p.queue ∧ p'.done = p.done ++ [i] ∧
    if p.bestIdx = none ∨ p.own.info.isBetter b.1 p.best = true
      then p'.bestIdx = some i ∧ p'.best = b.1 ∧ (announced p'.log = announced p.log ++ [b.1] ∨ r = .err ∧ announced p'.log = announced p.log)
      else p'.bestIdx = p.bestIdx ∧ p'.best = p.best ∧ announced p'.log = announced p.log := by
  unfold PoolG.collect at h
  split at h
  · cases h; exact absurd rfl hr
  · rename_i m hm
    split at h
    · rename_i v hv
      refine ⟨m, (v.bestFitness, v.bestPoint), hm, bestsOf_ok.2 ⟨v, hv, rfl, rfl⟩, ?_⟩
      have hc : (p.bestIdx.isNone || p.own.info.isBetter v.bestFitness p.best) = true ↔
          p.bestIdx = none ∨ p.own.info.isBetter v.bestFitness p.best = true := by
        simp
      rw [if_congr hc.symm rfl rfl]
      dsimp only at h ⊢
      generalize (p.bestIdx.isNone || p.own.info.isBetter v.bestFitness p.best) = nb at h
      cases nb with
      | false =>
        simp only [Bool.false_eq_true, if_false, Bool.false_and, if_true] at h ⊢
        split at h
        · cases h
          exact ⟨LikeAll.refl _, rfl, rfl, rfl, rfl, rfl, by simp [PoolG.signal, announced]⟩
        · cases h; exact absurd rfl hr
      | true =>
        simp only [if_true, Bool.true_and] at h ⊢
        cases hu : p.cfg.usePredicted with
        | false =>
          rw [hu] at h
          simp only [Bool.false_eq_true, if_false, if_true] at h
          split at h
          · cases h
            exact ⟨LikeAll.refl _, rfl, rfl, rfl, rfl, rfl, .inl (by simp [PoolG.signal, announced])⟩
          · cases h; exact absurd rfl hr
        | true =>
          rw [hu] at h
          simp only [if_true] at h
          split at h
          · split at h
            · cases h
              exact ⟨setTargets_like L _ _, rfl, rfl, rfl, rfl, rfl, .inl (by simp [PoolG.signal, announced])⟩
            · cases h; exact absurd rfl hr
          · cases h
            exact ⟨setTargets_like L _ _, rfl, rfl, rfl, rfl, rfl, .inr ⟨rfl, rfl⟩⟩
    · cases h; exact absurd rfl hr

theorem GBest.collectX {o : List Nat} {i : Nat} {p p' : PoolG M} {r : Res Unit} (G : GBest I info Ok o p) (h : p.collect I i = (p', r)) (hr : r ≠ .ub) :
    GBest I info Ok (o.filter (fun j => decide (j ≠ i))) p' := by
  obtain ⟨m, b, hm, hb, hl, ho, -, hd, hr⟩ := collectX_spec L h hr
  have hmem : ∀ m ∈ p'.members, Ok m := by
    intro x hx
    obtain ⟨k, hk⟩ := List.getElem?_of_mem hx
    obtain ⟨y, hy, hly⟩ := hl.back hk
    exact hly.1 (G.mem y (List.mem_of_getElem? hy))
  obtain ⟨m', hm', hlm⟩ := hl.get hm
  rw [isBetter_minimize G.dir] at hr
  have hdir : p'.own.info.minimize = info.minimize := by rw [ho]; exact G.dir
  split at hr
  · rename_i hc
    obtain ⟨h1, h2, -⟩ := hr
    refine ⟨hdir, hmem, by simp [h1], fun k hk => ?_, fun j hj hji => ?_⟩
    · rw [h1] at hk; cases hk
      exact ⟨by rw [hd]; simp, m', b, hm', hlm.2.trans hb, .inl h2.symm⟩
    · by_cases hij : j = i
      · subst hij
        exact ⟨m', b, hm', hlm.2.trans hb, by rw [h2]; exact better_irrefl _ _⟩
      · have hj : j ∈ p.done := by
          rw [hd] at hj
          simpa [hij] using hj
        obtain ⟨x, c, hx, hcx, h3⟩ := G.low j hj (fun hjo => hji (List.mem_filter.2 ⟨hjo, by simpa using hij⟩))
        obtain ⟨x', hx', hlx⟩ := hl.get hx
        refine ⟨x', c, hx', hlx.2.trans hcx, ?_⟩
        rw [h2]
        rcases hc with hc | hc
        · rw [G.noneYet hc] at hj; cases hj
        · by_contra hcon
          rw [Bool.not_eq_false] at hcon
          rw [better_trans hcon hc] at h3
          cases h3
  · rename_i hc
    obtain ⟨h1, h2, -⟩ := hr
    push Not at hc
    obtain ⟨hc1, hc2⟩ := hc
    refine ⟨hdir, hmem, fun hn => absurd (h1 ▸ hn) hc1, fun k hk => ?_, fun j hj hji => ?_⟩
    · rw [h1] at hk
      obtain ⟨a, x, c, hx, hcx, h3⟩ := G.isBest k hk
      obtain ⟨x', hx', hlx⟩ := hl.get hx
      refine ⟨by rw [hd]; simp [a], x', c, hx', hlx.2.trans hcx, ?_⟩
      rw [h2]
      rcases h3 with h3 | ⟨h3, h4⟩
      · exact .inl h3
      · by_cases hki : k = i
        · subst hki
          rw [hm] at hx; cases hx
          rw [hb] at hcx
          obtain rfl := Res.ok.inj hcx
          exact absurd h4 hc2
        · exact .inr ⟨List.mem_filter.2 ⟨h3, by simpa using hki⟩, h4⟩
    · by_cases hij : j = i
      · subst hij
        exact ⟨m', b, hm', hlm.2.trans hb, by rw [h2]; simpa using hc2⟩
      · have hj : j ∈ p.done := by
          rw [hd] at hj
          simpa [hij] using hj
        obtain ⟨x, c, hx, hcx, h3⟩ := G.low j hj (fun hjo => hji (List.mem_filter.2 ⟨hjo, by simpa using hij⟩))
        obtain ⟨x', hx', hlx⟩ := hl.get hx
        exact ⟨x', c, hx', hlx.2.trans hcx, by rw [h2]; exact h3⟩

omit L

/-- What has been announced: each fitness is better than those before, and the pool remembers one that is as good as all of them. -/
structure Told (info : ObjInfo) (p : PoolG M) : Prop where
  sorted : (announced p.log).Pairwise (fun a b => info.isBetter b a = true)
  known : ∀ a ∈ announced p.log, p.bestIdx ≠ none ∧ (p.best = a ∨ info.isBetter p.best a = true)
  queued : ∀ i ∈ p.queue, i < p.members.length

theorem Told.congr {p p' : PoolG M} (h : Told info p) (h1 : announced p'.log = announced p.log) (h2 : p'.bestIdx = p.bestIdx) (h3 : p'.best = p.best)
    (h4 : p'.members.length = p.members.length) (h5 : ∀ i ∈ p'.queue, i ∈ p.queue) : Told info p' :=
  ⟨h1 ▸ h.sorted, by rw [h1, h2, h3]; exact h.known, fun i hi => h4 ▸ h.queued i (h5 i hi)⟩

include L

theorem Told.collectX {i : Nat} {p p' : PoolG M} {r : Res Unit} (hd : p.own.info.minimize = info.minimize) (h : Told info p) (hc : p.collect I i = (p', r)) (hr : r ≠ .ub) : Told info p' := by
  obtain ⟨m, b, hm, hb, hl, ho, hq, -, hr⟩ := collectX_spec L hc hr
  have hlen : ∀ j ∈ p'.queue, j < p'.members.length := fun j hj => by
    rw [hl.length]; exact h.queued j (hq ▸ hj)
  rw [isBetter_minimize hd] at hr
  split at hr
  · rename_i hcond
    obtain ⟨h1, h2, h3⟩ := hr
    have hbet : ∀ a ∈ announced p.log, info.isBetter b.1 a = true := by
      intro a ha
      obtain ⟨k1, k2⟩ := h.known a ha
      rcases hcond with hcond | hcond
      · exact absurd hcond k1
      · rcases k2 with rfl | k2
        · exact hcond
        · exact better_trans hcond k2
    rcases h3 with h3 | ⟨-, h3⟩
    · refine ⟨?_, fun a ha => ?_, hlen⟩
      · rw [h3, List.pairwise_append]
        exact ⟨h.sorted, List.pairwise_singleton _ _, fun a ha c hc => by rw [List.mem_singleton.1 hc]; exact hbet a ha⟩
      · rw [h3] at ha
        refine ⟨by simp [h1], ?_⟩
        rw [h2]
        rcases List.mem_append.1 ha with ha | ha
        · exact .inr (hbet a ha)
        · exact .inl (List.mem_singleton.1 ha).symm
    · refine ⟨h3 ▸ h.sorted, fun a ha => ⟨by simp [h1], ?_⟩, hlen⟩
      rw [h2]
      exact .inr (hbet a (h3 ▸ ha))
  · obtain ⟨h1, h2, h3⟩ := hr
    exact ⟨h3 ▸ h.sorted, by rw [h3, h1, h2]; exact h.known, hlen⟩

variable (hT : ∀ m m', T m m' → Grows I info Ok m m')
include hT

/-- During a step. -/
structure XRun (I : Iface M) (info : ObjInfo) (Ok : M → Prop) (r : RunStX M) : Prop where
  inv : GBest I info Ok (r.futs ++ r.stale) r.pool
  sub : ∀ i ∈ r.running, i ∈ r.futs
  told : Told info r.pool
  futs : ∀ i ∈ r.futs, i < r.pool.members.length

theorem filter_futs {i : Nat} {is st : List Nat} : ∀ j ∈ ((i :: is) ++ st).filter (fun j => decide (j ≠ i)), j ∈ is ++ st.filter (fun j => decide (j ≠ i)) := by
  intro j hj
  obtain ⟨h1, h2⟩ := List.mem_filter.1 hj
  have h2 : j ≠ i := by simpa using h2
  simp only [List.cons_append, List.mem_cons, List.mem_append, h2, false_or] at h1
  rcases h1 with h1 | h1
  · exact List.mem_append_left _ h1
  · exact List.mem_append_right _ (List.mem_filter.2 ⟨h1, by simpa using h2⟩)

theorem XRun.step {r r' : RunStX M} (G : XRun I info Ok r) (st : RunStepX I T r r') : XRun I info Ok r' := by
  have set : ∀ {i : Nat} {m' : M}, Told info r.pool → Told info { r.pool with members := r.pool.members.set i m' } :=
    fun h => h.congr rfl rfl rfl (by simp) (fun _ h => h)
  have erase : ∀ {i : Nat}, ∀ j ∈ r.running.erase i, j ∈ r.futs := fun j hj => G.sub j (List.mem_of_mem_erase hj)
  have look : ∀ {i : Nat} {is : List Nat} {p : PoolG M} {x : Res Unit}, r.futs = i :: is → i ∉ r.running → r.pool.collect I i = (p, x) → x ≠ .ub →
      GBest I info Ok (is ++ r.stale.filter (fun j => decide (j ≠ i))) p ∧ (∀ j ∈ r.running, j ∈ is) ∧ Told info p ∧ ∀ j ∈ is, j < p.members.length := by
    intro i is p x hf hr hc hx
    have G0 := G.inv
    rw [hf] at G0
    refine ⟨(G0.collectX L hc hx).mono (filter_futs L hT), fun j hj => ?_, G.told.collectX L G.inv.dir hc hx, fun j hj => ?_⟩
    · have := G.sub j hj
      rw [hf] at this
      rcases List.mem_cons.1 this with rfl | h'
      · exact absurd hj hr
      · exact h'
    · obtain ⟨m, b, hm, hb, hl, -⟩ := collectX_spec L hc hx
      rw [hl.length]
      exact G.futs j (by rw [hf]; exact List.mem_cons_of_mem _ hj)
  cases st with
  | @finish i m m' h hm hs =>
    exact ⟨G.inv.change (List.mem_append_left _ (G.sub i h)) hm (fun hok => ⟨L.stepOk hok hs, fun b hb => L.step hok hs hb⟩), erase, set G.told, by simpa using G.futs⟩
  | @fail i m m' h hm hs => exact ⟨G.inv.change (List.mem_append_left _ (G.sub i h)) hm (hT m m' hs), erase, set G.told, by simpa using G.futs⟩
  | @collect i is p ht h hr hf hc =>
    obtain ⟨a, b, c, d⟩ := look h hr hc (by simp)
    exact ⟨a, b, c, d⟩
  | @throws i is p ht h hr hf hc =>
    obtain ⟨a, b, c, d⟩ := look h hr hc (by simp)
    exact ⟨a, b, c, d⟩
  | rethrow ht h hr hf => exact ⟨G.inv, G.sub, G.told, G.futs⟩
  | drop ht h => exact ⟨G.inv, erase, G.told, G.futs⟩
  | interrupt =>
    have hl := interrupt_like L r.pool.members
    exact ⟨G.inv.congr hl rfl rfl rfl rfl, G.sub, G.told.congr rfl rfl rfl hl.length (fun _ h => h), fun i hi => by
      show i < (r.pool.members.map I.interrupt).length
      rw [hl.length]; exact G.futs i hi⟩

theorem XRun.exec {r r' : RunStX M} (h : RunExecX I T r r') (G : XRun I info Ok r) : XRun I info Ok r' := by
  induction h with
  | nil => exact G
  | snoc _ st ih => exact XRun.step L hT ih st

omit hT

theorem begin_fields (p : PoolG M) : p.begin.members = p.members ∧ p.begin.own = p.own ∧ p.begin.best = p.best ∧ p.begin.bestIdx = p.bestIdx ∧ p.begin.done = p.done ∧
    p.begin.queue = p.queue ∧ announced p.begin.log = announced p.log ∧ p.begin.cfg = p.cfg := by
  unfold PoolG.begin
  split <;> simp [PoolG.signal, announced]

/-- What refilling the queue and testing conditions leave alone. -/
theorem testStopX_fields (E : OptEnv) (p : PoolG M) : (p.testStop I E).1.queue = p.queue ∧ announced (p.testStop I E).1.log = announced p.log := by
  have h : ∀ (cs : List PCond) (k : Nat) (p : PoolG M), (PoolG.testLoop I E k cs p).1.queue = p.queue ∧ (PoolG.testLoop I E k cs p).1.log = p.log := by
    intro cs
    induction cs with
    | nil => exact fun _ _ => ⟨rfl, rfl⟩
    | cons c cs ih =>
      intro k p
      have h1 : (p.testCond I E c).1.queue = p.queue ∧ (p.testCond I E c).1.log = p.log := by
        cases c with
        | allStopped => exact ⟨rfl, rfl⟩
        | own c => simp only [PoolG.testCond]; split <;> exact ⟨rfl, rfl⟩
      unfold PoolG.testLoop
      split
      · rename_i heq; rw [heq] at h1; exact h1
      · rename_i p' heq; rw [heq] at h1
        obtain ⟨b1, b2⟩ := ih (k + 1) p'
        exact ⟨b1.trans h1.1, b2.trans h1.2⟩
      · rename_i heq; rw [heq] at h1; exact h1
      · rename_i heq; rw [heq] at h1; exact h1
  have h := h p.conds 0 p
  unfold PoolG.testStop
  split
  · exact ⟨rfl, rfl⟩
  · split
    · rename_i heq; rw [heq] at h
      exact ⟨h.1, by simp only [PoolG.signal, announced_append]; rw [h.2]; simp [announced]⟩
    · rename_i heq; rw [heq] at h; exact ⟨h.1, by rw [h.2]⟩

omit L in
theorem fillLoopG_sub (c : Nat) (preds : List Dbl) : ∀ (is q q' : List Nat) (ms ms' : List M), fillLoopG I c preds is q ms = (ms', .ok q') → ∀ i ∈ q', i ∈ q ∨ i ∈ is
  | [], q, q', ms, ms', h => by cases h; exact fun i hi => .inl hi
  | i :: is, q, q', ms, ms', h => by
    unfold fillLoopG at h
    split at h
    · cases h
    · split at h
      · cases h; exact fun i hi => .inl hi
      · dsimp only at h
        split at h
        · cases h
          intro j hj
          rcases List.mem_append.1 hj with hj | hj
          · exact .inl hj
          · exact .inr (by rw [List.mem_singleton.1 hj]; exact List.mem_cons_self)
        · intro j hj
          rcases fillLoopG_sub c preds is _ q' _ ms' h j hj with hj | hj
          · rcases List.mem_append.1 hj with hj | hj
            · exact .inl hj
            · exact .inr (by rw [List.mem_singleton.1 hj]; exact List.mem_cons_self)
          · exact .inr (List.mem_cons_of_mem _ hj)
      · cases h
      · cases h

omit L in
theorem predictLoopG_preds (cfg : PoolCfg) (inf : ObjInfo) : ∀ (ms ms' : List M) (n : Nat) (preds : List Dbl), predictLoopG I cfg inf n ms = (ms', .ok preds) → preds.length = ms.length
  | [], _, _, _, h => by cases h; rfl
  | m :: ms, ms', n, preds, h => by
    have tail : ∀ {k : Nat} {x : Dbl} {w : M}, ((w :: (predictLoopG I cfg inf k ms).1, (predictLoopG I cfg inf k ms).2 >>= fun xs => Res.ok (x :: xs)) : List M × Res (List Dbl)) = (ms', .ok preds) →
        preds.length = (m :: ms).length := by
      intro k x w hh
      obtain ⟨-, h2⟩ := Prod.mk.inj hh
      obtain ⟨xs, h3, h4⟩ := Res.bind_eq_ok.1 h2
      obtain rfl := Res.ok.inj h4
      simpa using predictLoopG_preds cfg inf ms _ k xs (Prod.ext rfl h3)
    unfold predictLoopG at h
    split at h
    · split at h
      · dsimp only at h
        split at h
        · exact tail h
        · cases h
        · cases h
      · exact tail h
      · cases h
      · cases h
    · exact tail h

omit L in
theorem sortedOrder_lt {inf : ObjInfo} {preds : List Dbl} {ord : List Nat} (h : SortedOrder inf preds ord) : ∀ i ∈ ord, i < preds.length := by
  intro i hi
  have := h.1.mem_iff.1 hi
  simpa using this

include hT

/-- The members are being stepped. -/
theorem runX_inv {p p₂ : PoolG M} {S sel : List Nat} {t : RunStX M} (G : GBest I info Ok S p) (hp : Told info p) (h2 : RefillG I p.begin sel p₂) (h3 : RunExecX I T (p₂.launchX S) t) :
    XRun I info Ok t := by
  obtain ⟨b1, b2, b3, b4, b5, b6, b7, -⟩ := begin_fields L p
  have Gb : GBest I info Ok S p.begin := G.congr (by rw [b1]; exact LikeAll.refl _) (by rw [b2]) b3 b4 b5
  have Pb : Told info p.begin := hp.congr b7 b4 b3 (by rw [b1]) (by rw [b6]; exact fun _ h => h)
  obtain ⟨f1, f2, f3, f4, f5, f6⟩ := refillG_fields (Ok := Ok) L h2
  have G2 : GBest I info Ok S p₂ := Gb.congr f1 (by rw [f2]) f4 f5 f6
  have P2 : Told info p₂ := by
    have hlog : p₂.log = p.begin.log := by cases h2 <;> rfl
    refine ⟨hlog ▸ Pb.sorted, by rw [hlog, f4, f5]; exact Pb.known, ?_⟩
    cases h2 with
    | keep h => exact Pb.queued
    | @fill ms ms' preds ord q h hp ho hf hb ht =>
      intro i hi
      have h1 := predictLoopG_preds _ _ _ _ _ _ hp
      show i < ms'.length
      rw [f1.length, ← h1]
      rcases fillLoopG_sub _ _ _ _ _ _ _ hf i hi with hi | hi
      · cases hi
      · exact sortedOrder_lt ho i hi
  refine XRun.exec L hT h3 ⟨?_, fun i hi => hi, ?_, fun i hi => P2.queued i (List.mem_of_mem_take hi)⟩
  · exact (G2.congr (p' := (p₂.launchX S).pool) (LikeAll.refl _) rfl rfl rfl rfl).mono (fun i hi => List.mem_append_right _ hi)
  · exact P2.congr rfl rfl rfl rfl (fun i hi => List.mem_of_mem_drop hi)

/-- A step, completed or not. -/
theorem stepX_inv {E : OptEnv} {p p' : PoolG M} {S S' : List Nat} {x : Bool} (G : GBest I info Ok S p) (hp : Told info p) (st : PoolG.StepX I T E p S p' S' x) :
    GBest I info Ok S' p' ∧ Told info p' := by
  obtain ⟨b1, b2, b3, b4, b5, b6, b7, -⟩ := begin_fields L p
  have Gb : GBest I info Ok S p.begin := G.congr (by rw [b1]; exact LikeAll.refl _) (by rw [b2]) b3 b4 b5
  have Pb : Told info p.begin := hp.congr b7 b4 b3 (by rw [b1]) (by rw [b6]; exact fun _ h => h)
  have go : ∀ {p₂ : PoolG M} {t : RunStX M} {sel : List Nat}, RefillG I p.begin sel p₂ → RunExecX I T (p₂.launchX S) t → XRun I info Ok t := runX_inv L hT G hp
  have test : ∀ {t : RunStX M} {p₃ : PoolG M} {r : Res (Option Nat)}, XRun I info Ok t → t.futs = [] → PoolG.testStop I E t.pool.made = (p₃, r) → GBest I info Ok t.stale p₃ ∧ Told info p₃ := by
    intro t p₃ r X hfu h4
    have hf := testStopG_fields (Ok := Ok) L E t.pool.made
    have hx := testStopX_fields L E t.pool.made
    rw [h4] at hf hx
    have G3 := X.inv
    rw [hfu] at G3
    have hci := (core_ext hf.2.1).1
    refine ⟨G3.congr hf.1 (congrArg _ hci) hf.2.2.2.1 hf.2.2.2.2.1 hf.2.2.2.2.2, X.told.congr ?_ hf.2.2.2.2.1 hf.2.2.2.1 hf.1.length (by rw [hx.1]; exact fun _ h => h)⟩
    rw [hx.2]
    simp [PoolG.made, PoolG.signal, announced]
  cases st with
  | ends hd hne h2 h3 hend h4 => exact test (go h2 h3) hend.2.1 h4
  | dim hd => exact ⟨G, hp⟩
  | predicting hd hne hq hpr =>
    have h1 := predictLoop_like (Ok := Ok) L p.cfg p.own.info p.members 0
    rw [hpr] at h1
    rw [← b1] at h1
    exact ⟨Gb.congr h1 rfl rfl rfl rfl, Pb.congr rfl rfl rfl h1.length (fun _ h => h)⟩
  | filling hd hne hq hpr ho hf hpre =>
    have h1 := predictLoop_like (Ok := Ok) L p.cfg p.own.info p.members 0
    have h2 : LikeAll I Ok _ _ := (congrArg (fun x => LikeAll I Ok x.1 _) hf).mp (fillLoop_like (Ok := Ok) L _ _ _ _ _)
    rw [hpr] at h1
    have hl := h2.trans h1
    rw [← b1] at hl
    refine ⟨Gb.congr hl rfl rfl rfl rfl, Pb.sorted, Pb.known, fun i hi => ?_⟩
    refine lt_of_lt_of_eq (b := p.members.length) ?_ ((hl.length.trans (by rw [b1])).symm)
    rw [← predictLoopG_preds _ _ _ _ _ _ hpr]
    exact sortedOrder_lt ho i (hpre.subset hi)
  | running hd hne h2 h3 hend => exact ⟨(go h2 h3).inv, (go h2 h3).told⟩
  | testing hd hne h2 h3 hend h4 => exact test (go h2 h3) hend.2.1 h4

theorem histX_inv {E : OptEnv} {p p' : PoolG M} {S : List Nat} (h : PoolG.HistX I T E Ok p p' S) (G : GBest I info Ok [] p) (hp : Told info p) : GBest I info Ok S p' ∧ Told info p' := by
  induction h with
  | nil => exact ⟨G, hp⟩
  | step h st ih => exact stepX_inv L hT ih.1 ih.2 st
  | @push q S m h hm ih =>
    have hnew : Ok (if q.cfg.usePredicted then I.addCond (.predicted q.own.info.worstFitness q.cfg.lookAhead q.cfg.start) (I.setWindow q.cfg.window m) else I.setWindow q.cfg.window m) := by
      split
      · exact (L.addCond _ _).1 ((L.setWindow _ _).1 hm)
      · exact (L.setWindow _ _).1 hm
    have hget : ∀ {k : Nat} {x : M}, q.members[k]? = some x → (q.push I m).members[k]? = some x := fun h =>
      (List.getElem?_append_left (List.getElem?_eq_some_iff.1 h).1).trans h
    refine ⟨⟨ih.1.dir, fun x hx => ?_, ih.1.noneYet, fun k hk => ?_, fun i h1 h2 => ?_⟩, ih.2.sorted, ih.2.known, fun i hi => ?_⟩
    · rcases List.mem_append.1 hx with hx | hx
      · exact ih.1.mem x hx
      · rw [List.mem_singleton.1 hx]; exact hnew
    · obtain ⟨a, x, b, hx, hb, h⟩ := ih.1.isBest k hk
      exact ⟨a, x, b, hget hx, hb, h⟩
    · obtain ⟨x, b, hx, h⟩ := ih.1.low i h1 h2
      exact ⟨x, b, hget hx, h⟩
    · have := ih.2.queued i hi
      show i < (q.members ++ [_]).length
      simp only [List.length_append, List.length_singleton]
      omega
  | @addCond q S c h ih =>
    have hi : (q.addCond c).own.info.minimize = q.own.info.minimize := by unfold PoolG.addCond; dsimp only; split <;> rfl
    exact ⟨ih.1.congr (LikeAll.refl _) hi rfl rfl rfl, ih.2.congr rfl rfl rfl rfl (fun _ h => h)⟩
  | @setWindow q S n h ih => exact ⟨ih.1.congr (LikeAll.refl _) rfl rfl rfl rfl, ih.2.congr rfl rfl rfl rfl (fun _ h => h)⟩
  | @predicted q S n h ih =>
    exact ⟨ih.1.congr (LikeAll.refl _) (congrArg _ (core_ext (predicted_core E q.own n)).1) rfl rfl rfl, ih.2.congr rfl rfl rfl rfl (fun _ h => h)⟩
  | @setTarget q S f cs h hc ih => exact ⟨ih.1.congr (LikeAll.refl _) rfl rfl rfl rfl, ih.2.congr rfl rfl rfl rfl (fun _ h => h)⟩
  | @interrupt q S h ih =>
    have hl := interrupt_like (Ok := Ok) L q.members
    exact ⟨ih.1.congr hl rfl rfl rfl rfl, ih.2.congr rfl rfl rfl hl.length (fun _ h => h)⟩
  | @test q S h ih =>
    have hf := testStopG_fields (Ok := Ok) L E q
    have hx := testStopX_fields L E q
    exact ⟨ih.1.congr hf.1 (congrArg _ (core_ext hf.2.1).1) hf.2.2.2.1 hf.2.2.2.2.1 hf.2.2.2.2.2, ih.2.congr hx.2 hf.2.2.2.2.1 hf.2.2.2.1 hf.1.length (by rw [hx.1]; exact fun _ h => h)⟩

omit hT in
/-- What happens to the lists and to the members that are not stepped. -/
structure XTrack (I : Iface M) (Ok : M → Prop) (p₀ : PoolG M) (fs S : List Nat) (r : RunStX M) : Prop where
  looked : ∃ l, fs = l ++ r.futs ∧ r.pool.done = p₀.done ++ l ∧ ∀ j, j ∈ r.stale ↔ j ∈ S ∧ j ∉ l
  sub : ∀ i ∈ r.running, i ∈ fs
  steps : r.pool.own.stepCount = p₀.own.stepCount
  others : ∀ j, j ∉ fs → ∀ m, p₀.members[j]? = some m → ∃ m', r.pool.members[j]? = some m' ∧ I.Like Ok m' m
  length : r.pool.members.length = p₀.members.length

omit hT in
theorem XTrack.step {p₀ : PoolG M} {fs S : List Nat} {r r' : RunStX M} (G : XTrack I Ok p₀ fs S r) (st : RunStepX I T r r') : XTrack I Ok p₀ fs S r' := by
  have set : ∀ {i : Nat} {m' : M}, i ∈ r.running → ∀ j, j ∉ fs → ∀ m, p₀.members[j]? = some m → ∃ x, (r.pool.members.set i m')[j]? = some x ∧ I.Like Ok x m := by
    intro i m' hi j hj m hm
    have hij : i ≠ j := by rintro rfl; exact hj (G.sub i hi)
    rw [List.getElem?_set_ne hij]
    exact G.others j hj m hm
  have like : ∀ {ms : List M}, LikeAll I Ok ms r.pool.members → ∀ j, j ∉ fs → ∀ m, p₀.members[j]? = some m → ∃ x, ms[j]? = some x ∧ I.Like Ok x m := by
    intro ms hl j hj m hm
    obtain ⟨x, hx, hlx⟩ := G.others j hj m hm
    obtain ⟨y, hy, hly⟩ := hl.get hx
    exact ⟨y, hy, Like.trans hly hlx⟩
  have look : ∀ {i : Nat} {is : List Nat} {p : PoolG M} {x : Res Unit}, r.futs = i :: is → r.pool.collect I i = (p, x) → x ≠ .ub →
      (∃ l, fs = l ++ is ∧ p.done = p₀.done ++ l ∧ ∀ j, j ∈ r.stale.filter (fun j => decide (j ≠ i)) ↔ j ∈ S ∧ j ∉ l) ∧ LikeAll I Ok p.members r.pool.members ∧ p.own = r.pool.own := by
    intro i is p x hf hc hx
    obtain ⟨m, b, hm, hb, hl, ho, -, hd, -⟩ := collectX_spec L hc hx
    obtain ⟨l, h1, h2, h3⟩ := G.looked
    refine ⟨⟨l ++ [i], by rw [h1, hf]; simp, by rw [hd, h2]; simp, fun j => ?_⟩, hl, ho⟩
    rw [List.mem_filter, h3]
    simp only [decide_eq_true_eq, List.mem_append, List.mem_singleton]
    tauto
  have erase : ∀ {i : Nat}, ∀ j ∈ r.running.erase i, j ∈ fs := fun j hj => G.sub j (List.mem_of_mem_erase hj)
  cases st with
  | finish h hm hs => exact ⟨G.looked, erase, G.steps, set h, by simpa using G.length⟩
  | fail h hm hs => exact ⟨G.looked, erase, G.steps, set h, by simpa using G.length⟩
  | collect ht h hr hf hc =>
    obtain ⟨a, b, c⟩ := look h hc (by simp)
    exact ⟨a, G.sub, by rw [c]; exact G.steps, like b, b.length.trans G.length⟩
  | throws ht h hr hf hc =>
    obtain ⟨a, b, c⟩ := look h hc (by simp)
    exact ⟨a, G.sub, by rw [c]; exact G.steps, like b, b.length.trans G.length⟩
  | rethrow ht h hr hf => exact ⟨G.looked, G.sub, G.steps, G.others, G.length⟩
  | drop ht h => exact ⟨G.looked, erase, G.steps, G.others, G.length⟩
  | interrupt =>
    have hl := interrupt_like (Ok := Ok) L r.pool.members
    exact ⟨G.looked, G.sub, G.steps, like hl, hl.length.trans G.length⟩

omit hT in
theorem XTrack.exec {p₀ : PoolG M} {fs S : List Nat} {r r' : RunStX M} (h : RunExecX I T r r') (G : XTrack I Ok p₀ fs S r) : XTrack I Ok p₀ fs S r' := by
  induction h with
  | nil => exact G
  | snoc _ st ih => exact XTrack.step L ih st

omit hT in
/-- What a step does to the lists, the number of steps, and the members that are not stepped. -/
theorem stepX_track {E : OptEnv} {p p' : PoolG M} {S S' : List Nat} {x : Bool} (st : PoolG.StepX I T E p S p' S' x) :
    ∃ l l', (l ++ l').length ≤ p.cfg.concurrent ∧ p'.done = p.done ++ l ∧ (x = false → l' = []) ∧ (∀ j, j ∈ S' ↔ j ∈ l' ∨ (j ∈ S ∧ j ∉ l)) ∧
      p'.members.length = p.members.length ∧ (∀ j, j ∉ l ++ l' → ∀ m, p.members[j]? = some m → ∃ m', p'.members[j]? = some m' ∧ I.Like Ok m' m) ∧
      (x = false → p'.own.stepCount = p.own.stepCount + 1) ∧ (p'.own.stepCount = p.own.stepCount ∨ p'.own.stepCount = p.own.stepCount + 1) := by
  obtain ⟨b1, b2, -, -, b5, -, -, b8⟩ := begin_fields L p
  have go : ∀ {p₂ : PoolG M} {t : RunStX M} {sel : List Nat}, RefillG I p.begin sel p₂ → RunExecX I T (p₂.launchX S) t →
      ∃ fs : List Nat, fs.length ≤ p.cfg.concurrent ∧ XTrack I Ok p fs S t := by
    intro p₂ t sel h2 h3
    obtain ⟨f1, f2, -, -, -, f6⟩ := refillG_fields (Ok := Ok) L h2
    have hcfg : p₂.cfg = p.cfg := by rw [← b8]; cases h2 <;> rfl
    refine ⟨p₂.queue.take p₂.cfg.concurrent, by rw [hcfg]; simp, XTrack.exec L h3 ⟨⟨[], rfl, ?_, fun j => by simp [PoolG.launchX]⟩, fun i hi => hi, ?_, fun j _ m hm => ?_, ?_⟩⟩
    · rw [List.append_nil, ← b5, ← f6]; rfl
    · show p₂.own.stepCount = _
      rw [f2, b2]
    · exact f1.get (by rw [b1]; exact hm)
    · exact f1.length.trans (by rw [b1])
  have test : ∀ {t : RunStX M} {p₃ : PoolG M} {r : Res (Option Nat)} {fs : List Nat} {x : Bool}, XTrack I Ok p fs S t → fs.length ≤ p.cfg.concurrent → t.futs = [] → PoolG.testStop I E t.pool.made = (p₃, r) →
      ∃ l l', (l ++ l').length ≤ p.cfg.concurrent ∧ p₃.done = p.done ++ l ∧ (x = false → l' = []) ∧ (∀ j, j ∈ t.stale ↔ j ∈ l' ∨ (j ∈ S ∧ j ∉ l)) ∧
      p₃.members.length = p.members.length ∧ (∀ j, j ∉ l ++ l' → ∀ m, p.members[j]? = some m → ∃ m', p₃.members[j]? = some m' ∧ I.Like Ok m' m) ∧
      (x = false → p₃.own.stepCount = p.own.stepCount + 1) ∧ (p₃.own.stepCount = p.own.stepCount ∨ p₃.own.stepCount = p.own.stepCount + 1) := by
    intro t p₃ r fs x X hlen hfu h4
    have hf := testStopG_fields (Ok := Ok) L E t.pool.made
    rw [h4] at hf
    have hsc : p₃.own.stepCount = p.own.stepCount + 1 := by
      rw [(core_ext hf.2.1).2.1]
      show t.pool.own.stepCount + 1 = _
      rw [X.steps]
    obtain ⟨l, h1, h2, h3⟩ := X.looked
    rw [hfu, List.append_nil] at h1
    subst h1
    refine ⟨fs, [], by simpa using hlen, ?_, fun _ => rfl, fun j => by simpa using h3 j, hf.1.length.trans X.length, fun j hj m hm => ?_, fun _ => hsc, .inr hsc⟩
    · rw [hf.2.2.2.2.2]; exact h2
    · obtain ⟨y, hy, hly⟩ := X.others j (by simpa using hj) m hm
      obtain ⟨z, hz, hlz⟩ := hf.1.get hy
      exact ⟨z, hz, Like.trans hlz hly⟩
  have none : ∀ {q : PoolG M}, q.done = p.done → q.own.stepCount = p.own.stepCount → LikeAll I Ok q.members p.members →
      ∃ l l', (l ++ l').length ≤ p.cfg.concurrent ∧ q.done = p.done ++ l ∧ (true = false → l' = []) ∧ (∀ j, j ∈ S ↔ j ∈ l' ∨ (j ∈ S ∧ j ∉ l)) ∧
      q.members.length = p.members.length ∧ (∀ j, j ∉ l ++ l' → ∀ m, p.members[j]? = some m → ∃ m', q.members[j]? = some m' ∧ I.Like Ok m' m) ∧
      (true = false → q.own.stepCount = p.own.stepCount + 1) ∧ (q.own.stepCount = p.own.stepCount ∨ q.own.stepCount = p.own.stepCount + 1) := by
    intro q h1 h2 h3
    exact ⟨[], [], by simp, by simpa using h1, fun h => (Bool.noConfusion h), fun j => by simp, h3.length, fun j _ m hm => h3.get hm, fun h => Bool.noConfusion h, .inl h2⟩
  cases st with
  | ends hd hne h2 h3 hend h4 =>
    obtain ⟨fs, a, b⟩ := go h2 h3
    exact test b a hend.2.1 h4
  | testing hd hne h2 h3 hend h4 =>
    obtain ⟨fs, a, b⟩ := go h2 h3
    exact test b a hend.2.1 h4
  | dim hd => exact none rfl rfl (LikeAll.refl _)
  | predicting hd hne hq hpr =>
    have h1 := predictLoop_like (Ok := Ok) L p.cfg p.own.info p.members 0
    rw [hpr] at h1
    exact none b5 (by show p.begin.own.stepCount = _; rw [b2]) h1
  | filling hd hne hq hpr ho hf hpre =>
    have h1 := predictLoop_like (Ok := Ok) L p.cfg p.own.info p.members 0
    have h2 : LikeAll I Ok _ _ := (congrArg (fun x => LikeAll I Ok x.1 _) hf).mp (fillLoop_like (Ok := Ok) L _ _ _ _ _)
    rw [hpr] at h1
    exact none b5 (by show p.begin.own.stepCount = _; rw [b2]) (h2.trans h1)
  | running hd hne h2 h3 hend =>
    obtain ⟨fs, a, X⟩ := go h2 h3
    obtain ⟨l, h1, h2, h3⟩ := X.looked
    refine ⟨l, _, by rw [← h1]; exact a, h2, fun h => Bool.noConfusion h, fun j => ?_, X.length, fun j hj m hm => X.others j (by rw [h1]; exact hj) m hm, fun h => Bool.noConfusion h, .inl X.steps⟩
    rw [List.mem_append, h3]

end

/-- A step of an optimizer that ends with an exception. -/
theorem throws_grows (E : OptEnv) (info : ObjInfo) (m m' : Opt) (h : Opt.Throws E m m') : Grows (Opt.iface E) info (Opt.Fits info.minimize) m m' := by
  obtain ⟨i, x, hx, hm⟩ := h
  have same : m'.vis.bestFitness = x.vis.bestFitness ∧ m'.vis.bestPoint = x.vis.bestPoint ∧ m'.vis.info = x.vis.info := by
    rcases hm with rfl | rfl <;> exact ⟨rfl, rfl, rfl⟩
  intro hf
  have key : x.vis.info = m.vis.info ∧ (x.vis.bestFitness = m.vis.bestFitness ∧ x.vis.bestPoint = m.vis.bestPoint ∨ info.isBetter x.vis.bestFitness m.vis.bestFitness = true) := by
    rcases hx with hx | hx
    · have hv : x.vis = m.vis := by
        unfold Opt.stages at hx
        split at hx
        · rw [List.mem_singleton.1 hx]
        · dsimp only at hx
          simp only [List.mem_cons, List.not_mem_nil, or_false] at hx
          rcases hx with rfl | rfl <;> split <;> rfl
      rw [hv]
      exact ⟨rfl, .inl ⟨rfl, rfl⟩⟩
    · have h1 := (step_best E m i).1
      have h2 := step_bestPoint E m i
      rw [hx] at h1 h2
      rw [isBetter_minimize hf.2] at h2
      exact ⟨h1, h2⟩
  refine ⟨⟨?_, ?_⟩, fun b hb => ?_⟩
  · rw [same.1]
    rcases key.2 with h | h
    · rw [h.1]; exact hf.1
    · exact (better_ne_nan h).1
  · rw [same.2.2, key.1]; exact hf.2
  · obtain rfl := Res.ok.inj (hb : Res.ok (m.vis.bestFitness, m.vis.bestPoint) = _)
    refine ⟨(m'.vis.bestFitness, m'.vis.bestPoint), rfl, ?_⟩
    rw [same.1, same.2.1]
    rcases key.2 with h | h
    · exact .inl (Prod.ext h.1 h.2)
    · exact .inr h

end Spot
