import Verif.Lemmas.Async
import Verif.Lemmas.PooledEnd
import Verif.Spec.Optimizer

/-!
# C33 - C39: evaluators
-/

namespace Spot.Evaluators

variable {α F : Type}

/-! ## C33 -/

theorem C33_sequential {o : Objective α F} {pts : List α} {rs evs} (h : Sequential o pts rs evs) :
    evs.map Prod.fst = pts ∧ (∀ e ∈ evs, o e.1 e.2) ∧ rs = evs.map (fun e => evaluateNoexcept e.2) := by
  induction h with
  | nil => simp
  | cons h t ih => obtain ⟨h1, h2, h3⟩ := ih; simp_all

theorem C33_batch {o : Objective α F} {pts : List α} {s : BSt F} (h : Relation.ReflTransGen (BStep o pts) {} s)
    (hr : s.pc = .returned) : Correct o pts s.log s.results := by
  have I := BInv.reach h
  have hlen := I.len
  rw [hr] at hlen
  refine ⟨hlen, ?_, I.only⟩
  intro i p hp
  have hi : i < pts.length := by
    by_contra hc; rw [List.getElem?_eq_none (by omega)] at hp; simp at hp
  obtain ⟨_, p', r, h1, h2, h3⟩ := I.fetched i (by rw [hr]; exact hi)
  rw [hp] at h1; simp only [Option.some.injEq] at h1; subst h1
  exact ⟨r, h2, h3⟩

theorem C33_async {o : Objective α F} {pts : List α} {tc : Nat} {ks} {s : ASt F}
    (h : Exec (AStep o pts tc) ks (ASt.init F pts.length) s) (hr : s.pc = .returned) :
    ∃ rs, s.results = rs.map some ∧ Correct o pts s.log rs := by
  have I := AInv.reach h rfl
  have hd : ∀ i, i < pts.length → ∃ p r, pts[i]? = some p ∧ s.results[i]? = some (some r) ∧ Evaluated o s.log i p r := by
    intro i hi
    exact (I.dead i (by simpa [hr, APc.launched] using hi) (by simp [ASt.live, ASt.pos, hr])).2
  have hall : ∀ x ∈ s.results, ∃ r, x = some r := by
    intro x hx
    obtain ⟨i, hi⟩ := List.getElem?_of_mem hx
    have hlt : i < pts.length := by
      rw [← I.len]
      by_contra hc; rw [List.getElem?_eq_none (by omega)] at hi; simp at hi
    obtain ⟨_, r, _, h2, _⟩ := hd i hlt
    rw [hi] at h2; exact ⟨r, by simpa using h2⟩
  have : ∃ rs : List (Result F), s.results = rs.map some := by
    generalize s.results = l at hall
    induction l with
    | nil => exact ⟨[], rfl⟩
    | cons x xs ih =>
      obtain ⟨r, rfl⟩ := hall x (by simp)
      obtain ⟨rs, rfl⟩ := ih (fun x hx => hall x (by simp [hx]))
      exact ⟨r :: rs, rfl⟩
  obtain ⟨rs, hrs⟩ := this
  refine ⟨rs, hrs, by rw [← I.len, hrs]; simp, ?_, I.only⟩
  intro i p hp
  have hi : i < pts.length := by
    by_contra hc; rw [List.getElem?_eq_none (by omega)] at hp; simp at hp
  obtain ⟨p', r, h1, h2, h3⟩ := hd i hi
  rw [hp] at h1; simp only [Option.some.injEq] at h1; subst h1
  rw [hrs, List.getElem?_map] at h2
  refine ⟨r, ?_, h3⟩
  cases hx : rs[i]? with
  | none => rw [hx] at h2; simp at h2
  | some y => rw [hx] at h2; simpa using h2

/-- Steps a call of `batch_evaluator::evaluate` still has to make. -/
def BSt.left (n : Nat) (s : BSt F) : Nat :=
  (match s.pc with | .launch _ => 2 | .get _ => 1 | .returned => 0) + ((List.range n).map (fun i => (s.fut i).left)).sum

/-- `batch_evaluator::evaluate` takes at most `4 n + 2` steps, and until it returns some thread can take one. -/
theorem C33_batch_returns {o : Objective α F} (ho : ∀ p, ∃ out, o p out) (pts : List α) :
    (∀ s, Relation.ReflTransGen (BStep o pts) {} s → s.pc ≠ .returned → ∃ t, BStep o pts s t) ∧
    (∀ (run : Nat → BSt F) k, run 0 = {} → (∀ j, j < k → BStep o pts (run j) (run (j + 1))) → k ≤ 4 * pts.length + 2) ∧
    ∃ s, Relation.ReflTransGen (BStep o pts) {} s ∧ s.pc = .returned := by
  have hprog : ∀ s, Relation.ReflTransGen (BStep o pts) {} s → s.pc ≠ .returned → ∃ t, BStep o pts s t := by
    intro s h hn
    have I := BInv.reach h
    have hl : ∀ i, s.fut i ≠ .absent → i < pts.length := by
      intro i hi
      by_contra hc
      exact hi (I.absent i (le_trans I.le.1 (by omega)))
    cases hpc : s.pc with
    | launch i =>
      have hle := I.le.1
      simp only [hpc, BPc.launched] at hle
      rcases Nat.lt_or_eq_of_le hle with hi | hi
      · exact ⟨_, .launch hpc hi⟩
      · exact ⟨_, .launched hpc hi⟩
    | get k =>
      have hle := I.le.2
      simp only [hpc, BPc.launched, BPc.fetched] at hle
      rcases Nat.lt_or_eq_of_le hle with hk | hk
      · have ha := I.active k (by simp [hpc, BPc.fetched]) (by simpa [hpc, BPc.launched] using hk)
        cases hf : s.fut k with
        | absent => exact absurd hf ha.1
        | taken => exact absurd hf ha.2
        | spawned => exact ⟨_, .start hf⟩
        | running =>
          obtain ⟨out, hout⟩ := ho pts[k]
          exact ⟨_, .finish hf (List.getElem?_eq_getElem hk) hout⟩
        | ready r => exact ⟨_, .get hpc hf hk⟩
      · exact ⟨_, .done hpc hk⟩
    | returned => exact absurd hpc hn
  have hleft : ∀ s t, Relation.ReflTransGen (BStep o pts) {} s → BStep o pts s t → BSt.left pts.length t + 1 ≤ BSt.left pts.length s := by
    intro s t h st
    have I := BInv.reach h
    have hl : ∀ i, s.fut i ≠ .absent → i < pts.length := by
      intro i hi
      by_contra hc
      exact hi (I.absent i (le_trans I.le.1 (by omega)))
    cases st with
    | @launch i hpc hi =>
      have h0 := I.absent i (by simp [hpc, BPc.launched])
      have := sum_map_update s.fut Fut.left i pts.length hi .spawned
      simp only [BSt.left, hpc, h0, Fut.left] at *
      omega
    | @launched i hpc hi => simp only [BSt.left, hpc]; omega
    | @get k r hpc hr hk =>
      have := sum_map_update s.fut Fut.left k pts.length hk .taken
      simp only [BSt.left, hpc, hr, Fut.left] at *
      omega
    | @done k hpc hk => simp only [BSt.left, hpc]; omega
    | @start i hf =>
      have := sum_map_update s.fut Fut.left i pts.length (hl i (by simp [hf])) .running
      simp only [BSt.left, hf, Fut.left] at *
      omega
    | @finish i p out hf hp ho =>
      have := sum_map_update s.fut Fut.left i pts.length (hl i (by simp [hf])) (.ready (evaluateNoexcept out))
      simp only [BSt.left, hf, Fut.left] at *
      omega
  have hinit : BSt.left pts.length ({} : BSt F) = 4 * pts.length + 2 := by
    have : ((List.range pts.length).map (fun i => (({} : BSt F).fut i).left)) = List.replicate pts.length 4 := by
      rw [List.eq_replicate_iff]; simp [Fut.left]
    rw [BSt.left, this]; simp; ring
  have hbound : ∀ (run : Nat → BSt F) k, run 0 = {} → (∀ j, j < k → BStep o pts (run j) (run (j + 1))) →
      Relation.ReflTransGen (BStep o pts) {} (run k) ∧ BSt.left pts.length (run k) + k ≤ 4 * pts.length + 2 := by
    intro run k h0 hs
    induction k with
    | zero => rw [h0]; exact ⟨.refl, by omega⟩
    | succ k ih =>
      obtain ⟨h1, h2⟩ := ih (fun j hj => hs j (by omega))
      have st := hs k (by omega)
      have := hleft _ _ h1 st
      exact ⟨h1.tail st, by omega⟩
  refine ⟨hprog, fun run k h0 hs => by have := (hbound run k h0 hs).2; omega, ?_⟩
  have : ∀ m s, Relation.ReflTransGen (BStep o pts) {} s → BSt.left pts.length s ≤ m →
      ∃ s, Relation.ReflTransGen (BStep o pts) {} s ∧ s.pc = .returned := by
    intro m
    induction m with
    | zero =>
      intro s h hm
      refine ⟨s, h, ?_⟩
      by_contra hn
      obtain ⟨t, st⟩ := hprog s h hn
      have := hleft s t h st
      omega
    | succ m ih =>
      intro s h hm
      by_cases hn : s.pc = .returned
      · exact ⟨s, h, hn⟩
      · obtain ⟨t, st⟩ := hprog s h hn
        have := hleft s t h st
        exact ih t (h.tail st) (by omega)
  exact this _ {} .refl le_rfl

/-- Whichever evaluator is used, with whatever schedule: results of a deterministic objective are those of the points, in order. -/
theorem C33_deterministic (f : α → Outcome F) (pts : List α) (rs : List (Result F)) :
    ReturnedBy (deterministic f) pts rs ↔ rs = pts.map (fun p => evaluateNoexcept (f p)) := by
  have key : ∀ (ev : Nat → α → Result F → Prop), (∀ i p r, ev i p r → r = evaluateNoexcept (f p)) → rs.length = pts.length →
      (∀ (i : Nat) (p : α), pts[i]? = some p → ∃ r, rs[i]? = some r ∧ ev i p r) →
      rs = pts.map (fun p => evaluateNoexcept (f p)) := by
    intro ev hev hlen h
    apply List.ext_getElem? 
    intro i
    rw [List.getElem?_map]
    cases hp : pts[i]? with
    | none =>
      have : pts.length ≤ i := by simpa using hp
      rw [List.getElem?_eq_none (by omega)]; rfl
    | some p =>
      obtain ⟨r, h1, h2⟩ := h i p hp
      rw [h1, hev i p r h2]; rfl
  have hE : ∀ {T : Type} [DecidableEq T] (log : List (Ev T F)) (t : T) (p : α) (r : Result F), Evaluated (deterministic f) log t p r →
      r = evaluateNoexcept (f p) := by
    rintro T _ log t p r ⟨out, rfl, _, rfl⟩; rfl
  constructor
  · intro h
    cases h with
    | sequential evs h =>
      obtain ⟨h1, h2, h3⟩ := C33_sequential h
      rw [h3, ← h1, List.map_map]
      apply List.map_congr_left
      intro e he
      have := h2 e he
      simp only [deterministic] at this
      simp [this]
    | batch s h hp hr =>
      have C := C33_batch h hp
      rw [hr] at C
      exact key _ (fun i p r h => hE s.log i p r h) C.length C.each
    | async tc ks s h hp hr =>
      obtain ⟨rs', h1, C⟩ := C33_async h hp
      have : rs' = rs := by
        rw [hr] at h1
        exact (List.map_injective_iff.mpr (Option.some_injective _) h1).symm
      subst this
      exact key _ (fun i p r h => hE s.log i p r h) C.length C.each
    | pooled n calls c ks s h hc hr =>
      have I := PInv.reach h rfl
      have S := I.pushed c _ _ hr rfl hc
      refine key _ (fun i p r h => hE s.log (c, i) p r h) (I.full c rs pts hr hc) ?_
      intro i p hp
      have hi : i < pts.length := by
        by_contra hc; rw [List.getElem?_eq_none (by omega)] at hp; simp at hp
      obtain ⟨_, p', r, h1, h2, h3⟩ := S.fetched i (by rw [show (CPc.returned rs).fetched = rs from rfl, I.full c rs pts hr hc]; exact hi)
      rw [hp] at h1; simp only [Option.some.injEq] at h1; subst h1
      exact ⟨r, h2, h3⟩
  · rintro rfl
    refine .sequential (pts.map (fun p => (p, f p))) ?_
    clear key hE
    induction pts with
    | nil => exact .nil
    | cons p ps ih => exact .cons rfl ih

/-! ## C34 -/

/-- At most `tc` evaluations are running at any moment: evaluations that have started and not finished. -/
theorem C34_concurrency {o : Objective α F} {pts : List α} {tc : Nat} {ks} {s : ASt F}
    (h : Exec (AStep o pts tc) ks (ASt.init F pts.length) s) (running : List Nat) (hn : running.Nodup)
    (hr : ∀ i ∈ running, eventsOf i s.log = [.start i]) : running.length ≤ tc := by
  have I := AInv.reach h rfl
  refine le_trans ?_ I.size
  apply (List.subperm_of_subset hn ?_).length_le
  intro i hi
  have he := hr i hi
  by_contra hni
  have hlt : i < s.pc.launched pts.length := by
    by_contra hc
    have := I.track i
    rw [I.absent i (by omega)] at this
    simp only [Track] at this
    rw [he] at this; simp at this
  obtain ⟨_, p, r, _, _, out, _, hev, _⟩ := I.dead i hlt (fun hl => hni (live_sub hl))
  rw [he] at hev; simp at hev

/-- A positive `max_threads` is the thread count; zero or negative ones count down from the hardware concurrency. -/
theorem C34_thread_count (m : Int) (hw : Nat) :
    (0 < m → (threadCount m hw : Int) = m) ∧ (m ≤ 0 → -m ≤ hw → hw < 2 ^ 32 → (threadCount m hw : Int) = hw + m) ∧
    (m < 0 → hw < 2 ^ 32 → (hw : Int) < -m → -(2 ^ 31) ≤ m → (threadCount m hw : Int) = 2 ^ 32 + hw + m) := by
  unfold threadCount
  refine ⟨?_, ?_, ?_⟩
  · intro h; rw [if_pos h]; omega
  · intro h1 h2 h3; rw [if_neg (by omega)]; omega
  · intro h1 h2 h3 h4; rw [if_neg (by omega)]; omega

/-- Whenever `evaluate` has not returned and evaluations terminate, some thread can take a step that is not a mere timeout. -/
theorem C34_progress {o : Objective α F} (ho : ∀ p, ∃ out, o p out) {pts : List α} {tc : Nat} (htc : 0 < tc) {ks} {s : ASt F}
    (h : Exec (AStep o pts tc) ks (ASt.init F pts.length) s) (hr : s.pc ≠ .returned) :
    ∃ kd t, kd ≠ .busy ∧ AStep o pts tc kd s t :=
  async_progress ho htc (AInv.reach h rfl) (drain_le h rfl) hr

/-- The number of steps is bounded by the number of points and the number of timeouts. -/
theorem C34_steps {o : Objective α F} {pts : List α} {tc : Nat} (htc : 0 < tc) {ks} {s : ASt F}
    (h : Exec (AStep o pts tc) ks (ASt.init F pts.length) s) :
    ks.length ≤ 3 * (4 * pts.length + 2 + ks.count .busy) + 1 := by
  have h1 := work_le h rfl
  have h2 := again_le htc h rfl
  have h3 : ks.length = ks.count .work + ks.count .busy + ks.count .again := by
    clear h h1 h2
    induction ks with
    | nil => rfl
    | cons k ks ih => cases k <;> simp [List.count_cons] <;> omega
  have h4 : ks.count .again ≤ 2 * (ks.count .work + ks.count .busy) + 1 := by
    unfold againOk at h2
    split at h2 <;> omega
  omega

/-- A timeout only happens for an evaluation that is unfinished. -/
theorem busy_unfinished {o : Objective α F} {pts : List α} {tc : Nat} {ks} {s t : ASt F}
    (h : Exec (AStep o pts tc) ks (ASt.init F pts.length) s) (st : AStep o pts tc .busy s t) : ∃ i, (s.fut i).Unfinished := by
  have I := AInv.reach h rfl
  cases st with
  | @skip _ i k idx hpc hk hr =>
    refine ⟨idx, unfinished_of_live I ?_ hr⟩
    have := List.mem_of_getElem? hk
    simpa [ASt.live, ASt.pos, hpc] using this

/-- `evaluate` can only fail to return if some evaluation never finishes: in every infinite execution there is an evaluation that
is handed to a thread and remains unfinished forever. -/
theorem C34_termination {o : Objective α F} {pts : List α} {tc : Nat} (htc : 0 < tc) (run : Nat → ASt F) (kd : Nat → AKind)
    (h0 : run 0 = ASt.init F pts.length) (hs : ∀ k, AStep o pts tc (kd k) (run k) (run (k + 1))) :
    ∃ i t₀, ∀ t, t₀ ≤ t → ((run t).fut i).Unfinished := by
  have hex : ∀ k, Exec (AStep o pts tc) ((List.range k).map kd) (ASt.init F pts.length) (run k) := by
    intro k
    induction k with
    | zero => rw [h0]; exact .nil
    | succ k ih => rw [List.range_succ, List.map_append]; exact ih.snoc (hs k)
  -- from some moment on there is no work step
  have hfin : ∃ t₀, ∀ t, t₀ ≤ t → kd t ≠ .work := by
    by_contra hc
    push Not at hc
    have : ∀ m, ∃ k, m ≤ ((List.range k).map kd).count .work := by
      intro m
      induction m with
      | zero => exact ⟨0, Nat.zero_le _⟩
      | succ m ih =>
        obtain ⟨k, hk⟩ := ih
        obtain ⟨t, ht, hw⟩ := hc k
        refine ⟨t + 1, ?_⟩
        rw [List.range_succ, List.map_append, List.count_append]
        have hsub : ((List.range k).map kd).count .work ≤ ((List.range t).map kd).count .work :=
          ((List.range_sublist.mpr ht).map kd).count_le _
        simp [hw]; omega
    obtain ⟨k, hk⟩ := this (4 * pts.length + 3)
    have := work_le (hex k) rfl
    omega
  obtain ⟨t₀, ht₀⟩ := hfin
  have hconst : ∀ t, t₀ ≤ t → (run t).fut = (run t₀).fut := by
    intro t ht
    induction t, ht using Nat.le_induction with
    | base => rfl
    | succ t ht ih =>
      rw [← ih]
      have hstep := hs t
      have hk := ht₀ t ht
      generalize kd t = K at *
      generalize run (t + 1) = u at *
      cases hstep <;> simp_all
  -- there is a timeout after that moment
  have hbusy : ∃ t, t₀ ≤ t ∧ kd t = .busy := by
    by_contra hc
    push Not at hc
    have hcount : ∀ m, ((List.range (t₀ + m)).map kd).count .busy = ((List.range t₀).map kd).count .busy := by
      intro m
      induction m with
      | zero => rfl
      | succ m ih =>
        rw [← Nat.add_assoc, List.range_succ, List.map_append, List.count_append, ih]
        have := hc (t₀ + m) (by omega)
        simp [this]
    have hb := hcount (3 * (4 * pts.length + 2 + ((List.range t₀).map kd).count .busy) + 2)
    have := C34_steps htc (hex (t₀ + (3 * (4 * pts.length + 2 + ((List.range t₀).map kd).count .busy) + 2)))
    rw [hb] at this
    simp only [List.length_map, List.length_range] at this
    omega
  obtain ⟨t, ht, hb⟩ := hbusy
  have st := hs t
  rw [hb] at st
  obtain ⟨i, hi⟩ := busy_unfinished (hex t) st
  refine ⟨i, t₀, fun u hu => ?_⟩
  rw [hconst u hu, ← hconst t ht]; exact hi

/-- There always is a schedule that lets `evaluate` return. -/
theorem C34_can_return {o : Objective α F} (ho : ∀ p, ∃ out, o p out) (pts : List α) {tc : Nat} (htc : 0 < tc) :
    ∃ ks s, Exec (AStep o pts tc) ks (ASt.init F pts.length) s ∧ s.pc = .returned := by
  by_contra hc
  push Not at hc
  have : ∀ m, ∃ ks s, Exec (AStep o pts tc) ks (ASt.init F pts.length) s ∧ ks.length = m ∧ ks.count .busy = 0 := by
    intro m
    induction m with
    | zero => exact ⟨[], _, .nil, rfl, rfl⟩
    | succ m ih =>
      obtain ⟨ks, s, h, hl, hb⟩ := ih
      obtain ⟨kd, t, hk, st⟩ := C34_progress ho htc h (hc ks s h)
      exact ⟨ks ++ [kd], t, h.snoc st, by simp [hl], by simp [List.count_append, hb, hk]⟩
  obtain ⟨ks, s, h, hl, hb⟩ := this (3 * (4 * pts.length + 2) + 2)
  have := C34_steps htc h
  omega

/-- With a computed thread count of zero `evaluate` never returns. -/
theorem C34_zero_threads {o : Objective α F} {pts : List α} (hp : pts ≠ []) {ks} {s : ASt F}
    (h : Exec (AStep o pts 0) ks (ASt.init F pts.length) s) : s.pc ≠ .returned ∧ s.log = [] := by
  have hpos : 0 < pts.length := List.length_pos_iff.mpr hp
  have key : ∀ s₀, s₀ = ASt.init F pts.length → Exec (AStep o pts 0) ks s₀ s →
      (s.pc = .top 0 ∨ s.pc = .poll 0 0) ∧ s.threads = [] ∧ (∀ i, s.fut i = .absent) ∧ s.log = [] := by
    intro s₀ h0 h
    induction h with
    | nil => subst h0; simp [ASt.init]
    | @snoc ls s t u l ex st ih =>
      obtain ⟨h1, h2, h3, h4⟩ := ih (h0 ▸ ex) h0
      cases st with
      | enter hpc hi hc => rw [hpc] at h1; simp at h1; subst h1; simp_all
      | again hpc hk => rw [hpc] at h1; simp at h1; simp_all
      | skip hpc hk hr => simp_all
      | collect hpc hk hr => simp_all
      | launch hpc hi hc => simp_all
      | launched hpc hi => simp_all
      | get hpc hk hr => simp_all
      | done hpc hk => simp_all
      | start hf => simp_all
      | finish hf hp ho => simp_all
  obtain ⟨h1, _, _, h4⟩ := key _ rfl h
  refine ⟨?_, h4⟩
  rcases h1 with h1 | h1 <;> simp [h1]

/-! ## C35 -/

/-- Whatever the other threads do: a call that returns has the results of its own points in order, each evaluated exactly once. -/
theorem C35_own_results {o : Objective α F} {calls : List (List α)} {n : Nat} {ks} {s : PSt F}
    (h : Exec (PStep o calls) ks (PSt.init F n calls.length) s) {c : Nat} {rs : List (Result F)} {pts : List α}
    (hr : s.clients[c]? = some (.returned rs)) (hp : calls[c]? = some pts) :
    rs.length = pts.length ∧ ∀ (i : Nat) (p : α), pts[i]? = some p → ∃ r, rs[i]? = some r ∧ Evaluated o s.log (c, i) p r := by
  have I := PInv.reach h rfl
  have hlen := I.full c rs pts hr hp
  refine ⟨hlen, ?_⟩
  intro i p hpi
  have hi : i < pts.length := by
    by_contra hc; rw [List.getElem?_eq_none (by omega)] at hpi; simp at hpi
  obtain ⟨_, p', r, h1, h2, h3⟩ := (I.pushed c _ _ hr rfl hp).fetched i (by
    rw [show (CPc.returned rs).fetched = rs from rfl, hlen]; exact hi)
  rw [hpi] at h1; simp only [Option.some.injEq] at h1; subst h1
  exact ⟨r, h2, h3⟩

/-- At any moment every task has been started at most once and finished at most once, and only points of calls that were made are
evaluated. -/
theorem C35_once {o : Objective α F} {calls : List (List α)} {n : Nat} {ks} {s : PSt F}
    (h : Exec (PStep o calls) ks (PSt.init F n calls.length) s) (t : Task) :
    eventsOf t s.log = [] ∨ (∃ pts p, calls[t.1]? = some pts ∧ pts[t.2]? = some p ∧
      (eventsOf t s.log = [.start t] ∨ ∃ out, o p out ∧ eventsOf t s.log = [.start t, .finish t out])) := by
  have I := PInv.reach h rfl
  by_cases ha : s.fut t = .absent
  · left; have := I.track t; rw [ha] at this; exact this
  · obtain ⟨pts, hpts, hlt⟩ := I.range t ha
    have hT := I.track t
    have hpt : pointOf calls t = some pts[t.2] := by simp [pointOf, hpts, hlt]
    cases hf : s.fut t with
    | absent => exact absurd hf ha
    | spawned => rw [hf] at hT; exact .inl hT
    | running => rw [hf] at hT; exact .inr ⟨pts, _, hpts, List.getElem?_eq_getElem hlt, .inl hT⟩
    | ready r =>
      rw [hf, hpt] at hT
      obtain ⟨x, hx, out, ho, he, _⟩ := hT
      simp only [Option.some.injEq] at hx; subst hx
      exact .inr ⟨pts, _, hpts, List.getElem?_eq_getElem hlt, .inr ⟨out, ho, he⟩⟩
    | taken =>
      right
      obtain ⟨c, i⟩ := t
      have hc : c < s.clients.length := by
        rw [I.clen]
        by_contra hn; rw [List.getElem?_eq_none (by omega)] at hpts; simp at hpts
      have hcl := List.getElem?_eq_getElem hc
      cases hpu : s.clients[c].pushed with
      | false => exact absurd (I.unpushed c _ hcl hpu i) ha
      | true =>
        have S := I.pushed c _ _ hcl hpu hpts
        have hi : i < s.clients[c].fetched.length := by
          by_contra hn; exact (S.todo i (by omega) hlt).2 hf
        obtain ⟨_, p, r, h1, _, out, ho, he, _⟩ := S.fetched i hi
        exact ⟨pts, p, hpts, h1, .inr ⟨out, ho, he⟩⟩

/-- At most one thread is inside a critical section. -/
theorem C35_mutual_exclusion {o : Objective α F} {calls : List (List α)} {n : Nat} {ks} {s : PSt F}
    (h : Exec (PStep o calls) ks (PSt.init F n calls.length) s) {v w : Nat} {a b : WPc} (hv : s.workers[v]? = some a)
    (hw : s.workers[w]? = some b) (ha : a = .check ∨ a = .afterWait) (hb : b = .check ∨ b = .afterWait) :
    v = w ∧ ∀ c : Nat, s.clients[c]? ≠ some .pushing := by
  have L := LInv.reach h rfl
  unfold LInv at L
  have ha' : a.crit = true := by rcases ha with rfl | rfl <;> rfl
  have hb' : b.crit = true := by rcases hb with rfl | rfl <;> rfl
  have hp := countP_pos_of_getElem? WPc.crit hv ha'
  have hle : s.workers.countP WPc.crit + s.clients.countP CPc.crit ≤ 1 := by
    cases hl : s.locked <;> rw [hl] at L <;> simp only [Bool.false_eq_true, if_true, if_false] at L <;> omega
  constructor
  · by_contra hne
    have h1 := countP_set_add WPc.crit (b := .loop) hv
    have h2 : (s.workers.set v .loop)[w]? = some b := by rw [List.getElem?_set_ne hne]; exact hw
    have h3 := countP_pos_of_getElem? WPc.crit h2 hb'
    rw [if_pos ha', if_neg (by simp [WPc.crit])] at h1
    omega
  · intro c hc
    have := countP_pos_of_getElem? CPc.crit hc rfl
    omega

/-! ## C36 -/

/-- While there is a worker and no shutdown is requested, an execution can only come to a halt with all calls returned. -/
theorem C36_no_deadlock {o : Objective α F} (ho : ∀ p, ∃ out, o p out) {calls : List (List α)} {n : Nat} {ks} {s : PSt F}
    (h : Exec (PStep o calls) ks (PSt.init F n calls.length) s) (hc : s.ctl = .idle) (hw : s.workers ≠ [])
    {c : Nat} {pc : CPc F} (hcl : s.clients[c]? = some pc) (hp : pc ≠ .idle ∧ ∀ rs, pc ≠ .returned rs) :
    ∃ t, PStep o calls .work s t := by
  by_contra hno
  push Not at hno
  have I := PInv.reach h rfl
  have hst : Stuck o calls s := by
    rintro kd t (rfl | rfl) st
    · exact hno t st
    · cases st <;> simp_all
  rcases hst.quiet ho I (LInv.reach h rfl) (XInv.reach h rfl) (by rw [hc]; rfl) (by rw [hc]; rfl) hw hcl with h1 | ⟨rs, h1⟩
  · exact hp.1 h1
  · exact hp.2 rs h1

/-- No execution goes on forever without new calls or spurious wake-ups: from every reachable state the number of steps of workers,
clients and the controlling thread is bounded. -/
theorem C36_finite {o : Objective α F} {calls : List (List α)} {n : Nat} {ks} {s : PSt F}
    (h : Exec (PStep o calls) ks (PSt.init F n calls.length) s) :
    ∃ B, ∀ ks' t, Exec (PStep o calls) ks' s t → (∀ k ∈ ks', k ≠ .call ∧ k ≠ .request) →
      ks'.count .work + ks'.count .control ≤ B + 3 * ks'.count .spurious := by
  obtain ⟨B, hB, hk⟩ := exists_bound s
  refine ⟨s.left B calls, ?_⟩
  intro ks' t hex hks
  have := (left_exec hex (PInv.reach h rfl) (XInv.reach h rfl) hks hB hk).1
  omega

theorem Exec.trans {L S : Type} {R : L → S → S → Prop} {a b : List L} {s t u : S} (h1 : Exec R a s t) (h2 : Exec R b t u) :
    Exec R (a ++ b) s u := by
  induction h2 with
  | nil => simpa using h1
  | snoc _ st ih => rw [← List.append_assoc]; exact (ih h1).snoc st

/-- From every reachable state with a worker and no shutdown, the workers and clients on their own, in some order, lead to a state in
which all calls that were made have returned - and no order of their steps leads anywhere else. -/
theorem C36_returns {o : Objective α F} (ho : ∀ p, ∃ out, o p out) {calls : List (List α)} {n : Nat} {ks} {s : PSt F}
    (h : Exec (PStep o calls) ks (PSt.init F n calls.length) s) (hc : s.ctl = .idle) (hw : s.workers ≠ []) :
    ∃ ks' t, (∀ k ∈ ks', k = .work) ∧ Exec (PStep o calls) ks' s t ∧ t.ctl = .idle ∧ t.workers.length = s.workers.length ∧
      ∀ (c : Nat) (pc : CPc F), t.clients[c]? = some pc → pc = .idle ∨ ∃ rs, pc = .returned rs := by
  have hkeep : ∀ ks' t, (∀ k ∈ ks', k = .work) → Exec (PStep o calls) ks' s t → t.ctl = .idle ∧ t.workers.length = s.workers.length := by
    intro ks' t hks hex
    induction hex with
    | nil => exact ⟨hc, rfl⟩
    | @snoc ls s t u l ex st ih =>
      obtain ⟨h1, h2⟩ := ih h hc hw (fun k hk => hks k (by simp [hk]))
      have hl := hks l (by simp)
      subst hl
      cases st <;> simp_all [wakeAll_length]
  by_contra hno
  obtain ⟨B, hB⟩ := C36_finite h
  have : ∀ m, ∃ ks' t, (∀ k ∈ ks', k = .work) ∧ Exec (PStep o calls) ks' s t ∧ ks'.length = m := by
    intro m
    induction m with
    | zero => exact ⟨[], s, by simp, .nil, rfl⟩
    | succ m ih =>
      obtain ⟨ks', t, h1, h2, h3⟩ := ih
      obtain ⟨h4, h5⟩ := hkeep ks' t h1 h2
      have hwt : t.workers ≠ [] := by
        intro hn; rw [hn] at h5; exact hw (List.length_eq_zero_iff.mp h5.symm)
      have : ∃ (c : Nat) (pc : CPc F), t.clients[c]? = some pc ∧ pc ≠ .idle ∧ ∀ rs, pc ≠ .returned rs := by
        by_contra hn
        push Not at hn
        refine hno ⟨ks', t, h1, h2, h4, h5, ?_⟩
        intro c pc hcp
        by_cases hi : pc = .idle
        · exact .inl hi
        · exact .inr (hn c pc hcp hi)
      obtain ⟨c, pc, hcp, hp⟩ := this
      obtain ⟨u, st⟩ := C36_no_deadlock ho (h.trans h2) h4 hwt hcp hp
      refine ⟨ks' ++ [.work], u, ?_, h2.snoc st, by simp [h3]⟩
      intro k hk
      simp only [List.mem_append, List.mem_singleton] at hk
      rcases hk with hk | rfl
      · exact h1 k hk
      · rfl
  obtain ⟨ks', t, h1, h2, h3⟩ := this (B + 1)
  have := hB ks' t h2 (fun k hk => by rw [h1 k hk]; simp)
  have hcw : ks'.count .work = ks'.length := List.count_eq_length.mpr (fun k hk => (h1 k hk).symm)
  have hcs : ks'.count .spurious = 0 := List.count_eq_zero.mpr (fun hm => by have := h1 _ hm; simp at this)
  omega

/-- Whatever calls are made, with at least one worker there is a schedule in which all of them return. -/
theorem C36_can_return {o : Objective α F} (ho : ∀ p, ∃ out, o p out) (calls : List (List α)) (n : Nat) :
    ∃ ks s, Exec (PStep o calls) ks (PSt.init F (n + 1) calls.length) s ∧
      ∀ c, c < calls.length → ∃ rs, s.clients[c]? = some (.returned rs) := by
  have hcalls : ∀ m, m ≤ calls.length → ∃ ks, Exec (PStep o calls) ks (PSt.init F (n + 1) calls.length)
      { PSt.init F (n + 1) calls.length with
        clients := List.replicate m .lock ++ List.replicate (calls.length - m) .idle } := by
    intro m
    induction m with
    | zero => intro _; exact ⟨[], by simpa [PSt.init] using Exec.nil⟩
    | succ m ih =>
      intro hm
      obtain ⟨ks, h⟩ := ih (by omega)
      have hrep : List.replicate (calls.length - m) (CPc.idle : CPc F) = .idle :: List.replicate (calls.length - (m + 1)) .idle := by
        rw [show calls.length - m = calls.length - (m + 1) + 1 by omega, List.replicate_succ]
      rw [hrep] at h
      have st := @PStep.call α F o calls _ m (show
        ({ PSt.init F (n + 1) calls.length with
          clients := List.replicate m .lock ++ .idle :: List.replicate (calls.length - (m + 1)) .idle } : PSt F).clients[m]? =
          some .idle by simp)
      refine ⟨ks ++ [.call], ?_⟩
      have := h.snoc st
      have hset : (List.replicate m (CPc.lock : CPc F) ++ (CPc.idle : CPc F) ::
          List.replicate (calls.length - (m + 1)) (CPc.idle : CPc F)).set m CPc.lock =
          List.replicate (m + 1) CPc.lock ++ List.replicate (calls.length - (m + 1)) (CPc.idle : CPc F) := by
        rw [List.set_append_right _ _ (by simp)]
        simp [List.replicate_succ']
      simp only [hset] at this
      exact this
  obtain ⟨ks, h⟩ := hcalls calls.length le_rfl
  obtain ⟨ks', t, h1, h2, h3, h4, h5⟩ := C36_returns ho h rfl (by simp [PSt.init])
  refine ⟨_, t, h.trans h2, ?_⟩
  have hni : ∀ (ks' : List PKind) (s t : PSt F), (∀ k ∈ ks', k = .work) → Exec (PStep o calls) ks' s t → CPc.idle ∉ s.clients →
      CPc.idle ∉ t.clients := by
    intro ks' s t hks hex hs
    induction hex with
    | nil => exact hs
    | @snoc ls s t u l ex st ih =>
      have ih := ih (fun k hk => hks k (by simp [hk])) hs
      have hl := hks l (by simp)
      subst hl
      cases st <;> first
        | exact ih
        | (intro hm; rcases List.mem_or_eq_of_mem_set hm with hm | hm
           · exact ih hm
           · simp at hm)
  have hnot := hni ks' _ t h1 h2 (by simp)
  intro c hc
  have I := PInv.reach (h.trans h2) rfl
  have hcl := List.getElem?_eq_getElem (show c < t.clients.length by rw [I.clen]; exact hc)
  rcases h5 c _ hcl with h | ⟨rs, h⟩
  · exact absurd (List.mem_of_getElem? (h ▸ hcl)) hnot
  · exact ⟨rs, by rw [hcl, h]⟩

/-- Without workers (thread count 0) no call with at least one point ever returns. -/
theorem C36_zero_threads {o : Objective α F} {calls : List (List α)} {ks} {s : PSt F}
    (h : Exec (PStep o calls) ks (PSt.init F 0 calls.length) s) (hks : ∀ k ∈ ks, k ≠ .request) {c : Nat} {rs : List (Result F)}
    (hr : s.clients[c]? = some (.returned rs)) : calls[c]? = some [] ∧ s.log = [] := by
  have key : ∀ s₀, s₀ = PSt.init F 0 calls.length → Exec (PStep o calls) ks s₀ s →
      s.workers = [] ∧ s.ctl = .idle ∧ s.log = [] ∧ ∀ t, s.fut t = .absent ∨ s.fut t = .spawned := by
    intro s₀ h0 hx
    clear hr h
    induction hx with
    | nil => subst h0; simp [PSt.init]
    | @snoc ls s t u l ex st ih =>
      obtain ⟨h1, h2, h3, h4⟩ := ih (fun k hk => hks k (by simp [hk])) h0
      have hl := hks l (by simp)
      cases st with
      | push hc hps =>
        refine ⟨h1, h2, h3, fun t => ?_⟩
        dsimp only
        split
        · simp
        · exact h4 t
      | get hc hps hk hr => rcases h4 (_, _) with h | h <;> rw [h] at hr <;> simp at hr
      | notify hc => exact ⟨by simp [wakeAll, h1], h2, h3, h4⟩
      | _ => simp_all
  obtain ⟨h1, h2, h3, h4⟩ := key _ rfl h
  refine ⟨?_, h3⟩
  have I := PInv.reach h rfl
  obtain ⟨ps, hps⟩ := point_of_client I hr
  have hlen := I.full c rs ps hr hps
  have S := I.pushed c _ _ hr rfl hps
  rcases Nat.eq_zero_or_pos rs.length with h0 | h0
  · rw [h0] at hlen
    rw [hps, List.length_eq_zero_iff.mp hlen.symm]
  · have := (S.fetched 0 h0).1
    rcases h4 (c, 0) with h | h <;> rw [h] at this <;> simp at this

/-! ## C37 -/

/-- The destructor does not return if any worker is waiting (for a task or for the mutex) when the destructor gets hold of the mutex:
the destructor waits for the worker with the mutex locked, and the worker waits for the mutex. -/
theorem C37_destructor_deadlock {o : Objective α F} {calls : List (List α)} {n : Nat} {ks} {s : PSt F}
    (h : Exec (PStep o calls) ks (PSt.init F n calls.length) s)
    (hc : s.ctl = .stop none ∨ s.ctl = .notify none ∨ s.ctl = .join none)
    (hw : WPc.waiting ∈ s.workers ∨ WPc.woken ∈ s.workers ∨ WPc.lock ∈ s.workers) {ks' t} (h' : Exec (PStep o calls) ks' s t) :
    t.ctl ≠ .destroyed := by
  have hd : s.ctl.destroying := by rcases hc with h | h | h <;> rw [h] <;> trivial
  have hb : ∃ x ∈ s.workers, x.blocked := by rcases hw with h | h | h <;> exact ⟨_, h, trivial⟩
  obtain ⟨x, hx, hxb⟩ := hb
  obtain ⟨k, hk⟩ := List.getElem?_of_mem hx
  have := (destroying_exec h' (LInv.reach h rfl) hd ⟨x, hk, hxb⟩).2.1
  intro hcon
  rw [hcon] at this
  exact this

/-- Destroying an evaluator that is at rest (no tasks, no calls in progress, some worker waiting for a task) never completes, whatever
the schedule, even with spurious wake-ups. -/
theorem C37_idle_destructor_deadlock {o : Objective α F} {calls : List (List α)} {n : Nat} {ks} {s : PSt F}
    (h : Exec (PStep o calls) ks (PSt.init F n calls.length) s) (hc : s.ctl = .lock) (hq : s.queue = [])
    (hcl : ∀ pc ∈ s.clients, pc = .idle ∨ ∃ rs, pc = .returned rs) (hw : WPc.waiting ∈ s.workers) {ks' t}
    (h' : Exec (PStep o calls) ks' s t) (hk : ∀ k ∈ ks', k ≠ .call) : t.ctl ≠ .destroyed := by
  obtain ⟨k, hkw⟩ := List.getElem?_of_mem hw
  have R : AtRest k s := ⟨hq, fun pc hpc => by rcases hcl pc hpc with rfl | ⟨rs, rfl⟩ <;> trivial,
    .inl ⟨hc, ((XInv.reach h rfl).quiet (by rw [hc]; rfl)).1, _, hkw, trivial⟩⟩
  have L := LInv.reach h rfl
  clear h hc hq hcl hw hkw
  have : LInv t ∧ AtRest k t := by
    induction h' with
    | nil => exact ⟨L, R⟩
    | @snoc ls s t u l ex st ih =>
      obtain ⟨h1, h2⟩ := ih (fun k hk' => hk k (by simp [hk'])) R L
      exact ⟨h1.step st, h2.step st h1 (hk l (by simp))⟩
  rcases this.2.phase with ⟨h1, _⟩ | ⟨h1, _⟩
  · rw [h1]; simp
  · intro hcon; rw [hcon] at h1; exact h1

/-- If, on the other hand, all workers are busy or have ended when the destructor has set the stop signal, then every execution ends with
the destructor having returned: it cannot stop before, and (`C36_finite`) not go on forever. -/
theorem C37_destructor_returns {o : Objective α F} (ho : ∀ p, ∃ out, o p out) {calls : List (List α)} {n : Nat} {ks} {s : PSt F}
    (h : Exec (PStep o calls) ks (PSt.init F n calls.length) s) (hc : s.ctl = .notify none)
    (hw : ∀ w ∈ s.workers, w = .loop ∨ (∃ t, w = .task t ∨ w = .running t) ∨ w = .exited) {ks' t}
    (h' : Exec (PStep o calls) ks' s t) (hno : ∀ kd u, kd = .work ∨ kd = .control → ¬ PStep o calls kd t u) : t.ctl = .destroyed := by
  have E : Ending s := ⟨.inl hc, fun w hm => by rcases hw w hm with rfl | ⟨t, rfl | rfl⟩ | rfl <;> trivial⟩
  have X := XInv.reach h rfl
  have I := PInv.reach h rfl
  clear h hw hc
  have : PInv o calls t ∧ XInv t ∧ Ending t := by
    clear hno
    induction h' with
    | nil => exact ⟨I, X, E⟩
    | snoc ex st ih => obtain ⟨h0, h1, h2⟩ := ih E X I; exact ⟨h0.step st, h1.step st, h2.step st h1⟩
  exact this.2.2.stuck ho this.1 hno

/-- `set_max_threads` can hang: whatever the number of threads, there is a schedule without calls of `evaluate` and without spurious
wake-ups (a worker finds the queue empty, then the stop signal is set and notified, then the worker starts to wait) after which
`set_max_threads` does not return unless a thread wakes up spuriously or `evaluate` is called. -/
theorem C37_lost_wakeup (o : Objective α F) (calls : List (List α)) (n m : Nat) :
    ∃ ks s, (∀ k ∈ ks, k ≠ .call ∧ k ≠ .spurious) ∧ Exec (PStep o calls) ks (PSt.init F (n + 1) calls.length) s ∧
      ∀ ks' t, Exec (PStep o calls) ks' s t → (∀ k ∈ ks', k ≠ .call ∧ k ≠ .spurious) → t.ctl = .join (some m) := by
  let s0 : PSt F := PSt.init F (n + 1) calls.length
  let W : WPc → List WPc := fun w => w :: List.replicate n .loop
  have e0 : s0 = { workers := W .loop, clients := List.replicate calls.length .idle } := by simp [s0, PSt.init, W, List.replicate_succ]
  have st1 : PStep o calls .work s0 { s0 with workers := W .lock } := by
    have := @PStep.test α F o calls s0 0 (by rw [e0]; rfl)
    rw [e0] at this ⊢; exact this
  have st2 : PStep o calls .work { s0 with workers := W .lock } { s0 with workers := W .check, locked := true } := by
    have := @PStep.acquire α F o calls { s0 with workers := W .lock } 0 rfl rfl
    exact this
  have st3 : PStep o calls .request { s0 with workers := W .check, locked := true }
      { s0 with workers := W .check, locked := true, ctl := .stop (some m) } := .resize rfl
  have st4 : PStep o calls .control { s0 with workers := W .check, locked := true, ctl := .stop (some m) }
      { s0 with workers := W .check, locked := true, ctl := .notify (some m), stop := true } := .ctlStop rfl
  have hwk : wakeAll (W .check) = W .check := by simp [W, wakeAll]
  have st5 : PStep o calls .control { s0 with workers := W .check, locked := true, ctl := .notify (some m), stop := true }
      { s0 with workers := W .check, locked := true, ctl := .join (some m), stop := true } := by
    have := @PStep.ctlNotify α F o calls { s0 with workers := W .check, locked := true, ctl := .notify (some m), stop := true } (some m) rfl
    simp only [hwk] at this; exact this
  have st6 : PStep o calls .work { s0 with workers := W .check, locked := true, ctl := .join (some m), stop := true }
      { s0 with workers := W .waiting, locked := false, ctl := .join (some m), stop := true } := by
    have := @PStep.wait α F o calls { s0 with workers := W .check, locked := true, ctl := .join (some m), stop := true } 0 rfl rfl
    exact this
  refine ⟨[.work, .work, .request, .control, .control, .work],
    { s0 with workers := W .waiting, locked := false, ctl := .join (some m), stop := true }, by simp, ?_, ?_⟩
  · exact (((((Exec.nil.snoc st1).snoc st2).snoc st3).snoc st4).snoc st5).snoc st6
  · intro ks' t hex hks
    have H : Hanging m 0 { s0 with workers := W .waiting, locked := false, ctl := .join (some m), stop := true } :=
      ⟨rfl, fun pc hpc => by rw [List.eq_of_mem_replicate hpc]; trivial, rfl⟩
    have : ∀ s₁, s₁ = ({ s0 with workers := W .waiting, locked := false, ctl := .join (some m), stop := true } : PSt F) →
        Exec (PStep o calls) ks' s₁ t → Hanging m 0 t := by
      intro s₁ h1 hx
      clear hex
      induction hx with
      | nil => exact h1 ▸ H
      | @snoc ls s t u l ex st ih => exact (ih (fun k hk => hks k (by simp [hk])) h1).step st (hks l (by simp))
    exact (this _ rfl hex).ctl

/-- `set_max_threads` completes, with the requested number of threads, in every execution in which no worker is between its test of the
stop signal and its test of the queue when the signal is set; in particular if all workers are waiting for tasks. -/
theorem C37_resize_returns {o : Objective α F} (ho : ∀ p, ∃ out, o p out) {calls : List (List α)} {n m : Nat} {ks} {s : PSt F}
    (h : Exec (PStep o calls) ks (PSt.init F n calls.length) s) (hc : s.ctl = .notify (some m))
    (hw : ∀ w ∈ s.workers, w ≠ .lock ∧ w ≠ .check) {ks' t}
    (h' : Exec (PStep o calls) ks' s t) (hk : ∀ k ∈ ks', k ≠ .request)
    (hno : ∀ kd u, kd = .work ∨ kd = .control → ¬ PStep o calls kd t u) : t.ctl = .idle ∧ t.workers.length = m := by
  have E : Resizing m s := ⟨.inl ⟨hc, fun w hm => by have := hw w hm; cases w <;> simp_all [WPc.heeds]⟩⟩
  have X := XInv.reach h rfl
  have I := PInv.reach h rfl
  have L := LInv.reach h rfl
  clear h hw hc
  have : PInv o calls t ∧ XInv t ∧ LInv t ∧ Resizing m t := by
    clear hno
    induction h' with
    | nil => exact ⟨I, X, L, E⟩
    | @snoc ls s t u l ex st ih =>
      obtain ⟨h0, h1, h2, h3⟩ := ih (fun k hk' => hk k (by simp [hk'])) E X I L
      exact ⟨h0.step st, h1.step st, h2.step st, h3.step st h1 (hk l (by simp))⟩
  exact this.2.2.2.stuck ho this.1 this.2.2.1 hno

/-- The situations of the theorems above are reachable: with one worker that waits for a task (`waiting`), or has not begun yet, the
destructor or `set_max_threads` can be called. -/
example (o : Objective α F) :
    (∃ ks s, Exec (PStep o []) ks (PSt.init F 1 0) s ∧ s.ctl = .lock ∧ s.queue = [] ∧ WPc.waiting ∈ s.workers) ∧
    (∃ ks s, Exec (PStep o []) ks (PSt.init F 1 0) s ∧ s.ctl = .stop none ∧ WPc.waiting ∈ s.workers) ∧
    (∃ ks s, Exec (PStep o []) ks (PSt.init F 1 0) s ∧ s.ctl = .notify none ∧ ∀ w ∈ s.workers, w = .loop) ∧
    (∃ ks s, Exec (PStep o []) ks (PSt.init F 1 0) s ∧ s.ctl = .notify (some 5) ∧ ∀ w ∈ s.workers, w ≠ .lock ∧ w ≠ .check) := by
  have s1 : PStep o [] .work (PSt.init F 1 0) { PSt.init F 1 0 with workers := [.lock] } := @PStep.test α F o [] _ 0 rfl
  have s2 : PStep o [] .work { PSt.init F 1 0 with workers := [.lock] } { PSt.init F 1 0 with workers := [.check], locked := true } :=
    @PStep.acquire α F o [] _ 0 rfl rfl
  have s3 : PStep o [] .work { PSt.init F 1 0 with workers := [.check], locked := true } { PSt.init F 1 0 with workers := [.waiting] } :=
    @PStep.wait α F o [] _ 0 rfl rfl
  have e := ((Exec.nil.snoc s1).snoc s2).snoc s3
  have d1 := e.snoc (.destroy rfl)
  refine ⟨⟨_, _, d1, rfl, rfl, by simp⟩, ⟨_, _, d1.snoc (.ctlLock rfl rfl), rfl, by simp⟩, ?_, ?_⟩
  · exact ⟨_, _, ((Exec.nil.snoc (.destroy rfl)).snoc (.ctlLock rfl rfl)).snoc (.ctlStop rfl), rfl, by simp [PSt.init]⟩
  · exact ⟨_, _, (e.snoc (.resize (n := 5) rfl)).snoc (.ctlStop rfl), rfl, by simp⟩

/-! ## C38 -/

theorem C38_noexcept (out : Outcome F) :
    (∀ r, out = .returns r → evaluateNoexcept out = r) ∧ (∀ m, out = .throwsStd m → evaluateNoexcept out = .error m) ∧
    (out = .throwsOther → ∃ m, evaluateNoexcept out = .error m) := by
  refine ⟨?_, ?_, ?_⟩ <;> rintro _ <;> simp_all [evaluateNoexcept]

/-- One point for which the objective throws gets an error with its message, and all other points get their own results, whatever the
evaluator, the position and the schedule. -/
theorem C38_isolated (f : α → Outcome F) (before after : List α) (p : α) (what : String) (hp : f p = .throwsStd what)
    {rs : List (Result F)} (h : ReturnedBy (deterministic f) (before ++ p :: after) rs) :
    rs[before.length]? = some (.error what) ∧
      (∀ (i : Nat) q, before[i]? = some q → rs[i]? = some (evaluateNoexcept (f q))) ∧
      (∀ (i : Nat) q, after[i]? = some q → rs[before.length + 1 + i]? = some (evaluateNoexcept (f q))) := by
  rw [C33_deterministic] at h
  subst h
  refine ⟨by simp [hp, evaluateNoexcept], ?_, ?_⟩
  · intro i q hq
    have hi : i < before.length := by
      by_contra hc; rw [List.getElem?_eq_none (by omega)] at hq; simp at hq
    rw [List.getElem?_map, List.getElem?_append_left hi, hq]; rfl
  · intro i q hq
    rw [List.getElem?_map, List.getElem?_append_right (by omega)]
    rw [show before.length + 1 + i - before.length = i + 1 by omega, List.getElem?_cons_succ, hq]; rfl

/-! ## C39 -/

/-- Any two runs of an optimizer on a deterministic objective, with any evaluators and schedules, agree. -/
theorem C39_evaluator_independent {S : Type} (f : α → Outcome F) (ask : S → List α) (tell : S → List (Result F) → S) (k : Nat) (s t u : S)
    (h1 : Rounds (deterministic f) ask tell k s t) (h2 : Rounds (deterministic f) ask tell k s u) : t = u := by
  induction k generalizing t u with
  | zero => cases h1; cases h2; rfl
  | succ k ih =>
    cases h1 with
    | succ h1 r1 => cases h2 with
      | succ h2 r2 =>
        rw [C33_deterministic] at r1 r2
        have := ih _ _ h1 h2
        subst this
        rw [r1, r2]

/-- The value of a result, if any. -/
def Result.value? : Result F → Option F
  | .ok v => some v
  | .error _ => none

/-- One step of an optimizer (spot/optimizer.cpp:44-65) with a sampling algorithm that has its own state: `ask` gives the population,
`learn` updates the algorithm. -/
def optimizerStep {A : Type} (E : OptEnv) (ask : A → Opt → List Pt) (learn : A → List Pt → List (Option Dbl) → A) (s : A × Opt)
    (rs : List (Result Dbl)) : A × Opt :=
  (learn s.1 (ask s.1 s.2) (rs.map Result.value?),
    (s.2.step E (Opt.internal E { pop := ask s.1 s.2, res := rs.map Result.value? })).1)

/-- The states of an optimizer, including the fitness history, the calls of reporters and the stop conditions, do not depend on the
evaluator. -/
theorem C39_optimizer {A : Type} (E : OptEnv) (f : Pt → Outcome Dbl) (ask : A → Opt → List Pt)
    (learn : A → List Pt → List (Option Dbl) → A) (k : Nat) (a : A) (s : Opt) (t u : A × Opt)
    (h1 : Rounds (deterministic f) (fun x : A × Opt => ask x.1 x.2) (optimizerStep E ask learn) k (a, s) t)
    (h2 : Rounds (deterministic f) (fun x : A × Opt => ask x.1 x.2) (optimizerStep E ask learn) k (a, s) u) : t = u :=
  C39_evaluator_independent f _ _ k (a, s) t u h1 h2

/-- Two evaluators with the same answer for a throwing objective: sequentially, and by `async_evaluator` (`C34_can_return`). -/
example : ∃ rs, ReturnedBy (deterministic fun n : Nat => if n = 1 then Outcome.throwsStd "bad" else .returns (.ok n)) [0, 1, 2] rs ∧
    rs[1]? = some (.error "bad") := by
  obtain ⟨ks, s, h, hp⟩ := C34_can_return (F := Nat)
    (o := deterministic fun n : Nat => if n = 1 then Outcome.throwsStd "bad" else .returns (.ok n)) (fun p => ⟨_, rfl⟩) [0, 1, 2]
    (tc := 2) (by omega)
  obtain ⟨rs, hrs, _⟩ := C33_async h hp
  have hR := ReturnedBy.async 2 ks s h hp hrs
  exact ⟨rs, hR, (C38_isolated _ [0] [2] 1 "bad" rfl hR).1⟩

end Spot.Evaluators
