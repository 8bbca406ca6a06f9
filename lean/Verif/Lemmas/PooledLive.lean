import Verif.Lemmas.Pooled

/-!
# Mutual exclusion, wake-ups, progress and termination of pooled_evaluator
-/

namespace Spot.Evaluators

variable {α F : Type}

/-! ## Mutual exclusion -/

def WPc.crit : WPc → Bool
  | .check => true
  | .afterWait => true
  | _ => false

def CPc.crit : CPc F → Bool
  | .pushing => true
  | _ => false

def KPc.crit : KPc → Nat
  | .stop none => 1
  | .notify none => 1
  | .join none => 1
  | _ => 0

/-- The number of threads in a critical section is one if the mutex is locked and zero otherwise. -/
def LInv (s : PSt F) : Prop :=
  s.workers.countP WPc.crit + s.clients.countP CPc.crit + s.ctl.crit = if s.locked then 1 else 0

theorem wakeAll_crit (l : List WPc) : (wakeAll l).countP WPc.crit = l.countP WPc.crit := by
  unfold wakeAll
  rw [List.countP_map]
  apply List.countP_congr
  intro w _
  simp only [Function.comp]
  by_cases h : w = .waiting
  · subst h; simp [WPc.crit]
  · simp [h]

theorem LInv.init (n m : Nat) : LInv (PSt.init F n m) := by
  have h1 : (List.replicate n WPc.loop).countP WPc.crit = 0 := by
    rw [List.countP_eq_zero]; intro w hw; rw [List.eq_of_mem_replicate hw]; simp [WPc.crit]
  have h2 : (List.replicate m (CPc.idle : CPc F)).countP CPc.crit = 0 := by
    rw [List.countP_eq_zero]; intro w hw; rw [List.eq_of_mem_replicate hw]; simp [CPc.crit]
  simp [LInv, PSt.init, h1, h2, KPc.crit]

theorem LInv.step {o : Objective α F} {pts : List (List α)} {kd : PKind} {s t : PSt F} (h : PStep o pts kd s t)
    (I : LInv s) : LInv t := by
  unfold LInv at *
  cases h with
  | @test _ w h =>
    have := countP_set_add WPc.crit (b := if s.stop then WPc.exited else .lock) h
    cases hs : s.stop <;> simp [hs, WPc.crit] at this ⊢ <;> omega
  | @acquire _ w h hm =>
    have := countP_set_add WPc.crit (b := .check) h
    simp only [WPc.crit, hm, if_true, if_false, Bool.false_eq_true] at this I ⊢; omega
  | @wait _ w h hq =>
    have := countP_set_add WPc.crit (b := .waiting) h
    have hp := countP_pos_of_getElem? WPc.crit h rfl
    cases hl : s.locked <;> simp only [WPc.crit, hl, if_true, if_false, Bool.false_eq_true] at this I ⊢ <;> omega
  | @spurious _ w h =>
    have := countP_set_add WPc.crit (b := .woken) h
    simp [WPc.crit] at this ⊢; omega
  | @reacquire _ w h hm =>
    have := countP_set_add WPc.crit (b := .afterWait) h
    simp only [WPc.crit, hm, if_true, if_false, Bool.false_eq_true] at this I ⊢; omega
  | @leave _ w h hs =>
    have := countP_set_add WPc.crit (b := .exited) h
    have hp := countP_pos_of_getElem? WPc.crit h rfl
    cases hl : s.locked <;> simp only [WPc.crit, hl, if_true, if_false, Bool.false_eq_true] at this I ⊢ <;> omega
  | @goOn _ w h hs =>
    have := countP_set_add WPc.crit (b := .check) h
    simp [WPc.crit] at this ⊢; omega
  | @pop _ w u q h hq =>
    have := countP_set_add WPc.crit (b := .task u) h
    have hp := countP_pos_of_getElem? WPc.crit h rfl
    cases hl : s.locked <;> simp only [WPc.crit, hl, if_true, if_false, Bool.false_eq_true] at this I ⊢ <;> omega
  | @begin _ w u h =>
    have := countP_set_add WPc.crit (b := .running u) h
    simp [WPc.crit] at this ⊢; omega
  | @finish _ w u ps p out h hps hp ho =>
    have := countP_set_add WPc.crit (b := .loop) h
    simp [WPc.crit] at this ⊢; omega
  | @call _ c h =>
    have := countP_set_add CPc.crit (b := .lock) h
    simp [CPc.crit] at this ⊢; omega
  | @clientLock _ c h hm =>
    have := countP_set_add CPc.crit (b := .pushing) h
    simp only [CPc.crit, hm, if_true, if_false, Bool.false_eq_true] at this I ⊢; omega
  | @push _ c ps h hps =>
    have := countP_set_add CPc.crit (b := .notify) h
    have hp := countP_pos_of_getElem? CPc.crit h rfl
    cases hl : s.locked <;> simp only [CPc.crit, hl, if_true, if_false, Bool.false_eq_true] at this I ⊢ <;> omega
  | @notify _ c h =>
    have := countP_set_add CPc.crit (b := .get []) h
    simp only [wakeAll_crit]
    simp [CPc.crit] at this ⊢; omega
  | @get _ c rs r ps h hps hk hr =>
    have := countP_set_add CPc.crit (b := .get (rs ++ [r])) h
    simp [CPc.crit] at this ⊢; omega
  | @done _ c rs ps h hps hk =>
    have := countP_set_add CPc.crit (b := .returned rs) h
    simp [CPc.crit] at this ⊢; omega
  | @ctlNotify _ op h =>
    simp only [wakeAll_crit]; rw [h] at I; cases op <;> simpa [KPc.crit] using I
  | @join _ op ws h hw => rw [hw] at I; simpa [WPc.crit] using I
  | @spawn _ n h hn => simpa [WPc.crit] using I
  | resize h => rw [h] at I; simpa [KPc.crit] using I
  | destroy h => rw [h] at I; simpa [KPc.crit] using I
  | ctlLock h hm => rw [h] at I; simp [KPc.crit, hm] at I ⊢; simpa using I
  | @ctlStop _ op h => rw [h] at I; cases op <;> simpa [KPc.crit] using I
  | destroyed h hw => rw [h] at I; cases hl : s.locked <;> simp [KPc.crit, hl] at I ⊢; simpa using I
  | joined h hw => rw [h] at I; simpa [KPc.crit] using I
  | start h => rw [h] at I; simpa [KPc.crit] using I
  | started h hn => rw [h] at I; simpa [KPc.crit] using I

/-! ## Stopping and waking -/

/-- No shutdown is under way. -/
def KPc.quiet : KPc → Bool
  | .idle => true
  | .lock => true
  | .stop _ => true
  | .spawn _ => true
  | _ => false

/-- Between the release of the mutex and `notify_all`. -/
def CPc.notifying : CPc F → Prop
  | .notify => True
  | _ => False

structure XInv (s : PSt F) : Prop where
  quiet : s.ctl.quiet = true → s.stop = false ∧ WPc.exited ∉ s.workers
  stopping : s.ctl.quiet = false → (∀ n, s.ctl ≠ .start n) → s.stop = true
  started : ∀ n, s.ctl = .start n → s.workers = []
  destroyed : s.ctl = .destroyed → s.workers = []
  /-- no lost wake-up: if there are tasks, some worker will look for them or be notified -/
  wake : s.ctl.quiet = true → s.queue ≠ [] → s.workers ≠ [] →
    (∃ w ∈ s.workers, w ≠ .waiting) ∨ (∃ pc ∈ s.clients, pc.notifying)

theorem XInv.init (n m : Nat) : XInv (PSt.init F n m) := by
  refine ⟨?_, ?_, ?_, ?_, ?_⟩ <;> simp [PSt.init, KPc.quiet]

theorem mem_set_self {β : Type} {l : List β} {w : Nat} {a b : β} (h : l[w]? = some a) : b ∈ l.set w b :=
  List.mem_of_getElem? (getElem?_set_same h)

theorem ne_nil_of_getElem? {β : Type} {l : List β} {w : Nat} {a : β} (h : l[w]? = some a) : l ≠ [] := by
  rintro rfl; simp at h

/-- A worker takes a step. -/
theorem XInv.worker {s : PSt F} (I : XInv s) {w : Nat} {a b : WPc} (h : s.workers[w]? = some a) (hb : b = .exited → s.stop = true)
    {lk : Bool} {q : List Task} {fu lg} (hw : b = .waiting → q = []) :
    XInv { s with workers := s.workers.set w b, locked := lk, queue := q, fut := fu, log := lg } := by
  obtain ⟨quiet, stopping, started, destroyed, wake⟩ := I
  refine ⟨?_, stopping, ?_, ?_, ?_⟩
  · intro hq
    obtain ⟨h1, h2⟩ := quiet hq
    refine ⟨h1, ?_⟩
    intro hm
    rcases List.mem_or_eq_of_mem_set hm with hm | hm
    · exact h2 hm
    · have := hb hm.symm; rw [h1] at this; simp at this
  · intro n hn; exact absurd (started n hn) (ne_nil_of_getElem? h)
  · intro hd; exact absurd (destroyed hd) (ne_nil_of_getElem? h)
  · intro hq hqu _
    by_cases hbw : b = .waiting
    · exact absurd (hw hbw) hqu
    · exact .inl ⟨b, mem_set_self h, hbw⟩

/-- A client takes a step other than notifying. -/
theorem XInv.client {s : PSt F} (I : XInv s) {c : Nat} {a b : CPc F} (h : s.clients[c]? = some a) (ha : ¬ a.notifying)
    {lk : Bool} {q : List Task} {fu lg} (hq : q = s.queue ∨ b.notifying) :
    XInv { s with clients := s.clients.set c b, locked := lk, queue := q, fut := fu, log := lg } := by
  obtain ⟨quiet, stopping, started, destroyed, wake⟩ := I
  refine ⟨quiet, stopping, started, destroyed, ?_⟩
  intro hqt hqu hws
  by_cases hbn : b.notifying
  · exact .inr ⟨b, mem_set_self h, hbn⟩
  · have hqs : q = s.queue := hq.resolve_right hbn
    dsimp only at hqu
    rw [hqs] at hqu
    rcases wake hqt hqu hws with hl | ⟨pc, hpc, hn⟩
    · exact .inl hl
    · right
      obtain ⟨c', hc'⟩ := List.getElem?_of_mem hpc
      have hne : c ≠ c' := by
        rintro rfl; rw [h] at hc'; simp only [Option.some.injEq] at hc'; subst hc'; exact ha hn
      exact ⟨pc, List.mem_of_getElem? (i := c') (by rw [List.getElem?_set_ne hne]; exact hc'), hn⟩

theorem wakeAll_not_waiting {l : List WPc} {w : WPc} (h : w ∈ wakeAll l) : w ≠ .waiting := by
  unfold wakeAll at h
  obtain ⟨x, _, rfl⟩ := List.mem_map.mp h
  split
  · simp
  · next e => exact e

theorem wakeAll_exited {l : List WPc} (h : WPc.exited ∈ wakeAll l) : WPc.exited ∈ l := by
  unfold wakeAll at h
  obtain ⟨x, hx, he⟩ := List.mem_map.mp h
  split at he
  · simp at he
  · subst he; exact hx

theorem wakeAll_eq_nil {l : List WPc} : wakeAll l = [] ↔ l = [] := by simp [wakeAll]

theorem XInv.step {o : Objective α F} {pts : List (List α)} {kd : PKind} {s t : PSt F} (h : PStep o pts kd s t)
    (I : XInv s) : XInv t := by
  cases h with
  | @test _ w h =>
    refine I.worker h ?_ ?_ <;> cases hs : s.stop <;> simp
  | @acquire _ w h hm => exact I.worker h (by simp) (by simp)
  | @wait _ w h hq => exact I.worker h (by simp) (fun _ => hq)
  | @spurious _ w h => exact I.worker h (by simp) (by simp)
  | @reacquire _ w h hm => exact I.worker h (by simp) (by simp)
  | @leave _ w h hs => exact I.worker h (fun _ => hs) (by simp)
  | @goOn _ w h hs => exact I.worker h (by simp) (by simp)
  | @pop _ w u q h hq => exact I.worker h (by simp) (by simp)
  | @begin _ w u h => exact I.worker h (by simp) (by simp)
  | @finish _ w u ps p out h hps hp ho => exact I.worker h (by simp) (by simp)
  | @call _ c h => exact I.client h (by simp [CPc.notifying]) (.inl rfl)
  | @clientLock _ c h hm => exact I.client h (by simp [CPc.notifying]) (.inl rfl)
  | @push _ c ps h hps => exact I.client h (by simp [CPc.notifying]) (.inr trivial)
  | @get _ c rs r ps h hps hk hr => exact I.client h (by simp [CPc.notifying]) (.inl rfl)
  | @done _ c rs ps h hps hk => exact I.client h (by simp [CPc.notifying]) (.inl rfl)
  | @notify _ c h =>
    obtain ⟨quiet, stopping, started, destroyed, wake⟩ := I
    refine ⟨fun hq => ⟨(quiet hq).1, fun hm => (quiet hq).2 (wakeAll_exited hm)⟩, stopping, ?_, ?_, ?_⟩
    · intro n hn; exact wakeAll_eq_nil.mpr (started n hn)
    · intro hd; exact wakeAll_eq_nil.mpr (destroyed hd)
    · intro _ _ hne
      obtain ⟨w, hw⟩ := List.exists_mem_of_ne_nil _ hne
      exact .inl ⟨w, hw, wakeAll_not_waiting hw⟩
  | @ctlNotify _ op h =>
    obtain ⟨quiet, stopping, started, destroyed, wake⟩ := I
    have := stopping (by simp [h, KPc.quiet]) (by simp [h])
    refine ⟨?_, ?_, ?_, ?_, ?_⟩ <;> simp [KPc.quiet, this]
  | @join _ op ws h hw =>
    obtain ⟨quiet, stopping, started, destroyed, wake⟩ := I
    have := stopping (by simp [h, KPc.quiet]) (by simp [h])
    refine ⟨?_, ?_, ?_, ?_, ?_⟩ <;> simp [KPc.quiet, this, h]
  | @spawn _ n h hn =>
    obtain ⟨quiet, stopping, started, destroyed, wake⟩ := I
    obtain ⟨h1, h2⟩ := quiet (by simp [h, KPc.quiet])
    refine ⟨?_, ?_, ?_, ?_, ?_⟩
    · simp [h1, h2]
    · simp [h, KPc.quiet]
    · simp [h]
    · simp [h]
    · intro _ _ _; exact .inl ⟨.loop, by simp, by simp⟩
  | resize h =>
    obtain ⟨quiet, stopping, started, destroyed, wake⟩ := I
    have h1 := quiet (by simp [h, KPc.quiet])
    refine ⟨fun _ => h1, ?_, ?_, ?_, fun _ => wake (by simp [h, KPc.quiet])⟩ <;> simp [KPc.quiet]
  | destroy h =>
    obtain ⟨quiet, stopping, started, destroyed, wake⟩ := I
    have h1 := quiet (by simp [h, KPc.quiet])
    refine ⟨fun _ => h1, ?_, ?_, ?_, fun _ => wake (by simp [h, KPc.quiet])⟩ <;> simp [KPc.quiet]
  | ctlLock h hm =>
    obtain ⟨quiet, stopping, started, destroyed, wake⟩ := I
    have h1 := quiet (by simp [h, KPc.quiet])
    refine ⟨fun _ => h1, ?_, ?_, ?_, fun _ => wake (by simp [h, KPc.quiet])⟩ <;> simp [KPc.quiet]
  | ctlStop h => refine ⟨?_, ?_, ?_, ?_, ?_⟩ <;> simp [KPc.quiet]
  | destroyed h hw =>
    obtain ⟨quiet, stopping, started, destroyed, wake⟩ := I
    have := stopping (by simp [h, KPc.quiet]) (by simp [h])
    refine ⟨?_, ?_, ?_, ?_, ?_⟩ <;> simp [KPc.quiet, this, hw]
  | joined h hw => refine ⟨?_, ?_, ?_, ?_, ?_⟩ <;> simp [KPc.quiet, hw]
  | start h =>
    obtain ⟨quiet, stopping, started, destroyed, wake⟩ := I
    have := started _ h
    refine ⟨?_, ?_, ?_, ?_, ?_⟩ <;> simp [KPc.quiet, this]
  | started h hn =>
    obtain ⟨quiet, stopping, started, destroyed, wake⟩ := I
    have h1 := quiet (by simp [h, KPc.quiet])
    refine ⟨fun _ => h1, ?_, ?_, ?_, fun _ => wake (by simp [h, KPc.quiet])⟩ <;> simp [KPc.quiet]

theorem LInv.reach {o : Objective α F} {pts : List (List α)} {n : Nat} {ks : List PKind} {s₀ s : PSt F}
    (h : Exec (PStep o pts) ks s₀ s) (h0 : s₀ = PSt.init F n pts.length) : LInv s := by
  induction h with
  | nil => exact h0 ▸ LInv.init n pts.length
  | snoc _ st ih => exact (ih h0).step st

theorem XInv.reach {o : Objective α F} {pts : List (List α)} {n : Nat} {ks : List PKind} {s₀ s : PSt F}
    (h : Exec (PStep o pts) ks s₀ s) (h0 : s₀ = PSt.init F n pts.length) : XInv s := by
  induction h with
  | nil => exact h0 ▸ XInv.init n pts.length
  | snoc _ st ih => exact (ih h0).step st

/-! ## Progress -/

/-- Nobody can move, except by calling, or by waking up spuriously. -/
def Stuck (o : Objective α F) (pts : List (List α)) (s : PSt F) : Prop :=
  ∀ kd t, kd = .work ∨ kd = .control → ¬ PStep o pts kd s t

theorem Stuck.worker {o : Objective α F} (ho : ∀ p, ∃ out, o p out) {pts : List (List α)} {s : PSt F} (I : PInv o pts s)
    (h : Stuck o pts s) {w : WPc} (hw : w ∈ s.workers) :
    w = .exited ∨ w = .waiting ∨ (s.locked = true ∧ (w = .lock ∨ w = .woken)) := by
  obtain ⟨k, hk⟩ := List.getElem?_of_mem hw
  have H := fun t => h .work t (.inl rfl)
  cases w with
  | loop => exact absurd (.test hk) (H _)
  | lock =>
    cases hl : s.locked
    · exact absurd (.acquire hk hl) (H _)
    · simp
  | check =>
    cases hq : s.queue with
    | nil => exact absurd (.wait hk hq) (H _)
    | cons t q => exact absurd (.pop hk hq) (H _)
  | waiting => simp
  | woken =>
    cases hl : s.locked
    · exact absurd (.reacquire hk hl) (H _)
    · simp
  | afterWait =>
    cases hs : s.stop
    · exact absurd (.goOn hk hs) (H _)
    · exact absurd (.leave hk hs) (H _)
  | task t => exact absurd (.begin hk) (H _)
  | running t =>
    have hT := I.tasks t
    have hpos := countP_pos_of_getElem? (isRunning t) hk (by simp [isRunning])
    have hf : s.fut t = .running := by
      cases hf : s.fut t <;> rw [hf] at hT <;> simp only [TOk] at hT <;> first | rfl | omega
    obtain ⟨ps, hps, hlt⟩ := I.range t (by simp [hf])
    obtain ⟨out, hout⟩ := ho ps[t.2]
    exact absurd (.finish hk hps (List.getElem?_eq_getElem hlt) hout) (H _)
  | exited => simp

theorem Stuck.client {o : Objective α F} {pts : List (List α)} {s : PSt F} (I : PInv o pts s)
    (h : Stuck o pts s) {c : Nat} {pc : CPc F} (hc : s.clients[c]? = some pc) :
    pc = .idle ∨ (pc = .lock ∧ s.locked = true) ∨ (∃ rs, pc = .returned rs) ∨
      (∃ rs ps, pc = .get rs ∧ pts[c]? = some ps ∧ rs.length < ps.length ∧
        (s.fut (c, rs.length) = .spawned ∨ s.fut (c, rs.length) = .running)) := by
  have H := fun t => h .work t (.inl rfl)
  have hlt : c < pts.length := by
    rw [← I.clen]
    by_contra hn; rw [List.getElem?_eq_none (by omega)] at hc; simp at hc
  have hps := List.getElem?_eq_getElem hlt
  cases pc with
  | idle => simp
  | lock =>
    cases hl : s.locked
    · exact absurd (.clientLock hc hl) (H _)
    · simp
  | pushing => exact absurd (.push hc hps) (H _)
  | notify => exact absurd (.notify hc) (H _)
  | get rs =>
    right; right; right
    have hS := I.pushed c _ _ hc rfl hps
    obtain ⟨le, fetched, todo⟩ := hS
    simp only [CPc.fetched] at le fetched todo
    rcases Nat.lt_or_eq_of_le le with hk | hk
    · refine ⟨rs, pts[c], rfl, hps, hk, ?_⟩
      have := todo rs.length le_rfl hk
      cases hf : s.fut (c, rs.length) with
      | absent => exact absurd hf this.1
      | taken => exact absurd hf this.2
      | spawned => simp
      | running => simp
      | ready r => exact absurd (.get hc hps hk hf) (H _)
    · exact absurd (.done hc hps hk) (H _)
  | returned rs => simp

/-- If nobody holds the mutex forever, nobody waits for it when stuck. -/
theorem Stuck.unlocked {o : Objective α F} (ho : ∀ p, ∃ out, o p out) {pts : List (List α)} {s : PSt F} (I : PInv o pts s) (L : LInv s)
    (h : Stuck o pts s) (hk : s.ctl.crit = 0) : s.locked = false := by
  by_contra hl
  have hl : s.locked = true := by simpa using hl
  unfold LInv at L
  rw [hl, hk] at L
  simp only [if_true, Nat.add_zero] at L
  have : 0 < s.workers.countP WPc.crit ∨ 0 < s.clients.countP CPc.crit := by omega
  rcases this with hp | hp
  · obtain ⟨w, hw, hc⟩ := List.countP_pos_iff.mp hp
    rcases h.worker ho I hw with rfl | rfl | ⟨_, rfl | rfl⟩ <;> simp [WPc.crit] at hc
  · obtain ⟨pc, hpc, hc⟩ := List.countP_pos_iff.mp hp
    obtain ⟨c, hc'⟩ := List.getElem?_of_mem hpc
    rcases h.client I hc' with rfl | ⟨rfl, _⟩ | ⟨rs, rfl⟩ | ⟨rs, ps, rfl, _⟩ <;> simp [CPc.crit] at hc

/-- In a stuck state without a shutdown and with a worker, all calls have returned. -/
theorem Stuck.quiet {o : Objective α F} (ho : ∀ p, ∃ out, o p out) {pts : List (List α)} {s : PSt F} (I : PInv o pts s) (L : LInv s)
    (X : XInv s) (h : Stuck o pts s) (hk : s.ctl.crit = 0) (hq : s.ctl.quiet = true) (hne : s.workers ≠ []) {c : Nat} {pc : CPc F}
    (hc : s.clients[c]? = some pc) : pc = .idle ∨ ∃ rs, pc = .returned rs := by
  have hl := h.unlocked ho I L hk
  have hw : ∀ w ∈ s.workers, w = .waiting := by
    intro w hw
    rcases h.worker ho I hw with rfl | rfl | ⟨h1, _⟩
    · exact absurd hw (X.quiet hq).2
    · rfl
    · rw [hl] at h1; simp at h1
  have hqu : s.queue = [] := by
    by_contra hqu
    rcases X.wake hq hqu hne with ⟨w, hw1, hw2⟩ | ⟨pc, hpc, hn⟩
    · exact hw2 (hw w hw1)
    · obtain ⟨c, hc'⟩ := List.getElem?_of_mem hpc
      rcases h.client I hc' with rfl | ⟨rfl, _⟩ | ⟨rs, rfl⟩ | ⟨rs, ps, rfl, _⟩ <;> exact hn
  rcases h.client I hc with rfl | ⟨rfl, h1⟩ | ⟨rs, rfl⟩ | ⟨rs, ps, rfl, hps, hlt, hf⟩
  · simp
  · rw [hl] at h1; simp at h1
  · simp
  · exfalso
    have hT := I.tasks (c, rs.length)
    have h0 : s.workers.countP (isTask (c, rs.length)) = 0 := by
      rw [List.countP_eq_zero]; intro w hw'; rw [hw w hw']; simp [isTask]
    have h1 : s.workers.countP (isRunning (c, rs.length)) = 0 := by
      rw [List.countP_eq_zero]; intro w hw'; rw [hw w hw']; simp [isRunning]
    rw [h0, h1, hqu] at hT
    rcases hf with hf | hf <;> rw [hf] at hT <;> simp [TOk] at hT

end Spot.Evaluators
