import Verif.Model.PooledEvaluator
import Verif.Lemmas.Evaluators

/-!
# Invariants of pooled_evaluator
-/

namespace Spot.Evaluators

variable {α F : Type}

theorem countP_set_add {β : Type} (p : β → Bool) {l : List β} {w : Nat} {a b : β} (h : l[w]? = some a) :
    (l.set w b).countP p + (if p a then 1 else 0) = l.countP p + (if p b then 1 else 0) := by
  induction l generalizing w with
  | nil => simp at h
  | cons x xs ih =>
    cases w with
    | zero =>
      simp only [List.getElem?_cons_zero, Option.some.injEq] at h
      subst h
      simp only [List.set_cons_zero, List.countP_cons]
      omega
    | succ w =>
      simp only [List.getElem?_cons_succ] at h
      have := ih h
      simp only [List.set_cons_succ, List.countP_cons]
      omega

theorem getElem?_set_cases {β : Type} {l : List β} {w v : Nat} {a b : β} (h : (l.set w b)[v]? = some a) :
    (v = w ∧ a = b) ∨ (v ≠ w ∧ l[v]? = some a) := by
  by_cases hv : v = w
  · subst hv
    rw [List.getElem?_set] at h
    simp only [if_true] at h
    split at h
    · left; simp_all
    · simp at h
  · right
    rw [List.getElem?_set_ne (Ne.symm hv)] at h
    exact ⟨hv, h⟩

theorem getElem?_set_same {β : Type} {l : List β} {w : Nat} {a b : β} (h : l[w]? = some a) : (l.set w b)[w]? = some b := by
  have : w < l.length := by
    by_contra hc; rw [List.getElem?_eq_none (by omega)] at h; simp at h
  rw [List.getElem?_set_self this]

theorem countP_pos_of_getElem? {β : Type} (p : β → Bool) {l : List β} {w : Nat} {a : β} (h : l[w]? = some a) (hp : p a = true) :
    0 < l.countP p := List.countP_pos_iff.mpr ⟨a, List.mem_of_getElem? h, hp⟩

/-! ## Tasks -/

def isTask (t : Task) (w : WPc) : Bool := decide (w = .task t)
def isRunning (t : Task) (w : WPc) : Bool := decide (w = .running t)

/-- Number of places where a task is: `q` times in the queue, `a` workers about to run it, `r` workers running it. -/
def TOk (q a r : Nat) : Fut F → Prop
  | .absent => q = 0 ∧ a = 0 ∧ r = 0
  | .spawned => q + a = 1 ∧ r = 0
  | .running => q = 0 ∧ a = 0 ∧ r = 1
  | .ready _ => q = 0 ∧ a = 0 ∧ r = 0
  | .taken => q = 0 ∧ a = 0 ∧ r = 0

def CPc.pushed : CPc F → Bool
  | .idle => false
  | .lock => false
  | .pushing => false
  | _ => true

def CPc.fetched : CPc F → List (Result F)
  | .get rs => rs
  | .returned rs => rs
  | _ => []

/-- What a call knows: the first results are fetched and right, the others are still to be fetched. -/
structure Served (o : Objective α F) (log : List (Ev Task F)) (fut : Task → Fut F) (c : Nat) (ps : List α) (rs : List (Result F)) :
    Prop where
  le : rs.length ≤ ps.length
  fetched : ∀ i, i < rs.length → fut (c, i) = .taken ∧ ∃ p r, ps[i]? = some p ∧ rs[i]? = some r ∧ Evaluated o log (c, i) p r
  todo : ∀ i, rs.length ≤ i → i < ps.length → fut (c, i) ≠ .absent ∧ fut (c, i) ≠ .taken

def pointOf (pts : List (List α)) (t : Task) : Option α := (pts[t.1]?).bind (fun ps => ps[t.2]?)

structure PInv (o : Objective α F) (pts : List (List α)) (s : PSt F) : Prop where
  clen : s.clients.length = pts.length
  tasks : ∀ t, TOk (s.queue.count t) (s.workers.countP (isTask t)) (s.workers.countP (isRunning t)) (s.fut t)
  track : ∀ t, Track o s.log t (pointOf pts t) (s.fut t)
  range : ∀ t, s.fut t ≠ .absent → ∃ ps, pts[t.1]? = some ps ∧ t.2 < ps.length
  unpushed : ∀ (c : Nat) pc, s.clients[c]? = some pc → pc.pushed = false → ∀ i, s.fut (c, i) = .absent
  pushed : ∀ (c : Nat) pc ps, s.clients[c]? = some pc → pc.pushed = true → pts[c]? = some ps →
    Served o s.log s.fut c ps pc.fetched
  full : ∀ (c : Nat) rs ps, s.clients[c]? = some (.returned rs) → pts[c]? = some ps → rs.length = ps.length
  only : ∀ e ∈ s.log, s.fut e.task ≠ .absent

theorem PInv.init (o : Objective α F) (pts : List (List α)) (n : Nat) : PInv o pts (PSt.init F n pts.length) := by
  have hc : ∀ (c : Nat) (pc : CPc F), (List.replicate pts.length (CPc.idle : CPc F))[c]? = some pc → pc = .idle := by
    intro c pc h
    exact List.eq_of_mem_replicate (List.mem_of_getElem? h)
  refine ⟨by simp [PSt.init], ?_, ?_, ?_, ?_, ?_, ?_, ?_⟩
  · intro t
    refine ⟨by simp [PSt.init], ?_, ?_⟩ <;>
    · rw [List.countP_eq_zero]
      intro w hw
      have := List.eq_of_mem_replicate hw
      subst this
      simp [isTask, isRunning]
  · intro t; simp [PSt.init, Track]
  · intro t h; simp [PSt.init] at h
  · intro c pc h hp i; rfl
  · intro c pc ps h hp _
    have := hc c pc h
    subst this; simp [CPc.pushed] at hp
  · intro c rs ps h _
    have := hc c _ h
    simp at this
  · intro e he; simp [PSt.init] at he

/-- Steps that change neither clients, nor futures, nor the log. -/
theorem PInv.same {o : Objective α F} {pts : List (List α)} {s t : PSt F} (I : PInv o pts s) (hc : t.clients = s.clients)
    (hf : t.fut = s.fut) (hl : t.log = s.log)
    (ht : ∀ x, t.queue.count x = s.queue.count x ∧ t.workers.countP (isTask x) = s.workers.countP (isTask x) ∧
      t.workers.countP (isRunning x) = s.workers.countP (isRunning x)) : PInv o pts t := by
  obtain ⟨clen, tasks, track, range, unpushed, pushed, full, only⟩ := I
  refine ⟨by rw [hc]; exact clen, ?_, ?_, ?_, ?_, ?_, ?_, ?_⟩
  · intro x; obtain ⟨h1, h2, h3⟩ := ht x; rw [h1, h2, h3, hf]; exact tasks x
  · rw [hf, hl]; exact track
  · rw [hf]; exact range
  · rw [hc, hf]; exact unpushed
  · rw [hc, hf, hl]; exact pushed
  · rw [hc]; exact full
  · rw [hf, hl]; exact only

theorem same_counts {s : List WPc} {w : Nat} {a b : WPc} (h : s[w]? = some a) (ha : ∀ t, a ≠ .task t ∧ a ≠ .running t)
    (hb : ∀ t, b ≠ .task t ∧ b ≠ .running t) (t : Task) :
    (s.set w b).countP (isTask t) = s.countP (isTask t) ∧ (s.set w b).countP (isRunning t) = s.countP (isRunning t) := by
  have h1 := countP_set_add (isTask t) (b := b) h
  have h2 := countP_set_add (isRunning t) (b := b) h
  simp only [isTask, isRunning, (ha t).1, (ha t).2, (hb t).1, (hb t).2, decide_false] at h1 h2
  simp only [Bool.false_eq_true, if_false, Nat.add_zero] at h1 h2
  exact ⟨h1, h2⟩

theorem wakeAll_counts (l : List WPc) (t : Task) :
    (wakeAll l).countP (isTask t) = l.countP (isTask t) ∧ (wakeAll l).countP (isRunning t) = l.countP (isRunning t) := by
  unfold wakeAll
  rw [List.countP_map, List.countP_map]
  refine ⟨?_, ?_⟩ <;>
  · apply List.countP_congr
    intro w _
    simp only [Function.comp, isTask, isRunning]
    by_cases h : w = .waiting
    · subst h; simp
    · simp [h]

/-- A step of the worker that has task `t`. -/
theorem PInv.worker {o : Objective α F} {pts : List (List α)} {s : PSt F} (I : PInv o pts s) {t : Task} {f : Fut F} {e : Ev Task F}
    {ws : List WPc} (he : e.task = t) (hu : s.fut t ≠ .absent ∧ s.fut t ≠ .taken) (hf : f ≠ .absent ∧ f ≠ .taken)
    (ht : Track o (s.log ++ [e]) t (pointOf pts t) f)
    (hto : TOk (s.queue.count t) (ws.countP (isTask t)) (ws.countP (isRunning t)) f)
    (hoth : ∀ x, x ≠ t → ws.countP (isTask x) = s.workers.countP (isTask x) ∧
      ws.countP (isRunning x) = s.workers.countP (isRunning x)) :
    PInv o pts { s with workers := ws, fut := Function.update s.fut t f, log := s.log ++ [e] } := by
  obtain ⟨clen, tasks, track, range, unpushed, pushed, full, only⟩ := I
  have hother : ∀ x, x ≠ t → Track o (s.log ++ [e]) x (pointOf pts x) (s.fut x) := by
    intro x hx
    cases e with
    | start u => exact (track x).start (by simp only [Ev.task] at he; subst he; exact fun h => hx h.symm)
    | finish u out => exact (track x).finish (by simp only [Ev.task] at he; subst he; exact fun h => hx h.symm)
  have hev : ∀ x p r, x ≠ t → Evaluated o s.log x p r → Evaluated o (s.log ++ [e]) x p r := by
    intro x p r hx hE
    cases e with
    | start u => exact hE.start (by simp only [Ev.task] at he; subst he; exact fun h => hx h.symm)
    | finish u out => exact hE.finish (by simp only [Ev.task] at he; subst he; exact fun h => hx h.symm)
  refine ⟨clen, ?_, ?_, ?_, ?_, ?_, full, ?_⟩
  · intro x
    by_cases hx : x = t
    · subst hx; simpa only [Function.update_self] using hto
    · simp only [Function.update_of_ne hx]; rw [(hoth x hx).1, (hoth x hx).2]; exact tasks x
  · intro x
    by_cases hx : x = t
    · subst hx; simpa only [Function.update_self] using ht
    · simp only [Function.update_of_ne hx]; exact hother x hx
  · intro x hx
    by_cases hxt : x = t
    · subst hxt; exact range x hu.1
    · simp only [Function.update_of_ne hxt] at hx; exact range x hx
  · intro c pc hc hp i
    have h0 := unpushed c pc hc hp i
    have hne : (c, i) ≠ t := by rintro rfl; exact hu.1 h0
    simp only [Function.update_of_ne hne]; exact h0
  · intro c pc ps hc hp hps
    obtain ⟨le, fetched, todo⟩ := pushed c pc ps hc hp hps
    refine ⟨le, ?_, ?_⟩
    · intro i hi
      obtain ⟨h1, p, r, h2, h3, h4⟩ := fetched i hi
      have hne : (c, i) ≠ t := by rintro rfl; exact hu.2 h1
      exact ⟨by simp only [Function.update_of_ne hne]; exact h1, p, r, h2, h3, hev _ p r hne h4⟩
    · intro i hi hi'
      by_cases hne : (c, i) = t
      · subst hne; simpa only [Function.update_self] using hf
      · simp only [Function.update_of_ne hne]; exact todo i hi hi'
  · intro x hx
    simp only [List.mem_append, List.mem_singleton] at hx
    by_cases hxt : x.task = t
    · simp only [hxt, Function.update_self]; exact hf.1
    · simp only [Function.update_of_ne hxt]
      rcases hx with hx | rfl
      · exact only x hx
      · exact absurd he hxt

theorem count_range_pair (c n : Nat) (t : Task) :
    ((List.range n).map (fun i => (c, i))).count t = if t.1 = c ∧ t.2 < n then 1 else 0 := by
  obtain ⟨a, b⟩ := t
  induction n with
  | zero => simp
  | succ n ih =>
    rw [List.range_succ, List.map_append, List.count_append, ih]
    simp only [List.map_cons, List.map_nil, List.count_singleton, beq_iff_eq, Prod.mk.injEq]
    split_ifs <;> omega

theorem PInv.step {o : Objective α F} {pts : List (List α)} {kd : PKind} {s t : PSt F} (h : PStep o pts kd s t)
    (I : PInv o pts s) : PInv o pts t := by
  cases h with
  | @test _ w h =>
    refine I.same rfl rfl rfl fun x => ⟨rfl, ?_⟩
    exact same_counts h (by simp) (by intro t; split <;> simp) x
  | @acquire _ w h hm => exact I.same rfl rfl rfl fun x => ⟨rfl, same_counts h (by simp) (by simp) x⟩
  | @wait _ w h hq => exact I.same rfl rfl rfl fun x => ⟨rfl, same_counts h (by simp) (by simp) x⟩
  | @spurious _ w h => exact I.same rfl rfl rfl fun x => ⟨rfl, same_counts h (by simp) (by simp) x⟩
  | @reacquire _ w h hm => exact I.same rfl rfl rfl fun x => ⟨rfl, same_counts h (by simp) (by simp) x⟩
  | @leave _ w h hs => exact I.same rfl rfl rfl fun x => ⟨rfl, same_counts h (by simp) (by simp) x⟩
  | @goOn _ w h hs => exact I.same rfl rfl rfl fun x => ⟨rfl, same_counts h (by simp) (by simp) x⟩
  | @pop _ w u q h hq =>
    obtain ⟨clen, tasks, track, range, unpushed, pushed, full, only⟩ := I
    refine ⟨clen, ?_, track, range, unpushed, pushed, full, only⟩
    intro x
    have := tasks x
    have h1 := countP_set_add (isTask x) (b := .task u) h
    have h2 := countP_set_add (isRunning x) (b := .task u) h
    simp only [isTask, isRunning, reduceCtorEq, decide_false, Bool.false_eq_true, if_false, Nat.add_zero, WPc.task.injEq,
      decide_eq_true_eq] at h1 h2
    rw [hq, List.count_cons] at this
    simp only [beq_iff_eq] at this
    show TOk (q.count x) ((s.workers.set w (.task u)).countP (isTask x)) ((s.workers.set w (.task u)).countP (isRunning x)) (s.fut x)
    rw [h1, h2]
    split at this
    · next e =>
      rw [if_pos e]
      cases hf : s.fut x <;> rw [hf] at this <;> simp only [TOk] at this ⊢ <;> omega
    · next e =>
      rw [if_neg e]; simpa using this
  | @begin _ w u h =>
    have h1 := countP_set_add (isTask u) (b := .running u) h
    have h2 := countP_set_add (isRunning u) (b := .running u) h
    simp only [isTask, isRunning, reduceCtorEq, decide_false, Bool.false_eq_true, if_false, Nat.add_zero, decide_true, if_true] at h1 h2
    have hpos := countP_pos_of_getElem? (isTask u) h (by simp [isTask])
    have hT := I.tasks u
    have hf : s.fut u = .spawned := by
      cases hf : s.fut u <;> rw [hf] at hT <;> simp only [TOk] at hT <;> first | rfl | omega
    rw [hf] at hT
    simp only [TOk, isTask, isRunning] at hT hpos
    refine I.worker rfl (by simp [hf]) (by simp) ?_ ?_ ?_
    · have := I.track u; rw [hf] at this; exact this.toRunning
    · simp only [TOk, isTask, isRunning]; omega
    · intro x hx
      have h3 := countP_set_add (isTask x) (b := .running u) h
      have h4 := countP_set_add (isRunning x) (b := .running u) h
      simp only [isTask, isRunning, reduceCtorEq, decide_false, Bool.false_eq_true, if_false, Nat.add_zero, WPc.task.injEq,
        WPc.running.injEq, fun e : u = x => hx e.symm] at h3 h4
      simp only [fun e : u = x => hx e.symm, Ne.symm hx, decide_false, Bool.false_eq_true, if_false, Nat.add_zero] at h3 h4
      exact ⟨h3, h4⟩
  | @finish _ w u ps p out h hps hp ho =>
    have h1 := countP_set_add (isTask u) (b := .loop) h
    have h2 := countP_set_add (isRunning u) (b := .loop) h
    simp only [isTask, isRunning, reduceCtorEq, decide_false, Bool.false_eq_true, if_false, Nat.add_zero, decide_true, if_true] at h1 h2
    have hpos := countP_pos_of_getElem? (isRunning u) h (by simp [isRunning])
    have hT := I.tasks u
    have hf : s.fut u = .running := by
      cases hf : s.fut u <;> rw [hf] at hT <;> simp only [TOk] at hT <;> first | rfl | omega
    rw [hf] at hT
    simp only [TOk, isTask, isRunning] at hT hpos
    refine I.worker rfl (by simp [hf]) (by simp) ?_ ?_ ?_
    · have := I.track u
      have hpt : pointOf pts u = some p := by simp [pointOf, hps, hp]
      rw [hf, hpt] at this
      rw [hpt]
      exact this.toReady ho
    · simp only [TOk, isTask, isRunning]; omega
    · intro x hx
      have h3 := countP_set_add (isTask x) (b := .loop) h
      have h4 := countP_set_add (isRunning x) (b := .loop) h
      simp only [isTask, isRunning, reduceCtorEq, decide_false, Bool.false_eq_true, if_false, Nat.add_zero, WPc.task.injEq,
        WPc.running.injEq] at h3 h4
      simp only [Ne.symm hx, decide_false, Bool.false_eq_true, if_false, Nat.add_zero] at h3 h4
      exact ⟨h3, h4⟩
  | @call _ c h =>
    obtain ⟨clen, tasks, track, range, unpushed, pushed, full, only⟩ := I
    refine ⟨by simpa using clen, tasks, track, range, ?_, ?_, ?_, only⟩
    · intro c' pc hc hp
      rcases getElem?_set_cases hc with ⟨rfl, rfl⟩ | ⟨_, hc⟩
      · exact unpushed c' _ h rfl
      · exact unpushed c' pc hc hp
    · intro c' pc ps hc hp hps
      rcases getElem?_set_cases hc with ⟨rfl, rfl⟩ | ⟨_, hc⟩
      · simp [CPc.pushed] at hp
      · exact pushed c' pc ps hc hp hps
    · intro c' rs ps hc hps
      rcases getElem?_set_cases hc with ⟨rfl, h'⟩ | ⟨_, hc⟩
      · simp at h'
      · exact full c' rs ps hc hps
  | @clientLock _ c h hm =>
    obtain ⟨clen, tasks, track, range, unpushed, pushed, full, only⟩ := I
    refine ⟨by simpa using clen, tasks, track, range, ?_, ?_, ?_, only⟩
    · intro c' pc hc hp
      rcases getElem?_set_cases hc with ⟨rfl, rfl⟩ | ⟨_, hc⟩
      · exact unpushed c' _ h rfl
      · exact unpushed c' pc hc hp
    · intro c' pc ps hc hp hps
      rcases getElem?_set_cases hc with ⟨rfl, rfl⟩ | ⟨_, hc⟩
      · simp [CPc.pushed] at hp
      · exact pushed c' pc ps hc hp hps
    · intro c' rs ps hc hps
      rcases getElem?_set_cases hc with ⟨rfl, h'⟩ | ⟨_, hc⟩
      · simp at h'
      · exact full c' rs ps hc hps
  | @push _ c ps h hps =>
    obtain ⟨clen, tasks, track, range, unpushed, pushed, full, only⟩ := I
    have h0 := unpushed c _ h rfl
    refine ⟨by simpa using clen, ?_, ?_, ?_, ?_, ?_, ?_, ?_⟩
    · intro x
      have := tasks x
      simp only [List.count_append, count_range_pair]
      by_cases hx : x.1 = c ∧ x.2 < ps.length
      · simp only [if_pos hx]
        have hx' : s.fut x = .absent := by obtain ⟨a, b⟩ := x; obtain ⟨rfl, _⟩ := hx; exact h0 b
        rw [hx'] at this
        simp only [TOk] at this ⊢
        omega
      · simp only [if_neg hx, Nat.add_zero]; exact this
    · intro x
      by_cases hx : x.1 = c ∧ x.2 < ps.length
      · simp only [if_pos hx]
        have hx' : s.fut x = .absent := by obtain ⟨a, b⟩ := x; obtain ⟨rfl, _⟩ := hx; exact h0 b
        have := track x
        rw [hx'] at this
        exact this
      · simp only [if_neg hx]; exact track x
    · intro x hx
      by_cases hx' : x.1 = c ∧ x.2 < ps.length
      · exact ⟨ps, by rw [hx'.1]; exact hps, hx'.2⟩
      · simp only [if_neg hx'] at hx; exact range x hx
    · intro c' pc hc hp i
      rcases getElem?_set_cases hc with ⟨rfl, rfl⟩ | ⟨hne, hc⟩
      · simp [CPc.pushed] at hp
      · simp only [hne, false_and, if_false]; exact unpushed c' pc hc hp i
    · intro c' pc ps' hc hp hps'
      rcases getElem?_set_cases hc with ⟨rfl, rfl⟩ | ⟨hne, hc⟩
      · have : ps' = ps := by rw [hps] at hps'; simpa using hps'.symm
        subst this
        refine ⟨by simp [CPc.fetched], by simp [CPc.fetched], ?_⟩
        intro i _ hi
        simp [hi]
      · obtain ⟨le, fetched, todo⟩ := pushed c' pc ps' hc hp hps'
        refine ⟨le, ?_, ?_⟩
        · intro i hi; simp only [hne, false_and, if_false]; exact fetched i hi
        · intro i hi hi'; simp only [hne, false_and, if_false]; exact todo i hi hi'
    · intro c' rs ps' hc hps'
      rcases getElem?_set_cases hc with ⟨rfl, h'⟩ | ⟨_, hc⟩
      · simp at h'
      · exact full c' rs ps' hc hps'
    · intro e he
      have := only e he
      by_cases hx : e.task.1 = c ∧ e.task.2 < ps.length
      · simp [if_pos hx]
      · simp only [if_neg hx]; exact this
  | @notify _ c h =>
    obtain ⟨clen, tasks, track, range, unpushed, pushed, full, only⟩ := I
    refine ⟨by simpa using clen, ?_, track, range, ?_, ?_, ?_, only⟩
    · intro x
      show TOk (s.queue.count x) ((wakeAll s.workers).countP _) ((wakeAll s.workers).countP _) (s.fut x)
      rw [(wakeAll_counts s.workers x).1, (wakeAll_counts s.workers x).2]; exact tasks x
    · intro c' pc hc hp
      rcases getElem?_set_cases hc with ⟨rfl, rfl⟩ | ⟨_, hc⟩
      · simp [CPc.pushed] at hp
      · exact unpushed c' pc hc hp
    · intro c' pc ps hc hp hps
      rcases getElem?_set_cases hc with ⟨rfl, rfl⟩ | ⟨_, hc⟩
      · exact (pushed c' .notify ps h rfl hps :)
      · exact pushed c' pc ps hc hp hps
    · intro c' rs ps hc hps
      rcases getElem?_set_cases hc with ⟨rfl, h'⟩ | ⟨_, hc⟩
      · simp at h'
      · exact full c' rs ps hc hps
  | @get _ c rs r ps h hps hk hr =>
    obtain ⟨clen, tasks, track, range, unpushed, pushed, full, only⟩ := I
    refine ⟨by simpa using clen, ?_, ?_, ?_, ?_, ?_, ?_, ?_⟩
    · intro x
      have := tasks x
      by_cases hx : x = (c, rs.length)
      · subst hx; simp only [Function.update_self]; rw [hr] at this; exact this
      · simp only [Function.update_of_ne hx]; exact this
    · intro x
      by_cases hx : x = (c, rs.length)
      · subst hx; simp [Track]
      · simp only [Function.update_of_ne hx]; exact track x
    · intro x hx
      by_cases hx' : x = (c, rs.length)
      · subst hx'; exact ⟨ps, hps, hk⟩
      · simp only [Function.update_of_ne hx'] at hx; exact range x hx
    · intro c' pc hc hp i
      rcases getElem?_set_cases hc with ⟨rfl, rfl⟩ | ⟨hne, hc⟩
      · simp [CPc.pushed] at hp
      · have : (c', i) ≠ (c, rs.length) := fun e => hne (Prod.mk.inj e).1
        simp only [Function.update_of_ne this]; exact unpushed c' pc hc hp i
    · intro c' pc ps' hc hp hps'
      rcases getElem?_set_cases hc with ⟨rfl, rfl⟩ | ⟨hne, hc⟩
      · have : ps' = ps := by rw [hps] at hps'; simpa using hps'.symm
        subst this
        obtain ⟨le, fetched, todo⟩ := pushed c' _ ps' h rfl hps
        simp only [CPc.fetched] at le fetched todo ⊢
        refine ⟨by simp; omega, ?_, ?_⟩
        · intro i hi
          simp only [List.length_append, List.length_singleton] at hi
          by_cases hi' : i = rs.length
          · subst hi'
            have := track (c', rs.length)
            rw [hr] at this
            obtain ⟨p, hp', hE⟩ := this
            refine ⟨by simp, p, r, ?_, by simp, hE⟩
            simpa [pointOf, hps] using hp'
          · obtain ⟨h1, p, r', h2, h3, h4⟩ := fetched i (by omega)
            have hne : (c', i) ≠ (c', rs.length) := fun e => hi' (Prod.mk.inj e).2
            refine ⟨by simp only [Function.update_of_ne hne]; exact h1, p, r', h2, ?_, h4⟩
            rw [List.getElem?_append_left (by omega)]; exact h3
        · intro i hi hi'
          simp only [List.length_append, List.length_singleton] at hi
          have hne : (c', i) ≠ (c', rs.length) := fun e => by have := (Prod.mk.inj e).2; omega
          simp only [Function.update_of_ne hne]; exact todo i (by omega) hi'
      · obtain ⟨le, fetched, todo⟩ := pushed c' pc ps' hc hp hps'
        have hne' : ∀ i, (c', i) ≠ (c, rs.length) := fun i e => hne (Prod.mk.inj e).1
        refine ⟨le, ?_, ?_⟩
        · intro i hi; simp only [Function.update_of_ne (hne' i)]; exact fetched i hi
        · intro i hi hi'; simp only [Function.update_of_ne (hne' i)]; exact todo i hi hi'
    · intro c' rs ps hc hps
      rcases getElem?_set_cases hc with ⟨rfl, h'⟩ | ⟨_, hc⟩
      · simp at h'
      · exact full c' rs ps hc hps
    · intro e he
      by_cases hx : e.task = (c, rs.length)
      · simp [hx]
      · simp only [Function.update_of_ne hx]; exact only e he
  | @done _ c rs ps h hps hk =>
    obtain ⟨clen, tasks, track, range, unpushed, pushed, full, only⟩ := I
    refine ⟨by simpa using clen, tasks, track, range, ?_, ?_, ?_, only⟩
    · intro c' pc hc hp
      rcases getElem?_set_cases hc with ⟨rfl, rfl⟩ | ⟨_, hc⟩
      · simp [CPc.pushed] at hp
      · exact unpushed c' pc hc hp
    · intro c' pc ps₂ hc hp hps₂
      rcases getElem?_set_cases hc with ⟨rfl, rfl⟩ | ⟨_, hc⟩
      · exact (pushed c' (.get rs) ps₂ h rfl hps₂ :)
      · exact pushed c' pc ps₂ hc hp hps₂
    · intro c' rs' ps' hc hps'
      rcases getElem?_set_cases hc with ⟨rfl, h'⟩ | ⟨_, hc⟩
      · rw [hps] at hps'; simp only [Option.some.injEq] at hps'; subst hps'
        simp only [CPc.returned.injEq] at h'; rw [h']; exact hk
      · exact full c' rs' ps' hc hps'
  | @ctlNotify _ op h => exact I.same rfl rfl rfl fun x => ⟨rfl, wakeAll_counts s.workers x⟩
  | @join _ op ws h hw =>
    refine I.same rfl rfl rfl fun x => ⟨rfl, ?_⟩
    rw [hw]; simp [isTask, isRunning]
  | @spawn _ n h hn => refine I.same rfl rfl rfl fun x => ⟨rfl, by simp [isTask, isRunning]⟩
  | resize h => exact I.same rfl rfl rfl fun x => ⟨rfl, rfl, rfl⟩
  | destroy h => exact I.same rfl rfl rfl fun x => ⟨rfl, rfl, rfl⟩
  | ctlLock h hm => exact I.same rfl rfl rfl fun x => ⟨rfl, rfl, rfl⟩
  | ctlStop h => exact I.same rfl rfl rfl fun x => ⟨rfl, rfl, rfl⟩
  | destroyed h hw => exact I.same rfl rfl rfl fun x => ⟨rfl, rfl, rfl⟩
  | joined h hw => exact I.same rfl rfl rfl fun x => ⟨rfl, rfl, rfl⟩
  | start h => exact I.same rfl rfl rfl fun x => ⟨rfl, rfl, rfl⟩
  | started h hn => exact I.same rfl rfl rfl fun x => ⟨rfl, rfl, rfl⟩

theorem PInv.reach {o : Objective α F} {pts : List (List α)} {n : Nat} {ks : List PKind} {s₀ s : PSt F}
    (h : Exec (PStep o pts) ks s₀ s) (h0 : s₀ = PSt.init F n pts.length) : PInv o pts s := by
  induction h with
  | nil => exact h0 ▸ PInv.init o pts n
  | snoc _ st ih => exact (ih h0).step st

end Spot.Evaluators
