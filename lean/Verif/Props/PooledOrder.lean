import Verif.Lemmas.Pooled
import Verif.Lemmas.Async
import Mathlib.Data.List.Nodup
import Mathlib.Data.List.Perm.Subperm
import Mathlib.Data.List.Induction

/-!
# C104: evaluators serve in order of arrival
-/

namespace Spot.Evaluators

variable {α F : Type}

/-! ## Vocabulary -/

/-- The tasks of call `c`: one for each point, in order. -/
def batch (pts : List (List α)) (c : Nat) : List Task := (List.range ((pts[c]?).getD []).length).map fun i => (c, i)

/-- The tasks of several calls, one call after the other. -/
def order (pts : List (List α)) (cs : List Nat) : List Task := cs.flatMap (batch pts)

/-- The tasks whose evaluation has started, in the order in which they started. -/
def startedTasks (log : List (Ev Task F)) : List Task := log.filterMap fun e => match e with | .start t => some t | .finish _ _ => none

/-- The tasks that workers have taken from the queue but not started yet. -/
def heldTasks (ws : List WPc) : List Task := ws.filterMap fun w => match w with | .task t => some t | _ => none

/-- `cs` are the calls that have put their tasks in the queue, in the order in which they did so: no call twice; every task of these calls has started, or is held by a worker,
or is in the queue; and the tasks in the queue are the last ones, in order. -/
structure Fifo (pts : List (List α)) (s : PSt F) (cs : List Nat) : Prop where
  nodup : cs.Nodup
  mem : ∀ c, c ∈ cs ↔ ∃ pc, s.clients[c]? = some pc ∧ pc.pushed = true
  split : ∃ taken, order pts cs = taken ++ s.queue ∧ taken.Perm (startedTasks s.log ++ heldTasks s.workers)

/-! ## Proofs -/

theorem batch_nodup (pts : List (List α)) (c : Nat) : (batch pts c).Nodup :=
  List.nodup_range.map fun a b h => by simpa using h

theorem order_nodup (pts : List (List α)) {cs : List Nat} (h : cs.Nodup) : (order pts cs).Nodup := by
  refine List.nodup_flatMap.mpr ⟨fun c _ => batch_nodup pts c, ?_⟩
  refine List.Pairwise.imp ?_ h
  intro a b hab x hx hy
  simp only [batch, List.mem_map, List.mem_range] at hx hy
  obtain ⟨i, _, rfl⟩ := hx
  obtain ⟨j, _, hj⟩ := hy
  exact hab (congrArg Prod.fst hj).symm

theorem heldTasks_set {ws : List WPc} {w : Nat} {a b : WPc} (h : ws[w]? = some a) :
    (heldTasks (ws.set w b) ++ heldTasks [a]).Perm (heldTasks ws ++ heldTasks [b]) := by
  induction ws generalizing w with
  | nil => simp at h
  | cons x xs ih =>
    have hc : ∀ (y : WPc) ys, heldTasks (y :: ys) = heldTasks [y] ++ heldTasks ys := by
      intro y ys; rw [← List.singleton_append, heldTasks, List.filterMap_append]; rfl
    cases w with
    | zero =>
      simp only [List.getElem?_cons_zero, Option.some.injEq] at h
      subst h
      rw [List.set_cons_zero, hc b xs, hc x xs]
      refine List.perm_append_comm.trans ?_
      rw [List.append_assoc]
      exact (List.perm_append_comm.append_left _)
    | succ w =>
      simp only [List.getElem?_cons_succ] at h
      rw [List.set_cons_succ, hc x (xs.set w b), hc x xs, List.append_assoc, List.append_assoc]
      exact (ih h).append_left _

theorem heldTasks_wakeAll (ws : List WPc) : heldTasks (wakeAll ws) = heldTasks ws := by
  induction ws with
  | nil => rfl
  | cons x xs ih =>
    have hc : ∀ (y : WPc) ys, heldTasks (y :: ys) = heldTasks [y] ++ heldTasks ys := by
      intro y ys; rw [← List.singleton_append, heldTasks, List.filterMap_append]; rfl
    have hw : wakeAll (x :: xs) = (if x = .waiting then WPc.woken else x) :: wakeAll xs := rfl
    rw [hw, hc, hc x, ih]
    congr 1
    split
    · next h => subst h; rfl
    · rfl

theorem heldTasks_length (ws : List WPc) : (heldTasks ws).length ≤ ws.length := List.length_filterMap_le _ _

/-- A step that changes only workers that hold nothing, and calls without putting tasks in the queue. -/
theorem Fifo.same {pts : List (List α)} {s t : PSt F} {cs} (H : Fifo pts s cs)
    (hc : ∀ c : Nat, (∃ pc : CPc F, t.clients[c]? = some pc ∧ pc.pushed = true) ↔ ∃ pc : CPc F, s.clients[c]? = some pc ∧ pc.pushed = true)
    (hq : t.queue = s.queue) (hl : startedTasks t.log = startedTasks s.log) (hw : (heldTasks t.workers).Perm (heldTasks s.workers)) : Fifo pts t cs := by
  obtain ⟨h1, h2, tk, h3, h4⟩ := H
  refine ⟨h1, fun c => Iff.trans (h2 c) (hc c).symm, tk, by rw [hq]; exact h3, ?_⟩
  rw [hl]
  exact h4.trans (hw.symm.append_left _)

theorem pushed_set {cl : List (CPc F)} {c : Nat} {a b : CPc F} (h : cl[c]? = some a) (hp : b.pushed = a.pushed) (d : Nat) :
    (∃ pc, (cl.set c b)[d]? = some pc ∧ pc.pushed = true) ↔ ∃ pc, cl[d]? = some pc ∧ pc.pushed = true := by
  by_cases hd : d = c
  · subst hd
    rw [getElem?_set_same h, h]
    simp [hp]
  · rw [List.getElem?_set_ne (Ne.symm hd)]

theorem Fifo.step {o : Objective α F} {pts : List (List α)} {k} {s t : PSt F} {cs} (H : Fifo pts s cs) (st : PStep o pts k s t) :
    ∃ cs', Fifo pts t cs' ∧ cs <+: cs' := by
  have same : ∀ {w : Nat} {a b : WPc}, s.workers[w]? = some a → heldTasks [a] = [] → heldTasks [b] = [] →
      (heldTasks (s.workers.set w b)).Perm (heldTasks s.workers) := by
    intro w a b h ha hb
    have := heldTasks_set (b := b) h
    rwa [ha, hb, List.append_nil, List.append_nil] at this
  have keep : ∀ {t : PSt F}, Fifo pts t cs → ∃ cs', Fifo pts t cs' ∧ cs <+: cs' := fun h => ⟨cs, h, List.prefix_refl _⟩
  cases st with
  | test h => exact keep (H.same (fun _ => Iff.rfl) rfl rfl (same h rfl (by split <;> rfl)))
  | acquire h hm => exact keep (H.same (fun _ => Iff.rfl) rfl rfl (same h rfl rfl))
  | @pop _ w t q h hq =>
    obtain ⟨h1, h2, tk, h3, h4⟩ := H
    refine keep ⟨h1, h2, tk ++ [t], by rw [h3, hq]; simp, ?_⟩
    have := heldTasks_set (b := .task t) h
    rw [show heldTasks [WPc.check] = [] from rfl, show heldTasks [WPc.task t] = [t] from rfl, List.append_nil] at this
    refine (h4.append_right [t]).trans ?_
    rw [List.append_assoc]
    exact this.symm.append_left _
  | wait h hq => exact keep (H.same (fun _ => Iff.rfl) rfl rfl (same h rfl rfl))
  | spurious h => exact keep (H.same (fun _ => Iff.rfl) rfl rfl (same h rfl rfl))
  | reacquire h hm => exact keep (H.same (fun _ => Iff.rfl) rfl rfl (same h rfl rfl))
  | leave h hs => exact keep (H.same (fun _ => Iff.rfl) rfl rfl (same h rfl rfl))
  | goOn h hs => exact keep (H.same (fun _ => Iff.rfl) rfl rfl (same h rfl rfl))
  | @begin _ w t h =>
    obtain ⟨h1, h2, tk, h3, h4⟩ := H
    refine keep ⟨h1, h2, tk, h3, h4.trans ?_⟩
    have := heldTasks_set (b := .running t) h
    rw [show heldTasks [WPc.running t] = [] from rfl, show heldTasks [WPc.task t] = [t] from rfl, List.append_nil] at this
    have hs : startedTasks (s.log ++ [.start t]) = startedTasks s.log ++ [t] := by
      rw [startedTasks, List.filterMap_append]; rfl
    show List.Perm _ (startedTasks (s.log ++ [.start t]) ++ heldTasks (s.workers.set w (.running t)))
    rw [hs, List.append_assoc]
    exact (this.symm.trans List.perm_append_comm).append_left _
  | @finish _ w t ps p out h hps hp ho =>
    refine keep (H.same (fun _ => Iff.rfl) rfl ?_ (same h rfl rfl))
    show startedTasks (s.log ++ [.finish t out]) = _
    rw [startedTasks, List.filterMap_append]; simp [startedTasks]
  | call h => exact keep (H.same (pushed_set h rfl) rfl rfl (List.Perm.refl _))
  | clientLock h hm => exact keep (H.same (pushed_set h rfl) rfl rfl (List.Perm.refl _))
  | @push _ c ps h hps =>
    obtain ⟨h1, h2, tk, h3, h4⟩ := H
    have hc : c ∉ cs := by
      intro hc
      obtain ⟨pc, hp, hq⟩ := (h2 c).mp hc
      rw [h] at hp; cases hp; cases hq
    refine ⟨cs ++ [c], ⟨List.nodup_append.mpr ⟨h1, List.nodup_singleton _, ?_⟩, ?_, tk, ?_, h4⟩, List.prefix_append _ _⟩
    · intro a ha b hb; rw [List.mem_singleton] at hb; subst hb; rintro rfl; exact hc ha
    · intro d
      rw [List.mem_append, List.mem_singleton]
      by_cases hd : d = c
      · subst hd
        rw [getElem?_set_same h]
        simp [CPc.pushed]
      · rw [List.getElem?_set_ne (Ne.symm hd), ← h2 d]
        simp [hd]
    · rw [order, List.flatMap_append, ← order, h3, List.append_assoc]
      simp [batch, hps]
  | notify h => exact keep (H.same (pushed_set h rfl) rfl rfl (by rw [heldTasks_wakeAll]))
  | get h hps hk hr => exact keep (H.same (pushed_set h rfl) rfl rfl (List.Perm.refl _))
  | done h hps hk => exact keep (H.same (pushed_set h rfl) rfl rfl (List.Perm.refl _))
  | resize h => exact keep (H.same (fun _ => Iff.rfl) rfl rfl (List.Perm.refl _))
  | destroy h => exact keep (H.same (fun _ => Iff.rfl) rfl rfl (List.Perm.refl _))
  | ctlLock h hm => exact keep (H.same (fun _ => Iff.rfl) rfl rfl (List.Perm.refl _))
  | ctlStop h => exact keep (H.same (fun _ => Iff.rfl) rfl rfl (List.Perm.refl _))
  | ctlNotify h => exact keep (H.same (fun _ => Iff.rfl) rfl rfl (by rw [heldTasks_wakeAll]))
  | join h hw =>
    refine keep (H.same (fun _ => Iff.rfl) rfl rfl ?_)
    rw [hw, heldTasks, heldTasks, List.filterMap_append]; simp
  | destroyed h hw => exact keep (H.same (fun _ => Iff.rfl) rfl rfl (List.Perm.refl _))
  | joined h hw => exact keep (H.same (fun _ => Iff.rfl) rfl rfl (List.Perm.refl _))
  | start h => exact keep (H.same (fun _ => Iff.rfl) rfl rfl (List.Perm.refl _))
  | spawn h hn =>
    refine keep (H.same (fun _ => Iff.rfl) rfl rfl ?_)
    show (heldTasks (s.workers ++ [WPc.loop])).Perm _
    rw [heldTasks, List.filterMap_append]; simp [heldTasks]
  | started h hn => exact keep (H.same (fun _ => Iff.rfl) rfl rfl (List.Perm.refl _))

theorem Fifo.init (pts : List (List α)) (n : Nat) : Fifo pts (PSt.init F n pts.length) [] := by
  refine ⟨List.nodup_nil, ?_, [], rfl, ?_⟩
  · intro c
    constructor
    · intro h; cases h
    · rintro ⟨pc, h, hp⟩
      have := List.eq_of_mem_replicate (List.mem_of_getElem? h)
      subst this; cases hp
  · have : heldTasks (List.replicate n WPc.loop) = [] := by
      rw [heldTasks, List.filterMap_eq_nil_iff]
      intro w hw
      rw [List.eq_of_mem_replicate hw]
    show List.Perm [] (startedTasks [] ++ heldTasks (List.replicate n WPc.loop))
    rw [this]; exact List.Perm.refl _

/-- **C104.** In every execution of a pooled evaluator the calls of `evaluate` are lined up in the order in which they put their tasks in the queue (all tasks of a call at once, in the
order of its points), and this order is never revised: a call that joins later comes after all calls that are there. The tasks that are still in the queue are the last ones of this
order, in order: those before have started or are in the hands of a worker. -/
theorem C104_queue {o : Objective α F} {pts : List (List α)} {n : Nat} {ks} {s : PSt F} (h : Exec (PStep o pts) ks (PSt.init F n pts.length) s) :
    (∃ cs, Fifo pts s cs) ∧ ∀ cs, Fifo pts s cs → ∀ ks' s', Exec (PStep o pts) ks' s s' → ∃ cs', Fifo pts s' cs' ∧ cs <+: cs' := by
  have main : ∀ {s : PSt F} {cs}, Fifo pts s cs → ∀ {ks' s'}, Exec (PStep o pts) ks' s s' → ∃ cs', Fifo pts s' cs' ∧ cs <+: cs' := by
    intro s cs H ks' s' h
    induction h with
    | nil => exact ⟨cs, H, List.prefix_refl _⟩
    | snoc _ st ih =>
      obtain ⟨c1, H1, p1⟩ := ih H
      obtain ⟨c2, H2, p2⟩ := H1.step st
      exact ⟨c2, H2, p1.trans p2⟩
  exact ⟨(main (Fifo.init pts n) h).imp fun _ h => h.1, fun cs H ks' s' h' => main H h'⟩

/-- Only a worker that has taken a task starts it. -/
theorem started_held {o : Objective α F} {pts : List (List α)} {k} {s t : PSt F} {u : Task} (st : PStep o pts k s t) (hl : t.log = s.log ++ [.start u]) :
    u ∈ heldTasks s.workers := by
  have no : ∀ {l : List (Ev Task F)}, l = l ++ [.start u] → False := fun h => by simpa using congrArg List.length h
  cases st with
  | @begin _ w t h =>
    simp only [List.append_cancel_left_eq, List.cons.injEq, Ev.start.injEq, and_true] at hl
    subst hl
    exact List.mem_filterMap.mpr ⟨_, List.mem_of_getElem? h, rfl⟩
  | finish => simp at hl
  | _ => exact (no hl).elim

/-- **C104.** A task can be overtaken only because another worker is about to start it: when task `u` starts, fewer tasks than there are worker threads are before it in the order
of arrival and have not started. -/
theorem C104_overtaking {o : Objective α F} {pts : List (List α)} {k} {s t : PSt F} {cs u} (H : Fifo pts s cs)
    (st : PStep o pts k s t) (hl : t.log = s.log ++ [.start u]) :
    ∃ before after, order pts cs = before ++ u :: after ∧ (before.filter fun x => x ∉ startedTasks s.log).length < s.workers.length := by
  have hu := started_held st hl
  obtain ⟨h1, h2, tk, h3, h4⟩ := H
  have hnd := order_nodup pts h1
  rw [h3] at hnd
  have htk : tk.Nodup := hnd.of_append_left
  have hsh := (h4.nodup_iff).mp htk
  have hut : u ∈ tk := h4.mem_iff.mpr (List.mem_append_right _ hu)
  obtain ⟨b, a, rfl⟩ := List.append_of_mem hut
  refine ⟨b, a ++ s.queue, by rw [h3]; simp, ?_⟩
  have hsub : (u :: b.filter fun x => x ∉ startedTasks s.log) ⊆ heldTasks s.workers := by
    intro x hx
    rcases List.mem_cons.mp hx with rfl | hx
    · exact hu
    · obtain ⟨hxb, hxn⟩ := List.mem_filter.mp hx
      have := h4.mem_iff.mp (List.mem_append_left _ hxb)
      rcases List.mem_append.mp this with h | h
      · simp [h] at hxn
      · exact h
  have hbn : (u :: b.filter fun x => x ∉ startedTasks s.log).Nodup := by
    refine List.nodup_cons.mpr ⟨?_, (htk.of_append_left).filter _⟩
    intro h
    have := List.mem_of_mem_filter h
    exact (List.nodup_append.mp htk).2.2 u this u (by simp) rfl
  have := (List.subperm_of_subset hbn hsub).length_le
  have h5 := heldTasks_length s.workers
  simp only [List.length_cons] at this
  omega

theorem order_prefix {pts : List (List α)} {cs cs'} (h : cs <+: cs') : order pts cs <+: order pts cs' := by
  obtain ⟨r, rfl⟩ := h
  exact ⟨order pts r, by rw [order, order, order, List.flatMap_append]⟩

theorem startedTasks_append (l : List (Ev Task F)) (e : Ev Task F) : startedTasks (l ++ [e]) = startedTasks l ++ startedTasks [e] := by
  rw [startedTasks, List.filterMap_append]; rfl

/-- The log grows by at most one event. -/
theorem log_step {o : Objective α F} {pts : List (List α)} {k} {s t : PSt F} (st : PStep o pts k s t) :
    startedTasks t.log = startedTasks s.log ∨ ∃ u, t.log = s.log ++ [.start u] := by
  cases st with
  | begin => exact .inr ⟨_, rfl⟩
  | finish => left; simp [startedTasks]
  | _ => exact .inl rfl

/-- **C104.** As an observer of the evaluations sees it: with never more than `N` worker threads, whatever the schedule, calls and changes of the number of threads, whenever a task
starts, at most `N - 1` of the tasks before it in the order of arrival have not started. -/
theorem C104_bounded {o : Objective α F} {pts : List (List α)} {n N : Nat} {ks} {s : PSt F} (hn : n ≤ N)
    (h : Exec (fun k s t => PStep o pts k s t ∧ t.workers.length ≤ N) ks (PSt.init F n pts.length) s) :
    ∃ cs, Fifo pts s cs ∧ ∀ l u r, startedTasks s.log = l ++ u :: r →
      ∃ before after, order pts cs = before ++ u :: after ∧ (before.filter fun x => x ∉ l).length < N := by
  generalize h0 : PSt.init F n pts.length = s0 at h
  have : (∃ cs, Fifo pts s cs ∧ ∀ l u r, startedTasks s.log = l ++ u :: r →
      ∃ before after, order pts cs = before ++ u :: after ∧ (before.filter fun x => x ∉ l).length < N) ∧ s.workers.length ≤ N := by
    induction h with
    | nil =>
      subst h0
      refine ⟨⟨[], Fifo.init pts n, ?_⟩, by simpa [PSt.init] using hn⟩
      intro l u r h
      have h' : [] = l ++ u :: r := h
      exact absurd h' (by simp)
    | @snoc ks s0' s t k h st ih =>
      obtain ⟨⟨cs, H, hall⟩, hw⟩ := ih h0
      obtain ⟨cs', H', hp⟩ := H.step st.1
      refine ⟨⟨cs', H', ?_⟩, st.2⟩
      obtain ⟨x, hx⟩ := order_prefix (pts := pts) hp
      have old : ∀ l u r, startedTasks s.log = l ++ u :: r →
          ∃ before after, order pts cs' = before ++ u :: after ∧ (before.filter fun x => x ∉ l).length < N := by
        intro l u r he
        obtain ⟨b, a, hb, hl⟩ := hall l u r he
        exact ⟨b, a ++ x, by rw [← hx, hb]; simp, hl⟩
      intro l u r he
      rcases log_step st.1 with hs | ⟨v, hv⟩
      · exact old l u r (hs ▸ he)
      · rw [hv, startedTasks_append] at he
        rcases List.eq_nil_or_concat r with rfl | ⟨r', y, rfl⟩
        · have he' : startedTasks s.log ++ [v] = l ++ [u] := he
          obtain ⟨rfl, e2⟩ := List.append_inj' he' rfl
          cases e2
          obtain ⟨b, a, hb, hl⟩ := C104_overtaking H st.1 hv
          exact ⟨b, a ++ x, by rw [← hx, hb]; simp, hl.trans_le hw⟩
        · have he' : startedTasks s.log ++ [v] = (l ++ u :: r') ++ [y] := by rw [List.concat_eq_append] at he; simpa [startedTasks] using he
          exact old l u r' (List.append_inj' he' rfl).1
  exact this.1

/-- **C104.** With one worker thread tasks start exactly in the order of arrival. -/
theorem C104_one_thread {o : Objective α F} {pts : List (List α)} {ks} {s : PSt F}
    (h : Exec (fun k s t => PStep o pts k s t ∧ t.workers.length ≤ 1) ks (PSt.init F 1 pts.length) s) :
    ∃ cs, Fifo pts s cs ∧ startedTasks s.log <+: order pts cs := by
  obtain ⟨cs, H, hall⟩ := C104_bounded le_rfl h
  refine ⟨cs, H, ?_⟩
  have hnd := order_nodup pts H.nodup
  have hsn : (startedTasks s.log).Nodup := by
    obtain ⟨tk, h3, h4⟩ := H.split
    rw [h3] at hnd
    exact (h4.nodup_iff.mp hnd.of_append_left).of_append_left
  generalize startedTasks s.log = st at hall hsn
  induction st using List.reverseRecOn with
  | nil => exact List.nil_prefix
  | append_singleton l u ih =>
    obtain ⟨r, hr⟩ := ih (fun l' v r' he => hall l' v (r' ++ [u]) (by rw [he]; simp)) hsn.of_append_left
    obtain ⟨b, a, hb, hlt⟩ := hall l u [] rfl
    have hb0 : b.filter (fun x => x ∉ l) = [] := List.length_eq_zero_iff.mp (by omega)
    have hbl : b ⊆ l := by
      intro x hx
      by_contra hc
      have : x ∈ b.filter (fun x => x ∉ l) := List.mem_filter.mpr ⟨hx, by simpa using hc⟩
      rw [hb0] at this; cases this
    -- both `l` and `b` are prefixes of the order, `b` is contained in `l` and `u` is not
    have hlp : l <+: order pts cs := ⟨r, hr⟩
    have hbp : b <+: order pts cs := ⟨u :: a, hb.symm⟩
    have hul : u ∉ l := fun h => (List.nodup_append.mp hsn).2.2 u h u (by simp) rfl
    have hlb : b.length ≤ l.length := (List.subperm_of_subset (List.Nodup.of_append_left (hb ▸ hnd)) hbl).length_le
    have hle : l.length ≤ b.length := by
      by_contra hc
      obtain ⟨c, hc'⟩ := (List.prefix_of_prefix_length_le hbp hlp hlb)
      have hcr : b ++ (c ++ r) = b ++ u :: a := by rw [← List.append_assoc, hc', hr, hb]
      have := List.append_cancel_left hcr
      cases c with
      | nil => rw [← hc'] at hc; simp at hc
      | cons y c' =>
        have : y = u := (List.cons.inj this).1
        subst this
        exact hul (by rw [← hc']; simp)
    have : l = b := (List.prefix_of_prefix_length_le hlp hbp hle).eq_of_length (by omega)
    subst this
    exact ⟨a, by rw [hb]; simp⟩

/-- Without calls of `set_max_threads` and of the destructor the number of threads never changes, so that `C104_bounded` and `C104_one_thread` apply. -/
theorem C104_fixed_threads {o : Objective α F} {pts : List (List α)} {n : Nat} {ks} {s : PSt F} (h : Exec (PStep o pts) ks (PSt.init F n pts.length) s)
    (hk : PKind.request ∉ ks) : Exec (fun k s t => PStep o pts k s t ∧ t.workers.length ≤ n) ks (PSt.init F n pts.length) s := by
  generalize h0 : PSt.init F n pts.length = s0 at h
  have : Exec (fun k s t => PStep o pts k s t ∧ t.workers.length ≤ n) ks s0 s ∧ s.workers.length = n ∧ s.ctl = .idle := by
    induction h with
    | nil => subst h0; exact ⟨.nil, by simp [PSt.init], rfl⟩
    | @snoc ks s0' s t k h st ih =>
      obtain ⟨e, hw, hc⟩ := ih (fun hm => hk (by simp [hm])) h0
      have hk' : k ≠ .request := by rintro rfl; exact hk (by simp)
      have : t.workers.length = n ∧ t.ctl = .idle := by
        cases st
        case resize => exact absurd rfl hk'
        case destroy => exact absurd rfl hk'
        all_goals first
          | exact ⟨by simpa [wakeAll] using hw, hc⟩
          | (rename_i hx; rw [hc] at hx; cases hx)
          | (rename_i hx _; rw [hc] at hx; cases hx)
      exact ⟨e.snoc ⟨st, this.1.le⟩, this.1, this.2⟩
  exact this.1

/-- With two threads the second of two tasks can indeed start first. -/
example (o : Objective Nat F) :
    ∃ ks s, Exec (fun k s t => PStep o [[7, 8]] k s t ∧ t.workers.length ≤ 2) ks (PSt.init F 2 1) s ∧ startedTasks s.log = [(0, 1), (0, 0)] := by
  have e0 : Exec (PStep o [[7, 8]]) [] (PSt.init F 2 1) { PSt.init F 2 1 with workers := [.loop, .loop], clients := [.idle] } := .nil
  have e1 := e0.snoc (@PStep.call Nat F o [[7, 8]] _ 0 rfl)
  have e2 := e1.snoc (@PStep.clientLock Nat F o [[7, 8]] _ 0 rfl rfl)
  have e3 := e2.snoc (@PStep.push Nat F o [[7, 8]] _ 0 _ rfl rfl)
  have e4 := e3.snoc (@PStep.test Nat F o [[7, 8]] _ 0 rfl)
  have e5 := e4.snoc (@PStep.test Nat F o [[7, 8]] _ 1 rfl)
  have e6 := e5.snoc (@PStep.acquire Nat F o [[7, 8]] _ 0 rfl rfl)
  have e7 := e6.snoc (@PStep.pop Nat F o [[7, 8]] _ 0 (0, 0) [(0, 1)] rfl rfl)
  have e8 := e7.snoc (@PStep.acquire Nat F o [[7, 8]] _ 1 rfl rfl)
  have e9 := e8.snoc (@PStep.pop Nat F o [[7, 8]] _ 1 (0, 1) [] rfl rfl)
  have e10 := e9.snoc (@PStep.begin Nat F o [[7, 8]] _ 1 (0, 1) rfl)
  have e11 := e10.snoc (@PStep.begin Nat F o [[7, 8]] _ 0 (0, 0) rfl)
  exact ⟨_, _, C104_fixed_threads (pts := [[7, 8]]) e11 (by decide), rfl⟩

/-- **C104.** The same for `async_evaluator` with `tc` threads: when point `u` starts to be evaluated, at most `tc - 1` of the points before it have not started. -/
theorem C104_async {o : Objective α F} {pts : List α} {tc : Nat} {ks k} {s t : ASt F} {u : Nat} (h : Exec (AStep o pts tc) ks (ASt.init F pts.length) s)
    (st : AStep o pts tc k s t) (hl : t.log = s.log ++ [.start u]) : ((List.range u).filter fun i => (eventsOf i s.log).isEmpty).length < tc := by
  have I := AInv.reach h rfl
  have no : ∀ {l : List (Ev Nat F)}, l = l ++ [.start u] → False := fun h => by simpa using congrArg List.length h
  have hu : s.fut u = .spawned := by
    cases st with
    | @start _ i h =>
      simp only [List.append_cancel_left_eq, List.cons.injEq, Ev.start.injEq, and_true] at hl
      subst hl
      exact h
    | finish => simp at hl
    | _ => exact (no hl).elim
  have hla : u < s.pc.launched pts.length := by
    by_contra hc
    have := I.absent u (by omega)
    rw [hu] at this; cases this
  have hmem : ∀ i, i ≤ u → (∀ p r, ¬ Evaluated o s.log i p r) → i ∈ s.threads := by
    intro i hi hn
    by_contra hc
    obtain ⟨_, p, r, _, _, hE⟩ := I.dead i (by omega) (fun hm => hc (live_sub hm))
    exact hn p r hE
  have hsub : (u :: (List.range u).filter fun i => (eventsOf i s.log).isEmpty) ⊆ s.threads := by
    intro i hi
    rcases List.mem_cons.mp hi with rfl | hi
    · refine hmem i le_rfl ?_
      rintro p r ⟨out, _, he, _⟩
      have := I.track i
      rw [hu] at this
      have h0 : eventsOf i s.log = [] := this
      rw [h0] at he; cases he
    · obtain ⟨h1, h2⟩ := List.mem_filter.mp hi
      refine hmem i (List.mem_range.mp h1).le ?_
      rintro p r ⟨out, _, he, _⟩
      rw [he] at h2; cases h2
  have hnd : (u :: (List.range u).filter fun i => (eventsOf i s.log).isEmpty).Nodup := by
    refine List.nodup_cons.mpr ⟨?_, List.nodup_range.filter _⟩
    intro h
    exact absurd (List.mem_range.mp (List.mem_of_mem_filter h)) (lt_irrefl u)
  have h1 := (List.subperm_of_subset hnd hsub).length_le
  have h2 := I.size
  simp only [List.length_cons] at h1
  omega

/-- With two threads the second point can start first. -/
example (o : Objective Nat F) : ∃ ks s t, Exec (AStep o [7, 8] 2) ks (ASt.init F 2) s ∧ AStep o [7, 8] 2 .work s t ∧ t.log = s.log ++ [.start 1] ∧ s.log = [] := by
  have e0 : Exec (AStep o [7, 8] 2) [] (ASt.init F 2) (ASt.init F 2) := .nil
  have e1 := e0.snoc (@AStep.launch Nat F o [7, 8] 2 _ 0 rfl (by decide) (by show 0 < 2; decide))
  have e2 := e1.snoc (@AStep.launch Nat F o [7, 8] 2 _ 1 rfl (by decide) (by show 1 < 2; decide))
  exact ⟨_, _, _, e2, @AStep.start Nat F o [7, 8] 2 _ 1 rfl, rfl, rfl⟩

end Spot.Evaluators
