import Verif.Lemmas.PooledLive

/-!
# Termination and shutdown of pooled_evaluator
-/

namespace Spot.Evaluators

variable {α F : Type}

/-! ## Every execution without new calls is finite, up to spurious wake-ups -/

def WPc.left : WPc → Nat
  | .exited => 0
  | .waiting => 0
  | .check => 1
  | .afterWait => 2
  | .lock => 2
  | .woken => 3
  | .loop => 3
  | .running _ => 4
  | .task _ => 5

def CPc.left (B n : Nat) : CPc F → Nat
  | .returned _ => 0
  | .idle => 0
  | .get rs => n - rs.length + 1
  | .notify => n + 3 * B + 2
  | .pushing => 6 * n + 3 * B + 3
  | .lock => 6 * n + 3 * B + 4

def KPc.left (B W : Nat) : KPc → Nat
  | .idle => 0
  | .destroyed => 0
  | .spawn _ => 1 + 4 * (B - W)
  | .start _ => 2 + 4 * B
  | .join _ => 3 + 4 * B + W
  | .notify _ => 4 + 7 * B + W
  | .stop _ => 5 + 7 * B + W
  | .lock => 6 + 7 * B + W

def PSt.left (B : Nat) (pts : List (List α)) (s : PSt F) : Nat :=
  (s.workers.map WPc.left).sum + 5 * s.queue.length + (List.zipWith (fun pc ps => CPc.left B ps.length pc) s.clients pts).sum +
    s.ctl.left B s.workers.length

def KPc.bounded (B : Nat) : KPc → Prop
  | .spawn n => n ≤ B
  | .start n => n ≤ B
  | .join (some n) => n ≤ B
  | .notify (some n) => n ≤ B
  | .stop (some n) => n ≤ B
  | _ => True

theorem sum_map_set {β : Type} (f : β → Nat) {l : List β} {w : Nat} {a b : β} (h : l[w]? = some a) :
    ((l.set w b).map f).sum + f a = (l.map f).sum + f b := by
  induction l generalizing w with
  | nil => simp at h
  | cons x xs ih =>
    cases w with
    | zero =>
      simp only [List.getElem?_cons_zero, Option.some.injEq] at h
      subst h; simp; omega
    | succ w =>
      simp only [List.getElem?_cons_succ] at h
      have := ih h
      simp only [List.set_cons_succ, List.map_cons, List.sum_cons]; omega

theorem sum_zipWith_set {β γ : Type} (f : β → γ → Nat) {l : List β} {m : List γ} {w : Nat} {a b : β} {p : γ} (h : l[w]? = some a)
    (hm : m[w]? = some p) : (List.zipWith f (l.set w b) m).sum + f a p = (List.zipWith f l m).sum + f b p := by
  induction l generalizing w m with
  | nil => simp at h
  | cons x xs ih =>
    cases m with
    | nil => simp at hm
    | cons y ys =>
      cases w with
      | zero =>
        simp only [List.getElem?_cons_zero, Option.some.injEq] at h hm
        subst h; subst hm; simp; omega
      | succ w =>
        simp only [List.getElem?_cons_succ] at h hm
        have := ih h hm
        simp; omega

theorem wakeAll_left (l : List WPc) : ((wakeAll l).map WPc.left).sum ≤ (l.map WPc.left).sum + 3 * l.length := by
  induction l with
  | nil => simp [wakeAll]
  | cons x xs ih =>
    have hx : ((if x = .waiting then WPc.woken else x) : WPc).left ≤ x.left + 3 := by
      split
      · simp [WPc.left]
      · omega
    unfold wakeAll at ih ⊢
    simp only [List.map_cons, List.sum_cons, List.length_cons]
    omega

theorem wakeAll_length (l : List WPc) : (wakeAll l).length = l.length := by simp [wakeAll]

theorem point_of_client {o : Objective α F} {pts : List (List α)} {s : PSt F} (I : PInv o pts s) {c : Nat} {a : CPc F}
    (h : s.clients[c]? = some a) : ∃ ps, pts[c]? = some ps := by
  have hlt : c < pts.length := by
    rw [← I.clen]
    by_contra hn; rw [List.getElem?_eq_none (by omega)] at h; simp at h
  exact ⟨_, List.getElem?_eq_getElem hlt⟩

def PKind.cost : PKind → Nat
  | .work => 1
  | .control => 1
  | _ => 0

theorem left_pstep {o : Objective α F} {pts : List (List α)} {kd : PKind} {s t : PSt F} {B : Nat} (h : PStep o pts kd s t)
    (I : PInv o pts s) (hkd : kd ≠ .call ∧ kd ≠ .request) (hB : s.workers.length ≤ B) (hk : s.ctl.bounded B)
    (hst : ∀ n, s.ctl = .start n → s.workers = []) :
    t.left B pts + kd.cost ≤ s.left B pts + (if kd = .spurious then 3 else 0) ∧ t.workers.length ≤ B ∧ t.ctl.bounded B := by
  unfold PSt.left
  cases h with
  | @test _ w h =>
    refine ⟨?_, by simpa using hB, hk⟩
    have := sum_map_set WPc.left (b := if s.stop then WPc.exited else .lock) h
    cases hs : s.stop <;> simp [hs, WPc.left, PKind.cost] at this ⊢ <;> omega
  | @acquire _ w h hm =>
    refine ⟨?_, by simpa using hB, hk⟩
    have := sum_map_set WPc.left (b := .check) h
    simp [WPc.left, PKind.cost] at this ⊢; omega
  | @wait _ w h hq =>
    refine ⟨?_, by simpa using hB, hk⟩
    have := sum_map_set WPc.left (b := .waiting) h
    simp [WPc.left, PKind.cost] at this ⊢; omega
  | @spurious _ w h =>
    refine ⟨?_, by simpa using hB, hk⟩
    have := sum_map_set WPc.left (b := .woken) h
    simp [WPc.left, PKind.cost] at this ⊢; omega
  | @reacquire _ w h hm =>
    refine ⟨?_, by simpa using hB, hk⟩
    have := sum_map_set WPc.left (b := .afterWait) h
    simp [WPc.left, PKind.cost] at this ⊢; omega
  | @leave _ w h hs =>
    refine ⟨?_, by simpa using hB, hk⟩
    have := sum_map_set WPc.left (b := .exited) h
    simp [WPc.left, PKind.cost] at this ⊢; omega
  | @goOn _ w h hs =>
    refine ⟨?_, by simpa using hB, hk⟩
    have := sum_map_set WPc.left (b := .check) h
    simp [WPc.left, PKind.cost] at this ⊢; omega
  | @pop _ w u q h hq =>
    refine ⟨?_, by simpa using hB, hk⟩
    have := sum_map_set WPc.left (b := .task u) h
    simp [WPc.left, PKind.cost, hq] at this ⊢; omega
  | @begin _ w u h =>
    refine ⟨?_, by simpa using hB, hk⟩
    have := sum_map_set WPc.left (b := .running u) h
    simp [WPc.left, PKind.cost] at this ⊢; omega
  | @finish _ w u ps p out h hps hp ho =>
    refine ⟨?_, by simpa using hB, hk⟩
    have := sum_map_set WPc.left (b := .loop) h
    simp [WPc.left, PKind.cost] at this ⊢; omega
  | @clientLock _ c h hm =>
    refine ⟨?_, hB, hk⟩
    obtain ⟨ps, hps⟩ := point_of_client I h
    have := sum_zipWith_set (fun pc (ps : List α) => CPc.left B ps.length pc) (b := CPc.pushing) h hps
    simp [CPc.left, PKind.cost] at this ⊢; omega
  | @push _ c ps h hps =>
    refine ⟨?_, hB, hk⟩
    have := sum_zipWith_set (fun pc (ps : List α) => CPc.left B ps.length pc) (b := CPc.notify) h hps
    simp [CPc.left, PKind.cost] at this ⊢; omega
  | @notify _ c h =>
    refine ⟨?_, by simpa [wakeAll_length] using hB, hk⟩
    obtain ⟨ps, hps⟩ := point_of_client I h
    have := sum_zipWith_set (fun pc (ps : List α) => CPc.left B ps.length pc) (b := CPc.get []) h hps
    have hw := wakeAll_left s.workers
    simp [CPc.left, PKind.cost, wakeAll_length] at this hw ⊢; omega
  | @get _ c rs r ps h hps hk' hr =>
    refine ⟨?_, hB, hk⟩
    have := sum_zipWith_set (fun pc (ps : List α) => CPc.left B ps.length pc) (b := CPc.get (rs ++ [r])) h hps
    simp [CPc.left, PKind.cost] at this ⊢; omega
  | @done _ c rs ps h hps hk' =>
    refine ⟨?_, hB, hk⟩
    have := sum_zipWith_set (fun pc (ps : List α) => CPc.left B ps.length pc) (b := CPc.returned rs) h hps
    simp [CPc.left, PKind.cost] at this ⊢; omega
  | @ctlNotify _ op h =>
    have hw := wakeAll_left s.workers
    rw [h] at hk
    refine ⟨?_, by simpa [wakeAll_length] using hB, by cases op <;> simpa [KPc.bounded] using hk⟩
    simp [KPc.left, PKind.cost, wakeAll_length, h] at hw ⊢; omega
  | @join _ op ws h hw =>
    rw [hw] at hB
    simp only [List.length_append, List.length_singleton] at hB
    refine ⟨?_, by show ws.length ≤ B; omega, hk⟩
    simp [KPc.left, PKind.cost, h, hw, WPc.left]; omega
  | @spawn _ n h hn =>
    rw [h] at hk
    simp only [KPc.bounded] at hk
    refine ⟨?_, by show (s.workers ++ [WPc.loop]).length ≤ B; simp; omega, by show s.ctl.bounded B; rw [h]; exact hk⟩
    simp [KPc.left, PKind.cost, h, WPc.left]; omega
  | ctlLock h hm => exact ⟨by simp [KPc.left, PKind.cost, h]; omega, hB, trivial⟩
  | @ctlStop _ op h =>
    rw [h] at hk
    exact ⟨by simp [KPc.left, PKind.cost, h]; omega, hB, by cases op <;> simpa [KPc.bounded] using hk⟩
  | destroyed h hw => exact ⟨by simp [KPc.left, PKind.cost, h, hw]; omega, hB, trivial⟩
  | joined h hw =>
    rw [h] at hk
    exact ⟨by simp [KPc.left, PKind.cost, h, hw]; omega, hB, hk⟩
  | start h =>
    have := hst _ h
    rw [h] at hk
    exact ⟨by simp [KPc.left, PKind.cost, h, this]; omega, hB, hk⟩
  | started h hn => exact ⟨by simp [KPc.left, PKind.cost, h], hB, trivial⟩
  | call h => simp at hkd
  | resize h => simp at hkd
  | destroy h => simp at hkd

theorem left_exec {o : Objective α F} {pts : List (List α)} {ks : List PKind} {s t : PSt F} {B : Nat} (h : Exec (PStep o pts) ks s t)
    (I : PInv o pts s) (X : XInv s) (hks : ∀ k ∈ ks, k ≠ .call ∧ k ≠ .request) (hB : s.workers.length ≤ B) (hk : s.ctl.bounded B) :
    t.left B pts + (ks.count .work + ks.count .control) ≤ s.left B pts + 3 * ks.count .spurious ∧ t.workers.length ≤ B ∧
      t.ctl.bounded B ∧ PInv o pts t ∧ XInv t := by
  induction h with
  | nil => simp [hB, hk, I, X]
  | @snoc ls s t u l ex st ih =>
    obtain ⟨h1, h2, h3, h4, h5⟩ := ih I X (fun k hk => hks k (by simp [hk])) hB hk
    have hl := hks l (by simp)
    have := left_pstep st h4 hl h2 h3 h5.started
    refine ⟨?_, this.2.1, this.2.2, h4.step st, h5.step st⟩
    have := this.1
    simp only [List.count_append, List.count_singleton]
    cases l <;> simp_all [PKind.cost] <;> omega

/-- A bound that works for a state. -/
theorem exists_bound (s : PSt F) : ∃ B, s.workers.length ≤ B ∧ s.ctl.bounded B := by
  cases hc : s.ctl with
  | spawn n => exact ⟨s.workers.length + n, by omega, by simp [KPc.bounded]⟩
  | start n => exact ⟨s.workers.length + n, by omega, by simp [KPc.bounded]⟩
  | join op => cases op with
    | none => exact ⟨s.workers.length, le_rfl, trivial⟩
    | some n => exact ⟨s.workers.length + n, by omega, by simp [KPc.bounded]⟩
  | notify op => cases op with
    | none => exact ⟨s.workers.length, le_rfl, trivial⟩
    | some n => exact ⟨s.workers.length + n, by omega, by simp [KPc.bounded]⟩
  | stop op => cases op with
    | none => exact ⟨s.workers.length, le_rfl, trivial⟩
    | some n => exact ⟨s.workers.length + n, by omega, by simp [KPc.bounded]⟩
  | idle => exact ⟨s.workers.length, le_rfl, trivial⟩
  | lock => exact ⟨s.workers.length, le_rfl, trivial⟩
  | destroyed => exact ⟨s.workers.length, le_rfl, trivial⟩

/-! ## Destruction -/

/-- Waiting for a task or for the mutex. -/
def WPc.blocked : WPc → Prop
  | .lock => True
  | .waiting => True
  | .woken => True
  | _ => False

/-- The destructor is past its first line. -/
def KPc.destroying : KPc → Prop
  | .stop none => True
  | .notify none => True
  | .join none => True
  | _ => False

theorem locked_of_destroying {s : PSt F} (L : LInv s) (h : s.ctl.destroying) :
    s.locked = true ∧ s.workers.countP WPc.crit = 0 ∧ s.clients.countP CPc.crit = 0 := by
  have : s.ctl.crit = 1 := by
    cases hc : s.ctl with
    | stop op => cases op <;> simp_all [KPc.destroying, KPc.crit]
    | notify op => cases op <;> simp_all [KPc.destroying, KPc.crit]
    | join op => cases op <;> simp_all [KPc.destroying, KPc.crit]
    | _ => simp_all [KPc.destroying]
  unfold LInv at L
  rw [this] at L
  cases hl : s.locked
  · rw [hl] at L; simp at L
  · rw [hl] at L; simp only [if_true] at L; exact ⟨rfl, by omega, by omega⟩

theorem blocked_set {l : List WPc} {k w : Nat} {a b : WPc} (hk : ∃ x, l[k]? = some x ∧ x.blocked) (h : l[w]? = some a)
    (hb : k = w → b.blocked) : ∃ x, (l.set w b)[k]? = some x ∧ x.blocked := by
  obtain ⟨x, hx, hxb⟩ := hk
  by_cases hkw : k = w
  · subst hkw; exact ⟨b, getElem?_set_same h, hb rfl⟩
  · exact ⟨x, by rw [List.getElem?_set_ne (Ne.symm hkw)]; exact hx, hxb⟩

theorem blocked_wakeAll {l : List WPc} {k : Nat} (hk : ∃ x, l[k]? = some x ∧ x.blocked) :
    ∃ x, (wakeAll l)[k]? = some x ∧ x.blocked := by
  obtain ⟨x, hx, hxb⟩ := hk
  refine ⟨_, by unfold wakeAll; rw [List.getElem?_map, hx]; rfl, ?_⟩
  by_cases h : x = .waiting
  · subst h; simp [WPc.blocked]
  · simp only [h, if_false]; exact hxb

/-- A worker that is blocked while the destructor holds the mutex stays blocked, and the destructor does not return. -/
theorem destroying_step {o : Objective α F} {pts : List (List α)} {kd : PKind} {s t : PSt F} (h : PStep o pts kd s t) (L : LInv s)
    (hd : s.ctl.destroying) {k : Nat} (hk : ∃ x, s.workers[k]? = some x ∧ x.blocked) :
    t.ctl.destroying ∧ ∃ x, t.workers[k]? = some x ∧ x.blocked := by
  obtain ⟨hl, hc0, hc1⟩ := locked_of_destroying L hd
  have hnb : ∀ (w : Nat) (a b : WPc), s.workers[w]? = some a → ¬ a.blocked → k = w → b.blocked := by
    rintro w a b hw ha rfl
    obtain ⟨x, hx, hb⟩ := hk
    rw [hx] at hw; simp only [Option.some.injEq] at hw; subst hw; exact absurd hb ha
  cases h with
  | @test _ w h => exact ⟨hd, blocked_set hk h (hnb w _ _ h (by simp [WPc.blocked]))⟩
  | @acquire _ w h hm => rw [hl] at hm; simp at hm
  | @wait _ w h hq => exact ⟨hd, blocked_set hk h (hnb w _ _ h (by simp [WPc.blocked]))⟩
  | @spurious _ w h => exact ⟨hd, blocked_set hk h (fun _ => by simp [WPc.blocked])⟩
  | @reacquire _ w h hm => rw [hl] at hm; simp at hm
  | @leave _ w h hs => exact ⟨hd, blocked_set hk h (hnb w _ _ h (by simp [WPc.blocked]))⟩
  | @goOn _ w h hs => exact ⟨hd, blocked_set hk h (hnb w _ _ h (by simp [WPc.blocked]))⟩
  | @pop _ w u q h hq => exact ⟨hd, blocked_set hk h (hnb w _ _ h (by simp [WPc.blocked]))⟩
  | @begin _ w u h => exact ⟨hd, blocked_set hk h (hnb w _ _ h (by simp [WPc.blocked]))⟩
  | @finish _ w u ps p out h hps hp ho => exact ⟨hd, blocked_set hk h (hnb w _ _ h (by simp [WPc.blocked]))⟩
  | call h => exact ⟨hd, hk⟩
  | clientLock h hm => exact ⟨hd, hk⟩
  | push h hps => exact ⟨hd, hk⟩
  | get h hps hk' hr => exact ⟨hd, hk⟩
  | done h hps hk' => exact ⟨hd, hk⟩
  | notify h => exact ⟨hd, blocked_wakeAll hk⟩
  | @ctlNotify _ op h => 
    rw [h] at hd
    cases op with
    | none => exact ⟨trivial, blocked_wakeAll hk⟩
    | some n => exact hd.elim
  | @join _ op ws h hw =>
    refine ⟨hd, ?_⟩
    obtain ⟨x, hx, hb⟩ := hk
    refine ⟨x, ?_, hb⟩
    rw [hw] at hx
    show ws[k]? = some x
    rcases Nat.lt_trichotomy k ws.length with h1 | h1 | h1
    · rwa [List.getElem?_append_left h1] at hx
    · subst h1; simp at hx; subst hx; exact hb.elim
    · rw [List.getElem?_eq_none (by simp; omega)] at hx; simp at hx
  | spawn h hn => rw [h] at hd; exact hd.elim
  | resize h => rw [h] at hd; exact hd.elim
  | destroy h => rw [h] at hd; exact hd.elim
  | ctlLock h hm => rw [h] at hd; exact hd.elim
  | @ctlStop _ op h =>
    rw [h] at hd
    cases op with
    | none => exact ⟨trivial, hk⟩
    | some n => exact hd.elim
  | destroyed h hw => obtain ⟨x, hx, _⟩ := hk; rw [hw] at hx; simp at hx
  | joined h hw => rw [h] at hd; exact hd.elim
  | start h => rw [h] at hd; exact hd.elim
  | started h hn => rw [h] at hd; exact hd.elim

theorem destroying_exec {o : Objective α F} {pts : List (List α)} {ks : List PKind} {s t : PSt F} (h : Exec (PStep o pts) ks s t)
    (L : LInv s) (hd : s.ctl.destroying) {k : Nat} (hk : ∃ x, s.workers[k]? = some x ∧ x.blocked) :
    LInv t ∧ t.ctl.destroying ∧ ∃ x, t.workers[k]? = some x ∧ x.blocked := by
  induction h with
  | nil => exact ⟨L, hd, hk⟩
  | snoc _ st ih =>
    obtain ⟨h1, h2, h3⟩ := ih L hd hk
    exact ⟨h1.step st, destroying_step st h1 h2 h3⟩

/-- The worker is inside the waiting loop of spot/pooled_evaluator.cpp:94-99. -/
def WPc.inWait : WPc → Prop
  | .waiting => True
  | .woken => True
  | .afterWait => True
  | .check => True
  | _ => False

def CPc.inactive : CPc F → Prop
  | .idle => True
  | .returned _ => True
  | _ => False

/-- Worker `k` waits for tasks, there are none and nobody is going to add any, and the destructor has been called. -/
structure AtRest (k : Nat) (s : PSt F) : Prop where
  empty : s.queue = []
  clients : ∀ pc ∈ s.clients, pc.inactive
  phase : (s.ctl = .lock ∧ s.stop = false ∧ ∃ x, s.workers[k]? = some x ∧ x.inWait) ∨
    (s.ctl.destroying ∧ ∃ x, s.workers[k]? = some x ∧ x.blocked)

theorem inWait_set {l : List WPc} {k w : Nat} {a b : WPc} (hk : ∃ x, l[k]? = some x ∧ x.inWait) (h : l[w]? = some a)
    (hb : k = w → b.inWait) : ∃ x, (l.set w b)[k]? = some x ∧ x.inWait := by
  obtain ⟨x, hx, hxb⟩ := hk
  by_cases hkw : k = w
  · subst hkw; exact ⟨b, getElem?_set_same h, hb rfl⟩
  · exact ⟨x, by rw [List.getElem?_set_ne (Ne.symm hkw)]; exact hx, hxb⟩

theorem AtRest.step {o : Objective α F} {pts : List (List α)} {kd : PKind} {s t : PSt F} (h : PStep o pts kd s t) (L : LInv s)
    {k : Nat} (R : AtRest k s) (hkd : kd ≠ .call) : AtRest k t := by
  obtain ⟨empty, clients, phase⟩ := R
  have hcl : ∀ (c : Nat) (pc : CPc F), s.clients[c]? = some pc → pc.inactive := fun c pc h => clients pc (List.mem_of_getElem? h)
  rcases phase with ⟨hctl, hst, hk⟩ | ⟨hd, hb⟩
  · have hni : ∀ (w : Nat) (a b : WPc), s.workers[w]? = some a → ¬ a.inWait → k = w → b.inWait := by
      rintro w a b hw ha rfl
      obtain ⟨x, hx, hb⟩ := hk
      rw [hx] at hw; simp only [Option.some.injEq] at hw; subst hw; exact absurd hb ha
    cases h with
    | @test _ w h => exact ⟨empty, clients, .inl ⟨hctl, hst, inWait_set hk h (hni w _ _ h (by simp [WPc.inWait]))⟩⟩
    | @acquire _ w h hm => exact ⟨empty, clients, .inl ⟨hctl, hst, inWait_set hk h (fun _ => trivial)⟩⟩
    | @wait _ w h hq => exact ⟨empty, clients, .inl ⟨hctl, hst, inWait_set hk h (fun _ => trivial)⟩⟩
    | @spurious _ w h => exact ⟨empty, clients, .inl ⟨hctl, hst, inWait_set hk h (fun _ => trivial)⟩⟩
    | @reacquire _ w h hm => exact ⟨empty, clients, .inl ⟨hctl, hst, inWait_set hk h (fun _ => trivial)⟩⟩
    | @leave _ w h hs => rw [hst] at hs; simp at hs
    | @goOn _ w h hs => exact ⟨empty, clients, .inl ⟨hctl, hst, inWait_set hk h (fun _ => trivial)⟩⟩
    | @pop _ w u q h hq => rw [empty] at hq; simp at hq
    | @begin _ w u h => exact ⟨empty, clients, .inl ⟨hctl, hst, inWait_set hk h (hni w _ _ h (by simp [WPc.inWait]))⟩⟩
    | @finish _ w u ps p out h hps hp ho =>
      exact ⟨empty, clients, .inl ⟨hctl, hst, inWait_set hk h (hni w _ _ h (by simp [WPc.inWait]))⟩⟩
    | call h => exact absurd rfl hkd
    | clientLock h hm => exact (hcl _ _ h).elim
    | push h hps => exact (hcl _ _ h).elim
    | get h hps hk' hr => exact (hcl _ _ h).elim
    | done h hps hk' => exact (hcl _ _ h).elim
    | notify h => exact (hcl _ _ h).elim
    | ctlLock h hm =>
      refine ⟨empty, clients, .inr ⟨trivial, ?_⟩⟩
      obtain ⟨x, hx, hw⟩ := hk
      refine ⟨x, hx, ?_⟩
      unfold LInv at L
      rw [hm] at L
      simp only [Bool.false_eq_true, if_false] at L
      have h0 : ¬ 0 < s.workers.countP WPc.crit := by omega
      have : ¬ x.crit = true := fun hc => h0 (countP_pos_of_getElem? WPc.crit hx hc)
      cases x <;> simp_all [WPc.inWait, WPc.crit, WPc.blocked]
    | ctlNotify h => rw [h] at hctl; simp at hctl
    | join h hw => rw [h] at hctl; simp at hctl
    | spawn h hn => rw [h] at hctl; simp at hctl
    | resize h => rw [h] at hctl; simp at hctl
    | destroy h => rw [h] at hctl; simp at hctl
    | ctlStop h => rw [h] at hctl; simp at hctl
    | destroyed h hw => rw [h] at hctl; simp at hctl
    | joined h hw => rw [h] at hctl; simp at hctl
    | start h => rw [h] at hctl; simp at hctl
    | started h hn => rw [h] at hctl; simp at hctl
  · have := destroying_step h L hd hb
    refine ⟨?_, ?_, .inr this⟩
    · cases h with
      | push h hps => exact (hcl _ _ h).elim
      | pop h hq => rw [empty] at hq; simp at hq
      | _ => exact empty
    · cases h with
      | call h => exact absurd rfl hkd
      | clientLock h hm => exact (hcl _ _ h).elim
      | push h hps => exact (hcl _ _ h).elim
      | get h hps hk' hr => exact (hcl _ _ h).elim
      | done h hps hk' => exact (hcl _ _ h).elim
      | notify h => exact (hcl _ _ h).elim
      | _ => exact clients

/-- Workers that will notice the stop signal without needing the mutex. -/
def WPc.free : WPc → Prop
  | .loop => True
  | .task _ => True
  | .running _ => True
  | .exited => True
  | _ => False

/-- The destructor has set the stop signal and every worker will notice. -/
structure Ending (s : PSt F) : Prop where
  ctl : s.ctl = .notify none ∨ s.ctl = .join none ∨ s.ctl = .destroyed
  free : ∀ w ∈ s.workers, w.free

theorem Ending.step {o : Objective α F} {pts : List (List α)} {kd : PKind} {s t : PSt F} (h : PStep o pts kd s t) (X : XInv s)
    (E : Ending s) : Ending t := by
  obtain ⟨ctl, free⟩ := E
  have hst : s.stop = true := by
    rcases ctl with h | h | h <;> exact X.stopping (by rw [h]; rfl) (by rw [h]; simp)
  have hfr : ∀ (w : Nat) (a : WPc), s.workers[w]? = some a → a.free := fun w a h => free a (List.mem_of_getElem? h)
  have hset : ∀ (w : Nat) (b : WPc), b.free → ∀ x ∈ s.workers.set w b, x.free := by
    intro w b hb x hx
    rcases List.mem_or_eq_of_mem_set hx with hx | rfl
    · exact free x hx
    · exact hb
  have hwake : ∀ x ∈ wakeAll s.workers, x.free := by
    intro x hx
    unfold wakeAll at hx
    obtain ⟨y, hy, rfl⟩ := List.mem_map.mp hx
    have := free y hy
    by_cases hyw : y = .waiting
    · subst hyw; exact this.elim
    · simp only [hyw, if_false]; exact this
  cases h with
  | @test _ w h => exact ⟨ctl, hset w _ (by simp [hst, WPc.free])⟩
  | @acquire _ w h hm => exact (hfr w _ h).elim
  | @wait _ w h hq => exact (hfr w _ h).elim
  | @spurious _ w h => exact (hfr w _ h).elim
  | @reacquire _ w h hm => exact (hfr w _ h).elim
  | @leave _ w h hs => exact (hfr w _ h).elim
  | @goOn _ w h hs => exact (hfr w _ h).elim
  | @pop _ w u q h hq => exact (hfr w _ h).elim
  | @begin _ w u h => exact ⟨ctl, hset w _ trivial⟩
  | @finish _ w u ps p out h hps hp ho => exact ⟨ctl, hset w _ trivial⟩
  | call h => exact ⟨ctl, free⟩
  | clientLock h hm => exact ⟨ctl, free⟩
  | push h hps => exact ⟨ctl, free⟩
  | get h hps hk' hr => exact ⟨ctl, free⟩
  | done h hps hk' => exact ⟨ctl, free⟩
  | notify h => exact ⟨ctl, hwake⟩
  | @ctlNotify _ op h => rw [h] at ctl; simp at ctl; subst ctl; exact ⟨by simp, hwake⟩
  | @join _ op ws h hw => exact ⟨ctl, fun x hx => free x (by rw [hw]; simp [hx])⟩
  | spawn h hn => rw [h] at ctl; simp at ctl
  | resize h => rw [h] at ctl; simp at ctl
  | destroy h => rw [h] at ctl; simp at ctl
  | ctlLock h hm => rw [h] at ctl; simp at ctl
  | ctlStop h => rw [h] at ctl; simp at ctl
  | destroyed h hw => exact ⟨by simp, free⟩
  | joined h hw => rw [h] at ctl; simp at ctl
  | start h => rw [h] at ctl; simp at ctl
  | started h hn => rw [h] at ctl; simp at ctl

/-- With all workers ended, the controlling thread can go on. -/
theorem Stuck.join {o : Objective α F} {pts : List (List α)} {s : PSt F} (h : Stuck o pts s) {op : Option Nat} (hc : s.ctl = .join op)
    (hw : ∀ w ∈ s.workers, w = .exited) : False := by
  have H := fun t => h .control t (.inr rfl)
  rcases List.eq_nil_or_concat s.workers with hn | ⟨ws, x, hx⟩
  · cases op with
    | none => exact H _ (.destroyed hc hn)
    | some n => exact H _ (.joined hc hn)
  · have : x = .exited := hw x (by rw [hx]; simp)
    subst this
    exact H _ (.join hc (by rw [hx, List.concat_eq_append]))

theorem Ending.stuck {o : Objective α F} (ho : ∀ p, ∃ out, o p out) {pts : List (List α)} {s : PSt F} (I : PInv o pts s)
    (E : Ending s) (h : Stuck o pts s) : s.ctl = .destroyed := by
  rcases E.ctl with hc | hc | hc
  · exact absurd (.ctlNotify hc) (h .control _ (.inr rfl))
  · exfalso
    refine h.join hc fun w hw => ?_
    have hf := E.free w hw
    rcases h.worker ho I hw with rfl | rfl | ⟨_, rfl | rfl⟩
    · rfl
    all_goals exact hf.elim
  · exact hc

/-! ## set_max_threads -/

/-- Workers that notice the stop signal once they have been notified. -/
def WPc.heeds : WPc → Prop
  | .lock => False
  | .check => False
  | _ => True

/-- `set_max_threads` with result `n` has set the stop signal and every worker will notice; or it is past that. -/
structure Resizing (n : Nat) (s : PSt F) : Prop where
  phase : (s.ctl = .notify (some n) ∧ ∀ w ∈ s.workers, w.heeds) ∨
    (s.ctl = .join (some n) ∧ ∀ w ∈ s.workers, w.heeds ∧ w ≠ .waiting) ∨
    (s.ctl = .start n ∧ s.workers = []) ∨ (s.ctl = .spawn n ∧ s.workers.length ≤ n) ∨ (s.ctl = .idle ∧ s.workers.length = n)

theorem heeds_wakeAll {l : List WPc} (hw : ∀ w ∈ l, w.heeds) : ∀ x ∈ wakeAll l, x.heeds := by
  intro x hx
  obtain ⟨y, hy, rfl⟩ := List.mem_map.mp hx
  have := hw y hy
  by_cases hyw : y = .waiting
  · simp [hyw, WPc.heeds]
  · simp only [hyw, if_false]; exact this

theorem Resizing.step {o : Objective α F} {pts : List (List α)} {kd : PKind} {s t : PSt F} (h : PStep o pts kd s t) (X : XInv s)
    {n : Nat} (E : Resizing n s) (hkd : kd ≠ .request) : Resizing n t := by
  obtain ⟨phase⟩ := E
  constructor
  rcases phase with ⟨hc, hw⟩ | ⟨hc, hw⟩ | ⟨hc, hw⟩ | ⟨hc, hw⟩ | ⟨hc, hw⟩
  · have hst : s.stop = true := X.stopping (by rw [hc]; rfl) (by rw [hc]; simp)
    have hset : ∀ (w : Nat) (b : WPc), b.heeds → ∀ x ∈ s.workers.set w b, x.heeds := by
      intro w b hb x hx
      rcases List.mem_or_eq_of_mem_set hx with hx | rfl
      · exact hw x hx
      · exact hb
    have hwk := heeds_wakeAll hw
    have hfr : ∀ (w : Nat) (a : WPc), s.workers[w]? = some a → a.heeds := fun w a h => hw a (List.mem_of_getElem? h)
    cases h with
    | @test _ w h => exact .inl (⟨hc, hset w _ (by simp [hst, WPc.heeds])⟩)
    | @acquire _ w h hm => exact (hfr w _ h).elim
    | @wait _ w h hq => exact (hfr w _ h).elim
    | @spurious _ w h => exact .inl (⟨hc, hset w _ trivial⟩)
    | @reacquire _ w h hm => exact .inl (⟨hc, hset w _ trivial⟩)
    | @leave _ w h hs => exact .inl (⟨hc, hset w _ trivial⟩)
    | @goOn _ w h hs => rw [hst] at hs; simp at hs
    | @pop _ w u q h hq => exact (hfr w _ h).elim
    | @begin _ w u h => exact .inl (⟨hc, hset w _ trivial⟩)
    | @finish _ w u ps p out h hps hp ho => exact .inl (⟨hc, hset w _ trivial⟩)
    | call h => exact .inl (⟨hc, hw⟩)
    | clientLock h hm => exact .inl (⟨hc, hw⟩)
    | push h hps => exact .inl (⟨hc, hw⟩)
    | get h hps hk' hr => exact .inl (⟨hc, hw⟩)
    | done h hps hk' => exact .inl (⟨hc, hw⟩)
    | notify h => exact .inl (⟨hc, hwk⟩)
    | @ctlNotify _ op h =>
      rw [h] at hc
      simp only [KPc.notify.injEq] at hc
      subst hc
      exact .inr (.inl ⟨rfl, fun x hx => ⟨hwk x hx, wakeAll_not_waiting hx⟩⟩)
    | _ => simp_all
  · have hst : s.stop = true := X.stopping (by rw [hc]; rfl) (by rw [hc]; simp)
    have hset : ∀ (w : Nat) (b : WPc), (b.heeds ∧ b ≠ .waiting) → ∀ x ∈ s.workers.set w b, x.heeds ∧ x ≠ .waiting := by
      intro w b hb x hx
      rcases List.mem_or_eq_of_mem_set hx with hx | rfl
      · exact hw x hx
      · exact hb
    have hwk := heeds_wakeAll (fun w h => (hw w h).1)
    have hfr : ∀ (w : Nat) (a : WPc), s.workers[w]? = some a → a.heeds := fun w a h => (hw a (List.mem_of_getElem? h)).1
    cases h with
    | @test _ w h => exact .inr (.inl (⟨hc, hset w _ (by simp [hst, WPc.heeds])⟩))
    | @acquire _ w h hm => exact (hfr w _ h).elim
    | @wait _ w h hq => exact (hfr w _ h).elim
    | @spurious _ w h => exact .inr (.inl (⟨hc, hset w _ ⟨trivial, by simp⟩⟩))
    | @reacquire _ w h hm => exact .inr (.inl (⟨hc, hset w _ ⟨trivial, by simp⟩⟩))
    | @leave _ w h hs => exact .inr (.inl (⟨hc, hset w _ ⟨trivial, by simp⟩⟩))
    | @goOn _ w h hs => rw [hst] at hs; simp at hs
    | @pop _ w u q h hq => exact (hfr w _ h).elim
    | @begin _ w u h => exact .inr (.inl (⟨hc, hset w _ ⟨trivial, by simp⟩⟩))
    | @finish _ w u ps p out h hps hp ho => exact .inr (.inl (⟨hc, hset w _ ⟨trivial, by simp⟩⟩))
    | call h => exact .inr (.inl (⟨hc, hw⟩))
    | clientLock h hm => exact .inr (.inl (⟨hc, hw⟩))
    | push h hps => exact .inr (.inl (⟨hc, hw⟩))
    | get h hps hk' hr => exact .inr (.inl (⟨hc, hw⟩))
    | done h hps hk' => exact .inr (.inl (⟨hc, hw⟩))
    | notify h => exact .inr (.inl (⟨hc, fun x hx => ⟨hwk x hx, wakeAll_not_waiting hx⟩⟩))
    | @join _ op ws h hx => exact .inr (.inl ⟨hc, fun x hm => hw x (by rw [hx]; simp [hm])⟩)
    | @joined _ m h hx =>
      rw [h] at hc
      simp only [KPc.join.injEq, Option.some.injEq] at hc
      subst hc
      exact .inr (.inr (.inl ⟨rfl, hx⟩))
    | _ => simp_all
  · have hno : ∀ (w : Nat) (a : WPc), s.workers[w]? ≠ some a := by intro w a h; rw [hw] at h; simp at h
    cases h with
    | call h => exact .inr (.inr (.inl ⟨hc, hw⟩))
    | clientLock h hm => exact .inr (.inr (.inl ⟨hc, hw⟩))
    | push h hps => exact .inr (.inr (.inl ⟨hc, hw⟩))
    | get h hps hk' hr => exact .inr (.inr (.inl ⟨hc, hw⟩))
    | done h hps hk' => exact .inr (.inr (.inl ⟨hc, hw⟩))
    | notify h => exact .inr (.inr (.inl ⟨hc, wakeAll_eq_nil.mpr hw⟩))
    | @start _ m h =>
      rw [h] at hc
      simp only [KPc.start.injEq] at hc
      subst hc
      exact .inr (.inr (.inr (.inl ⟨rfl, by simp [hw]⟩)))
    | _ => simp_all
  · cases h with
    | @spawn _ m h hn =>
      have hc' := hc
      rw [h] at hc'
      simp only [KPc.spawn.injEq] at hc'
      subst hc'
      exact .inr (.inr (.inr (.inl ⟨hc, by simp; omega⟩)))
    | @started _ m h hn =>
      rw [h] at hc
      simp only [KPc.spawn.injEq] at hc
      subst hc
      exact .inr (.inr (.inr (.inr ⟨rfl, by show s.workers.length = _; omega⟩)))
    | @notify _ c h => exact .inr (.inr (.inr (.inl ⟨hc, by simpa [wakeAll_length] using hw⟩)))
    | resize h => simp_all
    | destroy h => simp_all
    | ctlLock h hm => simp_all
    | ctlStop h => simp_all
    | ctlNotify h => simp_all
    | join h _ => simp_all
    | destroyed h _ => simp_all
    | joined h _ => simp_all
    | start h => simp_all
    | _ => exact .inr (.inr (.inr (.inl ⟨hc, by simpa using hw⟩)))
  · cases h with
    | @notify _ c h => exact .inr (.inr (.inr (.inr ⟨hc, by simpa [wakeAll_length] using hw⟩)))
    | resize h => simp_all
    | destroy h => simp_all
    | ctlLock h hm => simp_all
    | ctlStop h => simp_all
    | ctlNotify h => simp_all
    | join h _ => simp_all
    | destroyed h _ => simp_all
    | joined h _ => simp_all
    | start h => simp_all
    | spawn h _ => simp_all
    | started h _ => simp_all
    | _ => exact .inr (.inr (.inr (.inr ⟨hc, by simpa using hw⟩)))

theorem Resizing.stuck {o : Objective α F} (ho : ∀ p, ∃ out, o p out) {pts : List (List α)} {s : PSt F} (I : PInv o pts s) (L : LInv s)
    {n : Nat} (E : Resizing n s) (h : Stuck o pts s) : s.ctl = .idle ∧ s.workers.length = n := by
  have H := fun t => h .control t (.inr rfl)
  rcases E.phase with ⟨hc, hw⟩ | ⟨hc, hw⟩ | ⟨hc, hw⟩ | ⟨hc, hw⟩ | ⟨hc, hw⟩
  · exact absurd (.ctlNotify hc) (H _)
  · exfalso
    have hl := h.unlocked ho I L (by rw [hc]; rfl)
    refine h.join hc fun w hm => ?_
    rcases h.worker ho I hm with rfl | rfl | ⟨h1, _⟩
    · rfl
    · exact absurd rfl (hw _ hm).2
    · rw [hl] at h1; simp at h1
  · exact absurd (.start hc) (H _)
  · by_cases hn : s.workers.length < n
    · exact absurd (.spawn hc hn) (H _)
    · exact absurd (.started hc hn) (H _)
  · exact ⟨hc, hw⟩

/-- `set_max_threads` waits for worker `k`, which waits to be notified, and nobody is going to notify it. -/
structure Hanging (n k : Nat) (s : PSt F) : Prop where
  ctl : s.ctl = .join (some n)
  clients : ∀ pc ∈ s.clients, pc.inactive
  waits : s.workers[k]? = some .waiting

theorem Hanging.step {o : Objective α F} {pts : List (List α)} {kd : PKind} {s t : PSt F} (h : PStep o pts kd s t)
    {n k : Nat} (E : Hanging n k s) (hkd : kd ≠ .call ∧ kd ≠ .spurious) : Hanging n k t := by
  obtain ⟨ctl, clients, waits⟩ := E
  have hcl : ∀ (c : Nat) (pc : CPc F), s.clients[c]? = some pc → pc.inactive := fun c pc h => clients pc (List.mem_of_getElem? h)
  have hset : ∀ (w : Nat) (a b : WPc), s.workers[w]? = some a → a ≠ .waiting → (s.workers.set w b)[k]? = some .waiting := by
    intro w a b hw ha
    have : w ≠ k := by rintro rfl; rw [waits] at hw; simp only [Option.some.injEq] at hw; exact ha hw.symm
    rw [List.getElem?_set_ne this]; exact waits
  cases h with
  | @test _ w h => exact ⟨ctl, clients, hset w _ _ h (by simp)⟩
  | @acquire _ w h hm => exact ⟨ctl, clients, hset w _ _ h (by simp)⟩
  | @wait _ w h hq => exact ⟨ctl, clients, hset w _ _ h (by simp)⟩
  | @spurious _ w h => simp at hkd
  | @reacquire _ w h hm => exact ⟨ctl, clients, hset w _ _ h (by simp)⟩
  | @leave _ w h hs => exact ⟨ctl, clients, hset w _ _ h (by simp)⟩
  | @goOn _ w h hs => exact ⟨ctl, clients, hset w _ _ h (by simp)⟩
  | @pop _ w u q h hq => exact ⟨ctl, clients, hset w _ _ h (by simp)⟩
  | @begin _ w u h => exact ⟨ctl, clients, hset w _ _ h (by simp)⟩
  | @finish _ w u ps p out h hps hp ho => exact ⟨ctl, clients, hset w _ _ h (by simp)⟩
  | call h => simp at hkd
  | clientLock h hm => exact (hcl _ _ h).elim
  | push h hps => exact (hcl _ _ h).elim
  | get h hps hk' hr => exact (hcl _ _ h).elim
  | done h hps hk' => exact (hcl _ _ h).elim
  | notify h => exact (hcl _ _ h).elim
  | @join _ op ws h hw =>
    refine ⟨ctl, clients, ?_⟩
    rw [hw] at waits
    show ws[k]? = _
    rcases Nat.lt_trichotomy k ws.length with h1 | h1 | h1
    · rwa [List.getElem?_append_left h1] at waits
    · subst h1; simp at waits
    · rw [List.getElem?_eq_none (by simp; omega)] at waits; simp at waits
  | @joined _ m h hw => rw [hw] at waits; simp at waits
  | ctlNotify h => rw [h] at ctl; simp at ctl
  | spawn h hn => rw [h] at ctl; simp at ctl
  | resize h => rw [h] at ctl; simp at ctl
  | destroy h => rw [h] at ctl; simp at ctl
  | ctlLock h hm => rw [h] at ctl; simp at ctl
  | ctlStop h => rw [h] at ctl; simp at ctl
  | destroyed h hw => rw [h] at ctl; simp at ctl
  | start h => rw [h] at ctl; simp at ctl
  | started h hn => rw [h] at ctl; simp at ctl

end Spot.Evaluators
