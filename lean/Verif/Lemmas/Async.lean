import Verif.Lemmas.Evaluators

/-!
# Invariants of async_evaluator
-/

namespace Spot.Evaluators

variable {α F T : Type}

def APc.launched (n : Nat) : APc → Nat
  | .top i => i
  | .poll i _ => i
  | _ => n

/-- Number of elements of `threads` whose results have been fetched although they are still in the list. -/
def ASt.pos (s : ASt F) : Nat :=
  match s.pc with
  | .drain k => k
  | .returned => s.threads.length
  | _ => 0

/-- Indices in `threads` whose results have not been fetched. -/
def ASt.live (s : ASt F) : List Nat := s.threads.drop s.pos

structure AInv (o : Objective α F) (pts : List α) (tc : Nat) (s : ASt F) : Prop where
  le : s.pc.launched pts.length ≤ pts.length
  poll : ∀ i k, s.pc = .poll i k → i < pts.length ∧ k ≤ s.threads.length
  size : s.threads.length ≤ tc
  len : s.results.length = pts.length
  nodup : s.threads.Nodup
  mem : ∀ i ∈ s.threads, i < s.pc.launched pts.length
  track : ∀ i, Track o s.log i pts[i]? (s.fut i)
  absent : ∀ i, s.pc.launched pts.length ≤ i → s.fut i = .absent
  live : ∀ i ∈ s.live, s.fut i ≠ .absent ∧ s.fut i ≠ .taken
  dead : ∀ i, i < s.pc.launched pts.length → i ∉ s.live → s.fut i = .taken ∧
    ∃ p r, pts[i]? = some p ∧ s.results[i]? = some (some r) ∧ Evaluated o s.log i p r
  only : ∀ e ∈ s.log, e.task < pts.length

theorem AInv.init (o : Objective α F) (pts : List α) (tc : Nat) : AInv o pts tc (ASt.init F pts.length) := by
  refine ⟨?_, ?_, ?_, ?_, ?_, ?_, ?_, ?_, ?_, ?_, ?_⟩ <;> simp [ASt.init, APc.launched, ASt.live, Track]

theorem live_sub {s : ASt F} {i : Nat} (h : i ∈ s.live) : i ∈ s.threads := List.mem_of_mem_drop h

theorem mem_eraseIdx_of_nodup {l : List Nat} {k a j : Nat} (hn : l.Nodup) (hk : l[k]? = some a) :
    j ∈ l.eraseIdx k ↔ j ∈ l ∧ j ≠ a := by
  have hk' : k < l.length := by
    by_contra hc; rw [List.getElem?_eq_none (by omega)] at hk; simp at hk
  have ha : l[k] = a := by rw [List.getElem?_eq_getElem hk'] at hk; simpa using hk
  have he : l = l.take k ++ a :: l.drop (k + 1) := by
    rw [← ha]; simp
  have hl : l.eraseIdx k = l.take k ++ l.drop (k + 1) := List.eraseIdx_eq_take_drop_succ l k
  rw [hl]
  rw [he] at hn
  have hn' := List.nodup_middle.mp hn
  rw [List.nodup_cons] at hn'
  constructor
  · intro hj
    refine ⟨?_, ?_⟩
    · rw [he]; simp only [List.mem_append, List.mem_cons] at hj ⊢; tauto
    · rintro rfl; exact hn'.1 hj
  · rintro ⟨hj, hne⟩
    rw [he] at hj; simp only [List.mem_append, List.mem_cons] at hj ⊢; tauto

theorem mem_drop_succ_of_nodup {l : List Nat} {k a j : Nat} (hn : l.Nodup) (hk : l[k]? = some a) :
    j ∈ l.drop (k + 1) ↔ j ∈ l.drop k ∧ j ≠ a := by
  have hk' : k < l.length := by
    by_contra hc; rw [List.getElem?_eq_none (by omega)] at hk; simp at hk
  have ha : l[k] = a := by rw [List.getElem?_eq_getElem hk'] at hk; simpa using hk
  have hd : l.drop k = a :: l.drop (k + 1) := by rw [← ha]; exact (List.drop_eq_getElem_cons hk')
  have hnd : (l.drop k).Nodup := hn.sublist (List.drop_sublist k l)
  rw [hd, List.nodup_cons] at hnd
  rw [hd]
  constructor
  · intro hj; exact ⟨List.mem_cons_of_mem _ hj, by rintro rfl; exact hnd.1 hj⟩
  · rintro ⟨hj, hne⟩; rcases List.mem_cons.mp hj with rfl | h
    · exact absurd rfl hne
    · exact h

/-- The part of the invariant that concerns the futures, for a thread of a task taking a step. -/
theorem AInv.worker {o : Objective α F} {pts : List α} {tc : Nat} {s : ASt F} (I : AInv o pts tc s) {i : Nat} {f : Fut F} {e : Ev Nat F}
    (he : e.task = i) (hu : (s.fut i).Unfinished) (hf : f ≠ .absent ∧ f ≠ .taken)
    (ht : Track o (s.log ++ [e]) i pts[i]? f) :
    AInv o pts tc { s with fut := Function.update s.fut i f, log := s.log ++ [e] } := by
  obtain ⟨le, poll, size, len, nodup, mem, track, absent, live, dead, only⟩ := I
  have hi : i < s.pc.launched pts.length := by
    by_contra hc; rw [absent i (by omega)] at hu; exact hu
  have hother : ∀ j, j ≠ i → Track o (s.log ++ [e]) j pts[j]? (s.fut j) := by
    intro j hj
    cases e with
    | start t => exact (track j).start (by simp only [Ev.task] at he; omega)
    | finish t out => exact (track j).finish (by simp only [Ev.task] at he; omega)
  have hev : ∀ j p r, j ≠ i → Evaluated o s.log j p r → Evaluated o (s.log ++ [e]) j p r := by
    intro j p r hj hE
    cases e with
    | start t => exact hE.start (by simp only [Ev.task] at he; omega)
    | finish t out => exact hE.finish (by simp only [Ev.task] at he; omega)
  refine ⟨le, poll, size, len, nodup, mem, ?_, ?_, ?_, ?_, ?_⟩
  · intro j
    by_cases hj : j = i
    · subst hj; simpa only [Function.update_self] using ht
    · simp only [Function.update_of_ne hj]; exact hother j hj
  · intro j hj
    dsimp only at hj
    simp only [Function.update_of_ne (show j ≠ i by omega)]; exact absent j hj
  · intro j hj
    by_cases hji : j = i
    · subst hji; simpa only [Function.update_self] using hf
    · simp only [Function.update_of_ne hji]; exact live j hj
  · intro j hj hl
    obtain ⟨h1, p, r, h2, h3, h4⟩ := dead j hj hl
    have hji : j ≠ i := by rintro rfl; rw [h1] at hu; exact hu
    exact ⟨by simp only [Function.update_of_ne hji]; exact h1, p, r, h2, h3, hev j p r hji h4⟩
  · intro x hx
    simp only [List.mem_append, List.mem_singleton] at hx
    rcases hx with hx | rfl
    · exact only x hx
    · rw [he]; exact lt_of_lt_of_le hi le

theorem AInv.step {o : Objective α F} {pts : List α} {tc : Nat} {kd : AKind} {s t : ASt F} (h : AStep o pts tc kd s t)
    (I : AInv o pts tc s) : AInv o pts tc t := by
  cases h with
  | @start _ i hf =>
    refine I.worker rfl (by rw [hf]; trivial) (by simp) ?_
    have := I.track i; rw [hf] at this; exact this.toRunning
  | @finish _ i p out hf hp ho =>
    refine I.worker rfl (by rw [hf]; trivial) (by simp) ?_
    have := I.track i; rw [hf, hp] at this; rw [hp]; exact this.toReady ho
  | @enter _ i hpc hi hc =>
    obtain ⟨le, poll, size, len, nodup, mem, track, absent, live, dead, only⟩ := I
    simp only [hpc, APc.launched, ASt.live, ASt.pos] at *
    refine ⟨?_, ?_, size, len, nodup, ?_, track, ?_, ?_, ?_, only⟩
    · simpa [APc.launched] using le
    · intro i' k' e; simp only [APc.poll.injEq] at e; omega
    · simpa [APc.launched] using mem
    · simpa [APc.launched] using absent
    · simpa [ASt.live, ASt.pos] using live
    · simpa [ASt.live, ASt.pos, APc.launched] using dead
  | @again _ i k hpc hk =>
    obtain ⟨le, poll, size, len, nodup, mem, track, absent, live, dead, only⟩ := I
    simp only [hpc, APc.launched, ASt.live, ASt.pos] at *
    refine ⟨?_, ?_, size, len, nodup, ?_, track, ?_, ?_, ?_, only⟩
    · simpa [APc.launched] using le
    · intro i' k' e; simp at e
    · simpa [APc.launched] using mem
    · simpa [APc.launched] using absent
    · simpa [ASt.live, ASt.pos] using live
    · simpa [ASt.live, ASt.pos, APc.launched] using dead
  | @skip _ i k idx hpc hk hr =>
    obtain ⟨le, poll, size, len, nodup, mem, track, absent, live, dead, only⟩ := I
    have hk' : k < s.threads.length := by
      by_contra hc; rw [List.getElem?_eq_none (by omega)] at hk; simp at hk
    simp only [hpc, APc.launched, ASt.live, ASt.pos] at *
    refine ⟨?_, ?_, size, len, nodup, ?_, track, ?_, ?_, ?_, only⟩
    · simpa [APc.launched] using le
    · intro i' k' e
      simp only [APc.poll.injEq] at e
      have := (poll i k rfl).1
      show i' < pts.length ∧ k' ≤ s.threads.length
      omega
    · simpa [APc.launched] using mem
    · simpa [APc.launched] using absent
    · simpa [ASt.live, ASt.pos] using live
    · simpa [ASt.live, ASt.pos, APc.launched] using dead
  | @launched _ i hpc hi =>
    obtain ⟨le, poll, size, len, nodup, mem, track, absent, live, dead, only⟩ := I
    subst hi
    simp only [hpc, APc.launched, ASt.live, ASt.pos] at *
    refine ⟨?_, ?_, size, len, nodup, ?_, track, ?_, ?_, ?_, only⟩
    · simp [APc.launched]
    · intro i' k' e; simp at e
    · simpa [APc.launched] using mem
    · simpa [APc.launched] using absent
    · simpa [ASt.live, ASt.pos] using live
    · simpa [ASt.live, ASt.pos, APc.launched] using dead
  | @done _ k hpc hk =>
    obtain ⟨le, poll, size, len, nodup, mem, track, absent, live, dead, only⟩ := I
    subst hk
    simp only [hpc, APc.launched, ASt.live, ASt.pos] at *
    refine ⟨?_, ?_, size, len, nodup, ?_, track, ?_, ?_, ?_, only⟩
    · simp [APc.launched]
    · intro i' k' e; simp at e
    · simpa [APc.launched] using mem
    · simpa [APc.launched] using absent
    · simp [ASt.live, ASt.pos]
    · simpa [ASt.live, ASt.pos, APc.launched] using dead
  | @launch _ i hpc hi hc =>
    obtain ⟨le, poll, size, len, nodup, mem, track, absent, live, dead, only⟩ := I
    simp only [hpc, APc.launched, ASt.live, ASt.pos, List.drop_zero] at *
    refine ⟨?_, ?_, ?_, len, ?_, ?_, ?_, ?_, ?_, ?_, only⟩
    · simp only [APc.launched]; omega
    · intro i' k' e; simp at e
    · simp only [List.length_append, List.length_singleton]; omega
    · refine List.Nodup.append nodup (by simp) ?_
      intro x hx hx'
      simp only [List.mem_singleton] at hx'
      have := mem x hx
      omega
    · intro j hj
      simp only [List.mem_append, List.mem_singleton, APc.launched] at hj ⊢
      rcases hj with hj | rfl
      · have := mem j hj; omega
      · omega
    · intro j
      by_cases hj : j = i
      · subst hj
        simp only [Function.update_self]
        have := track j; rw [absent j le_rfl] at this; exact this
      · simp only [Function.update_of_ne hj]; exact track j
    · intro j hj
      simp only [APc.launched] at hj
      simp only [Function.update_of_ne (show j ≠ i by omega)]; exact absent j (by omega)
    · intro j hj
      simp only [ASt.live, ASt.pos, List.drop_zero, List.mem_append, List.mem_singleton] at hj
      by_cases hji : j = i
      · subst hji; simp
      · simp only [Function.update_of_ne hji]; exact live j (by tauto)
    · intro j hj hl
      simp only [ASt.live, ASt.pos, List.drop_zero, List.mem_append, List.mem_singleton, not_or, APc.launched] at hj hl
      simp only [Function.update_of_ne hl.2]
      exact dead j (by omega) hl.1
  | @collect _ i k idx r hpc hk hr =>
    obtain ⟨le, poll, size, len, nodup, mem, track, absent, live, dead, only⟩ := I
    have hk' : k < s.threads.length := by
      by_contra hc; rw [List.getElem?_eq_none (by omega)] at hk; simp at hk
    have hmem : idx ∈ s.threads := List.mem_of_getElem? hk
    simp only [hpc, APc.launched, ASt.live, ASt.pos, List.drop_zero] at *
    have hE : ∀ j, j ∈ s.threads.eraseIdx k ↔ j ∈ s.threads ∧ j ≠ idx := fun j => mem_eraseIdx_of_nodup nodup hk
    refine ⟨le, ?_, ?_, by simpa using len, ?_, ?_, ?_, ?_, ?_, ?_, only⟩
    · intro i' k' e
      simp only [APc.poll.injEq] at e
      refine ⟨by have := (poll i k rfl).1; omega, ?_⟩
      simp only [List.length_eraseIdx_of_lt hk']
      omega
    · simp only [List.length_eraseIdx_of_lt hk']; omega
    · exact nodup.sublist (List.eraseIdx_sublist _ _)
    · intro j hj; exact mem j ((hE j).mp hj).1
    · intro j
      by_cases hj : j = idx
      · subst hj; simp [Track]
      · simp only [Function.update_of_ne hj]; exact track j
    · intro j hj
      simp only [APc.launched] at hj
      have := mem idx hmem
      simp only [Function.update_of_ne (show j ≠ idx by omega)]; exact absent j (by omega)
    · intro j hj
      simp only [ASt.live, ASt.pos, hpc, List.drop_zero] at hj
      rw [hE j] at hj
      simp only [Function.update_of_ne hj.2]; exact live j hj.1
    · intro j hj hl
      simp only [ASt.live, ASt.pos, hpc, List.drop_zero] at hl
      rw [hE j] at hl
      by_cases hji : j = idx
      · subst hji
        have := track j
        rw [hr] at this
        obtain ⟨p, hp, hE'⟩ := this
        refine ⟨by simp, p, r, hp, ?_, hE'⟩
        have := mem j hmem
        simp only [List.getElem?_set_self (show j < s.results.length by omega)]
      · obtain ⟨h1, p, r', h2, h3, h4⟩ := dead j hj (by tauto)
        refine ⟨by simp only [Function.update_of_ne hji]; exact h1, p, r', h2, ?_, h4⟩
        simp only [List.getElem?_set_ne (Ne.symm hji)]; exact h3
  | @get _ k idx r hpc hk hr =>
    obtain ⟨le, poll, size, len, nodup, mem, track, absent, live, dead, only⟩ := I
    have hk' : k < s.threads.length := by
      by_contra hc; rw [List.getElem?_eq_none (by omega)] at hk; simp at hk
    have hmem : idx ∈ s.threads := List.mem_of_getElem? hk
    simp only [hpc, APc.launched, ASt.live, ASt.pos] at *
    have hE : ∀ j, j ∈ s.threads.drop (k + 1) ↔ j ∈ s.threads.drop k ∧ j ≠ idx := fun j => mem_drop_succ_of_nodup nodup hk
    refine ⟨le, ?_, size, by simpa using len, nodup, mem, ?_, ?_, ?_, ?_, only⟩
    · intro i' k' e; simp at e
    · intro j
      by_cases hj : j = idx
      · subst hj; simp [Track]
      · simp only [Function.update_of_ne hj]; exact track j
    · intro j hj
      simp only [APc.launched] at hj
      have := mem idx hmem
      simp only [Function.update_of_ne (show j ≠ idx by omega)]; exact absent j (by omega)
    · intro j hj
      simp only [ASt.live, ASt.pos] at hj
      rw [hE j] at hj
      simp only [Function.update_of_ne hj.2]; exact live j hj.1
    · intro j hj hl
      simp only [ASt.live, ASt.pos] at hl
      rw [hE j] at hl
      by_cases hji : j = idx
      · subst hji
        have := track j
        rw [hr] at this
        obtain ⟨p, hp, hE'⟩ := this
        refine ⟨by simp, p, r, hp, ?_, hE'⟩
        have := mem j hmem
        simp only [List.getElem?_set_self (show j < s.results.length by omega)]
      · obtain ⟨h1, p, r', h2, h3, h4⟩ := dead j hj (by tauto)
        refine ⟨by simp only [Function.update_of_ne hji]; exact h1, p, r', h2, ?_, h4⟩
        simp only [List.getElem?_set_ne (Ne.symm hji)]; exact h3

theorem AInv.reach {o : Objective α F} {pts : List α} {tc : Nat} {ks : List AKind} {s₀ s : ASt F}
    (h : Exec (AStep o pts tc) ks s₀ s) (h0 : s₀ = ASt.init F pts.length) : AInv o pts tc s := by
  induction h with
  | nil => exact h0 ▸ AInv.init o pts tc
  | snoc _ st ih => exact (ih h0).step st

/-! ## Progress and termination -/

/-- Steps of kind `work` a task still needs. -/
def Fut.left : Fut F → Nat
  | .absent => 4
  | .spawned => 3
  | .running => 2
  | .ready _ => 1
  | .taken => 0

def APc.left : APc → Nat
  | .top _ => 2
  | .poll _ _ => 2
  | .drain _ => 1
  | .returned => 0

def ASt.left (n : Nat) (s : ASt F) : Nat := s.pc.left + ((List.range n).map (fun i => (s.fut i).left)).sum

theorem sum_map_update (f : Nat → Fut F) (g : Fut F → Nat) (i n : Nat) (hi : i < n) (x : Fut F) :
    ((List.range n).map (fun j => g (Function.update f i x j))).sum + g (f i) = ((List.range n).map (fun j => g (f j))).sum + g x := by
  induction n with
  | zero => omega
  | succ n ih =>
    rw [List.range_succ, List.map_append, List.map_append, List.sum_append, List.sum_append]
    by_cases h : i = n
    · subst h
      have : (List.range i).map (fun j => g (Function.update f i x j)) = (List.range i).map (fun j => g (f j)) := by
        apply List.map_congr_left
        intro j hj
        rw [Function.update_of_ne]
        have := List.mem_range.mp hj
        omega
      rw [this]
      simp
      omega
    · have := ih (by omega)
      simp only [List.map_cons, List.map_nil, List.sum_cons, List.sum_nil]
      rw [Function.update_of_ne (by omega)]
      omega

theorem left_step {o : Objective α F} {pts : List α} {tc : Nat} {kd : AKind} {s t : ASt F} (h : AStep o pts tc kd s t)
    (I : AInv o pts tc s) :
    t.left pts.length + (if kd = .work then 1 else 0) ≤ s.left pts.length := by
  have hl : ∀ i, s.fut i ≠ .absent → i < pts.length := by
    intro i hi
    by_contra hc
    exact hi (I.absent i (le_trans I.le (by omega)))
  cases h with
  | @start _ i hf =>
    have := sum_map_update s.fut Fut.left i pts.length (hl i (by simp [hf])) .running
    simp only [ASt.left, hf, Fut.left, if_true] at *
    omega
  | @finish _ i p out hf hp ho =>
    have := sum_map_update s.fut Fut.left i pts.length (hl i (by simp [hf])) (.ready (evaluateNoexcept out))
    simp only [ASt.left, hf, Fut.left, if_true] at *
    omega
  | @enter _ i hpc hi hc => simp [ASt.left, hpc, APc.left]
  | @again _ i k hpc hk => simp [ASt.left, hpc, APc.left]
  | @skip _ i k idx hpc hk hr => simp [ASt.left, hpc, APc.left]
  | @launched _ i hpc hi => simp [ASt.left, hpc, APc.left]; omega
  | @done _ k hpc hk => simp [ASt.left, hpc, APc.left]; omega
  | @launch _ i hpc hi hc =>
    have h0 := I.absent i (by simp [hpc, APc.launched])
    have := sum_map_update s.fut Fut.left i pts.length hi .spawned
    simp only [ASt.left, hpc, APc.left, h0, Fut.left, if_true] at *
    omega
  | @collect _ i k idx r hpc hk hr =>
    have := sum_map_update s.fut Fut.left idx pts.length (hl idx (by simp [hr])) .taken
    simp only [ASt.left, hr, Fut.left, if_true] at *
    omega
  | @get _ k idx r hpc hk hr =>
    have := sum_map_update s.fut Fut.left idx pts.length (hl idx (by simp [hr])) .taken
    simp only [ASt.left, hpc, APc.left, hr, Fut.left, if_true] at *
    omega

theorem left_init (F : Type) (n : Nat) : (ASt.init F n).left n = 4 * n + 2 := by
  have : ((List.range n).map (fun i => ((ASt.init F n).fut i).left)) = List.replicate n 4 := by
    rw [List.eq_replicate_iff]; simp [ASt.init, Fut.left]
  rw [ASt.left, this]; simp [ASt.init, APc.left]; ring

theorem work_le {o : Objective α F} {pts : List α} {tc : Nat} {ks : List AKind} {s₀ s : ASt F}
    (h : Exec (AStep o pts tc) ks s₀ s) (h0 : s₀ = ASt.init F pts.length) :
    ks.count .work + s.left pts.length ≤ 4 * pts.length + 2 := by
  induction h with
  | nil => subst h0; simp [left_init]
  | @snoc ls s t u l ex st ih =>
    have := ih h0
    have := left_step st (AInv.reach ex h0)
    rw [List.count_append]
    cases l <;> simp_all <;> omega

/-- How many `again` steps a state may be preceded by, given `w` other steps. -/
def againOk (tc : Nat) (s : ASt F) (a w : Nat) : Prop :=
  match s.pc with
  | .poll _ k => a ≤ 2 * w + 1 ∧ (k > 0 ∨ s.threads.length < tc → a + 1 ≤ 2 * w)
  | _ => a ≤ 2 * w

theorem again_le {o : Objective α F} {pts : List α} {tc : Nat} (htc : 0 < tc) {ks : List AKind} {s₀ s : ASt F}
    (h : Exec (AStep o pts tc) ks s₀ s) (h0 : s₀ = ASt.init F pts.length) :
    againOk tc s (ks.count .again) (ks.count .work + ks.count .busy) := by
  induction h with
  | nil => subst h0; simp [againOk, ASt.init]
  | @snoc ls s t u l ex st ih =>
    have ih := ih h0
    have I := AInv.reach ex h0
    simp only [List.count_append]
    cases st with
    | @start _ i hf =>
      simp only [againOk] at *
      cases hp : t.pc <;> simp only [hp] at * <;> simp <;> omega
    | @finish _ i p out hf hp ho =>
      simp only [againOk] at *
      cases hp : t.pc <;> simp only [hp] at * <;> simp <;> omega
    | @enter _ i hpc hi hc => simp only [againOk, hpc] at *; simp; omega
    | @again _ i k hpc hk =>
      simp only [againOk, hpc] at *
      have := ih.2 (by omega)
      simp; omega
    | @skip _ i k idx hpc hk hr => simp only [againOk, hpc] at *; simp; omega
    | @launched _ i hpc hi => simp only [againOk, hpc] at *; simp; omega
    | @done _ k hpc hk => simp only [againOk, hpc] at *; simp; omega
    | @launch _ i hpc hi hc => simp only [againOk, hpc] at *; simp; omega
    | @collect _ i k idx r hpc hk hr => simp only [againOk, hpc] at *; simp; omega
    | @get _ k idx r hpc hk hr => simp only [againOk, hpc] at *; simp; omega

theorem unfinished_of_live {o : Objective α F} {pts : List α} {tc : Nat} {s : ASt F} (I : AInv o pts tc s) {i : Nat} (h : i ∈ s.live)
    (hr : ∀ r, s.fut i ≠ .ready r) : (s.fut i).Unfinished := by
  have := I.live i h
  cases hf : s.fut i <;> simp_all [Fut.Unfinished]

theorem drain_le {o : Objective α F} {pts : List α} {tc : Nat} {ks : List AKind} {s₀ s : ASt F}
    (h : Exec (AStep o pts tc) ks s₀ s) (h0 : s₀ = ASt.init F pts.length) : ∀ k, s.pc = .drain k → k ≤ s.threads.length := by
  induction h with
  | nil => subst h0; simp [ASt.init]
  | @snoc ls s t u l ex st ih =>
    have ih := ih h0
    cases st with
    | @get _ k idx r hpc hk hr =>
      have hk' : k < t.threads.length := by
        by_contra hc; rw [List.getElem?_eq_none (by omega)] at hk; simp at hk
      intro k' e
      simp only [APc.drain.injEq] at e
      show k' ≤ t.threads.length
      omega
    | start hf => exact ih
    | finish hf hp ho => exact ih
    | collect hpc hk hr => intro k' e; simp [hpc] at e
    | launched hpc hi => intro k' e; simp at e; omega
    | _ => intro k' e; simp at e

theorem async_progress {o : Objective α F} (ho : ∀ p, ∃ out, o p out) {pts : List α} {tc : Nat} (htc : 0 < tc) {s : ASt F}
    (I : AInv o pts tc s) (hd : ∀ k, s.pc = .drain k → k ≤ s.threads.length)
    (hn : s.pc ≠ .returned) : ∃ kd t, kd ≠ .busy ∧ AStep o pts tc kd s t := by
  by_cases hu : ∃ i, (s.fut i).Unfinished
  · obtain ⟨i, hu⟩ := hu
    cases hf : s.fut i with
    | spawned => exact ⟨_, _, by simp, .start hf⟩
    | running =>
      have hi : i < pts.length := by
        by_contra hc
        have := I.absent i (le_trans I.le (by omega))
        rw [hf] at this; simp at this
      obtain ⟨out, hout⟩ := ho pts[i]
      exact ⟨_, _, by simp, .finish hf (List.getElem?_eq_getElem hi) hout⟩
    | absent => rw [hf] at hu; exact hu.elim
    | ready r => rw [hf] at hu; exact hu.elim
    | taken => rw [hf] at hu; exact hu.elim
  · have hready : ∀ i ∈ s.live, ∃ r, s.fut i = .ready r := by
      intro i hi
      by_contra hc
      push Not at hc
      exact hu ⟨i, unfinished_of_live I hi hc⟩
    cases hpc : s.pc with
    | top i =>
      have hle := I.le
      simp only [hpc, APc.launched] at hle
      rcases Nat.lt_or_eq_of_le hle with hi | hi
      · by_cases hc : s.threads.length < tc
        · exact ⟨_, _, by simp, .launch hpc hi hc⟩
        · exact ⟨_, _, by simp, .enter hpc hi (by omega)⟩
      · exact ⟨_, _, by simp, .launched hpc hi⟩
    | poll i k =>
      have hk := (I.poll i k hpc).2
      rcases Nat.lt_or_eq_of_le hk with hk | hk
      · obtain ⟨r, hr⟩ := hready s.threads[k] (by simp [ASt.live, ASt.pos, hpc])
        exact ⟨_, _, by simp, .collect hpc (List.getElem?_eq_getElem hk) hr⟩
      · exact ⟨_, _, by simp, .again hpc hk⟩
    | drain k =>
      by_cases hk : k < s.threads.length
      · obtain ⟨r, hr⟩ := hready s.threads[k] (by
          simp only [ASt.live, ASt.pos, hpc]
          rw [List.drop_eq_getElem_cons hk]; exact List.mem_cons_self)
        exact ⟨_, _, by simp, .get hpc (List.getElem?_eq_getElem hk) hr⟩
      · exact ⟨_, _, by simp, .done hpc (by have := hd k hpc; omega)⟩
    | returned => exact absurd hpc hn

end Spot.Evaluators
