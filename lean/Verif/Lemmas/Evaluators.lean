import Verif.Spec.Evaluators
import Mathlib.Data.List.Nodup
import Mathlib.Tactic.Ring
import Mathlib.Tactic.Linarith

/-!
# Invariants of batch_evaluator and async_evaluator
-/

namespace Spot.Evaluators

variable {α F T : Type}

@[simp] theorem eventsOf_nil [DecidableEq T] (t : T) : eventsOf t ([] : List (Ev T F)) = [] := rfl

theorem eventsOf_append [DecidableEq T] (t : T) (a b : List (Ev T F)) : eventsOf t (a ++ b) = eventsOf t a ++ eventsOf t b := by
  simp [eventsOf]

theorem eventsOf_start [DecidableEq T] (t u : T) (l : List (Ev T F)) :
    eventsOf t (l ++ [.start u]) = eventsOf t l ++ (if u = t then [.start t] else []) := by
  by_cases h : u = t
  · subst h; simp [eventsOf, Ev.task]
  · simp [eventsOf, Ev.task, h]

theorem eventsOf_finish [DecidableEq T] (t u : T) (out : Outcome F) (l : List (Ev T F)) :
    eventsOf t (l ++ [.finish u out]) = eventsOf t l ++ (if u = t then [.finish t out] else []) := by
  by_cases h : u = t
  · subst h; simp [eventsOf, Ev.task]
  · simp [eventsOf, Ev.task, h]

/-- State of a task against what happened to it. -/
def Track [DecidableEq T] (o : Objective α F) (log : List (Ev T F)) (t : T) (p : Option α) : Fut F → Prop
  | .absent => eventsOf t log = []
  | .spawned => eventsOf t log = []
  | .running => eventsOf t log = [.start t]
  | .ready r => ∃ x, p = some x ∧ Evaluated o log t x r
  | .taken => True

theorem Track.start [DecidableEq T] {o : Objective α F} {log : List (Ev T F)} {t u : T} {p : Option α} {f : Fut F}
    (h : Track o log t p f) (hu : u ≠ t) : Track o (log ++ [.start u]) t p f := by
  cases f <;> simp_all [Track, Evaluated, eventsOf_start]

theorem Track.finish [DecidableEq T] {o : Objective α F} {log : List (Ev T F)} {t u : T} {p : Option α} {f : Fut F} {out}
    (h : Track o log t p f) (hu : u ≠ t) : Track o (log ++ [.finish u out]) t p f := by
  cases f <;> simp_all [Track, Evaluated, eventsOf_finish]

theorem Evaluated.start [DecidableEq T] {o : Objective α F} {log : List (Ev T F)} {t u : T} {p : α} {r}
    (h : Evaluated o log t p r) (hu : u ≠ t) : Evaluated o (log ++ [.start u]) t p r := by
  simpa [Evaluated, eventsOf_start, hu] using h

theorem Evaluated.finish [DecidableEq T] {o : Objective α F} {log : List (Ev T F)} {t u : T} {p : α} {r out}
    (h : Evaluated o log t p r) (hu : u ≠ t) : Evaluated o (log ++ [.finish u out]) t p r := by
  simpa [Evaluated, eventsOf_finish, hu] using h

theorem Track.toRunning [DecidableEq T] {o : Objective α F} {log : List (Ev T F)} {t : T} {p : Option α}
    (h : Track o log t p .spawned) : Track o (log ++ [.start t]) t p .running := by
  simp_all [Track, eventsOf_start]

theorem Track.toReady [DecidableEq T] {o : Objective α F} {log : List (Ev T F)} {t : T} {p : α} {out}
    (h : Track o log t (some p) .running) (ho : o p out) :
    Track o (log ++ [.finish t out]) t (some p) (.ready (evaluateNoexcept out)) := by
  refine ⟨p, rfl, out, ho, ?_, rfl⟩
  simp only [Track] at h
  simp [eventsOf_finish, h]

/-! ## batch_evaluator -/

def BPc.launched (n : Nat) : BPc → Nat
  | .launch i => i
  | _ => n

def BPc.fetched (n : Nat) : BPc → Nat
  | .launch _ => 0
  | .get k => k
  | .returned => n

structure BInv (o : Objective α F) (pts : List α) (s : BSt F) : Prop where
  le : s.pc.launched pts.length ≤ pts.length ∧ s.pc.fetched pts.length ≤ s.pc.launched pts.length
  len : s.results.length = s.pc.fetched pts.length
  track : ∀ i, Track o s.log i pts[i]? (s.fut i)
  absent : ∀ i, s.pc.launched pts.length ≤ i → s.fut i = .absent
  active : ∀ i, s.pc.fetched pts.length ≤ i → i < s.pc.launched pts.length → s.fut i ≠ .absent ∧ s.fut i ≠ .taken
  fetched : ∀ i, i < s.pc.fetched pts.length → s.fut i = .taken ∧
    ∃ p r, pts[i]? = some p ∧ s.results[i]? = some r ∧ Evaluated o s.log i p r
  only : ∀ e ∈ s.log, e.task < pts.length

theorem BInv.init (o : Objective α F) (pts : List α) : BInv o pts {} := by
  refine ⟨by simp [BPc.launched, BPc.fetched], rfl, ?_, ?_, ?_, ?_, ?_⟩ <;> simp [BPc.launched, BPc.fetched, Track]

theorem BInv.step {o : Objective α F} {pts : List α} {s t : BSt F} (h : BStep o pts s t) (I : BInv o pts s) : BInv o pts t := by
  cases h with
  | @launch i hpc hi =>
    obtain ⟨le, len, track, absent, active, fetched, only⟩ := I
    simp only [hpc, BPc.launched, BPc.fetched] at *
    refine ⟨by simp [BPc.launched, BPc.fetched]; omega, by simpa [BPc.fetched] using len, ?_, ?_, ?_, ?_, only⟩
    · intro j
      by_cases hj : j = i
      · subst hj; simp only [Function.update_self]; have := track j; rw [absent j le_rfl] at this; exact this
      · simp only [Function.update_of_ne hj]; exact track j
    · intro j hj
      simp only [BPc.launched] at hj
      simp only [Function.update_of_ne (show j ≠ i by omega)]; exact absent j (by omega)
    · intro j h0 hj
      simp only [BPc.launched] at hj
      by_cases hji : j = i
      · subst hji; simp
      · simp only [Function.update_of_ne hji]; exact active j (by omega) (by omega)
    · intro j hj; simp [BPc.fetched] at hj
  | @launched i hpc hi =>
    obtain ⟨le, len, track, absent, active, fetched, only⟩ := I
    simp only [hpc, BPc.launched, BPc.fetched] at *
    subst hi
    exact ⟨by simp [BPc.launched, BPc.fetched], by simpa [BPc.fetched] using len, track, by simpa [BPc.launched] using absent,
      by simpa [BPc.launched, BPc.fetched] using active, by simp [BPc.fetched], only⟩
  | @get k r hpc hr hk =>
    obtain ⟨le, len, track, absent, active, fetched, only⟩ := I
    simp only [hpc, BPc.launched, BPc.fetched] at *
    refine ⟨by simp [BPc.launched, BPc.fetched]; omega, by simpa [BPc.fetched] using len, ?_, ?_, ?_, ?_, only⟩
    · intro j
      by_cases hj : j = k
      · subst hj; simp [Track]
      · simp only [Function.update_of_ne hj]; exact track j
    · intro j hj
      simp only [BPc.launched] at hj
      simp only [Function.update_of_ne (show j ≠ k by omega)]; exact absent j (by omega)
    · intro j h0 hj
      simp only [BPc.launched, BPc.fetched] at hj h0
      simp only [Function.update_of_ne (show j ≠ k by omega)]; exact active j (by omega) (by omega)
    · intro j hj
      simp only [BPc.fetched] at hj
      by_cases hjk : j = k
      · subst hjk
        have := track j
        rw [hr] at this
        obtain ⟨p, hp, hE⟩ := this
        exact ⟨by simp, p, r, hp, by simp [← len], hE⟩
      · obtain ⟨h1, p, r', h2, h3, h4⟩ := fetched j (by omega)
        refine ⟨by simp [Function.update_of_ne hjk, h1], p, r', h2, ?_, h4⟩
        rw [List.getElem?_append_left (by omega)]; exact h3
  | @done k hpc hk =>
    obtain ⟨le, len, track, absent, active, fetched, only⟩ := I
    simp only [hpc, BPc.launched, BPc.fetched] at *
    subst hk
    exact ⟨by simp [BPc.launched, BPc.fetched], by simpa [BPc.fetched] using len, track, by simpa [BPc.launched] using absent,
      by simpa [BPc.launched, BPc.fetched] using active, by simpa [BPc.fetched] using fetched, only⟩
  | @start i hf =>
    obtain ⟨le, len, track, absent, active, fetched, only⟩ := I
    have hi : i < s.pc.launched pts.length := by
      by_contra hc; rw [absent i (by omega)] at hf; exact absurd hf (by simp)
    refine ⟨le, len, ?_, ?_, ?_, ?_, ?_⟩
    · intro j
      by_cases hj : j = i
      · subst hj; simp only [Function.update_self]; have := track j; rw [hf] at this; exact this.toRunning
      · simp only [Function.update_of_ne hj]; exact (track j).start (fun e => hj e.symm)
    · intro j hj; dsimp only at hj; simp only [Function.update_of_ne (show j ≠ i by omega)]; exact absent j hj
    · intro j h0 hj
      by_cases hji : j = i
      · subst hji; simp
      · simp only [Function.update_of_ne hji]; exact active j h0 hj
    · intro j hj
      obtain ⟨h1, p, r', h2, h3, h4⟩ := fetched j hj
      have hji : i ≠ j := by rintro rfl; rw [h1] at hf; exact absurd hf (by simp)
      exact ⟨by simp [Function.update_of_ne (Ne.symm hji), h1], p, r', h2, h3, h4.start hji⟩
    · intro e he
      simp only [List.mem_append, List.mem_singleton] at he
      rcases he with he | rfl
      · exact only e he
      · exact lt_of_lt_of_le hi le.1
  | @finish i p out hf hp ho =>
    obtain ⟨le, len, track, absent, active, fetched, only⟩ := I
    have hi : i < s.pc.launched pts.length := by
      by_contra hc; rw [absent i (by omega)] at hf; exact absurd hf (by simp)
    refine ⟨le, len, ?_, ?_, ?_, ?_, ?_⟩
    · intro j
      by_cases hj : j = i
      · subst hj; simp only [Function.update_self]; have := track j; rw [hf, hp] at this; rw [hp]; exact this.toReady ho
      · simp only [Function.update_of_ne hj]; exact (track j).finish (fun e => hj e.symm)
    · intro j hj; dsimp only at hj; simp only [Function.update_of_ne (show j ≠ i by omega)]; exact absent j hj
    · intro j h0 hj
      by_cases hji : j = i
      · subst hji; simp
      · simp only [Function.update_of_ne hji]; exact active j h0 hj
    · intro j hj
      obtain ⟨h1, q, r', h2, h3, h4⟩ := fetched j hj
      have hji : i ≠ j := by rintro rfl; rw [h1] at hf; exact absurd hf (by simp)
      exact ⟨by simp [Function.update_of_ne (Ne.symm hji), h1], q, r', h2, h3, h4.finish hji⟩
    · intro e he
      simp only [List.mem_append, List.mem_singleton] at he
      rcases he with he | rfl
      · exact only e he
      · exact lt_of_lt_of_le hi le.1

theorem BInv.reach {o : Objective α F} {pts : List α} {s : BSt F} (h : Relation.ReflTransGen (BStep o pts) {} s) : BInv o pts s := by
  induction h with
  | refl => exact BInv.init o pts
  | tail _ st ih => exact ih.step st

end Spot.Evaluators
