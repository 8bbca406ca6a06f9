import Verif.Model.PoolEvaluator
import Verif.Props.SharedRun
import Verif.Props.PoolSession
import Verif.Props.PoolRun

/-!
# C120: a pool whose members share an evaluator
-/

namespace Spot

open Spot.Evaluators

variable [Libm] {E : OptEnv} {f : Pt → Outcome Dbl} {M : Nat} {ins : Nat → In}

/-- What is evaluated, with the results it has: values of the objective, none where it fails. -/
def asked (f : Pt → Outcome Dbl) (ins : Nat → In) (i : Nat) : In := { ins i with res := (ins i).pop.map (seen f) }

/-- A state of the evaluator that can be reached: `x` with some history `ks`. -/
def Users.Reached (f : Pt → Outcome Dbl) (threads N : Nat) (ks : List ShKind) (x : Users) : Prop :=
  Exec (ShStep (deterministic f) fun _ => anyClient) ks (Users.init threads N) x

/-- The threads of the members that are inside `evaluate` belong to members whose step has not ended, and they have asked for what is said. -/
def Inside (M : Nat) (ins : Nat → In) (z : RunSt × Users) : Prop :=
  ∀ j < M, z.2.inside[j]? = some none ∨ ∃ c, z.2.inside[j]? = some (some c) ∧ j ∈ z.1.running ∧ z.2.calls[c]? = some (ins j).pop

theorem Users.inv {threads N : Nat} {ks} {x : Users} (h : Users.Reached f threads N ks x) :
    ∃ hs, ShInv (deterministic f) (fun _ => anyClient) threads (List.replicate N ()) x hs := ShInv.reach h

theorem Users.inside_length {threads N : Nat} {ks} {x : Users} (h : Users.Reached f threads N ks x) : x.inside.length = N := by
  obtain ⟨hs, I⟩ := Users.inv h; rw [I.ilen, List.length_replicate]

theorem Users.state {threads N : Nat} {ks} {x : Users} (h : Users.Reached f threads N ks x) {j : Nat} (hj : j < N) : x.states[j]? = some () := by
  obtain ⟨hs, I⟩ := Users.inv h
  rw [List.getElem?_eq_getElem (by rw [I.slen, List.length_replicate]; exact hj)]

theorem Users.call_step {threads N : Nat} {ks} {x : Users} (h : Users.Reached f threads N ks x) {j : Nat} (hj : j < N) (hi : x.inside[j]? = some none) (ps : List Pt) :
    Users.Reached f threads N (ks ++ [.enter]) (x.call j ps) :=
  h.snoc (.enter (Users.state h hj) hi trivial)

omit [Libm] in
theorem set_get_self {α : Type} {l : List α} {i : Nat} {a : α} (h : l[i]? = some a) : l.set i a = l := by
  apply List.ext_getElem?
  intro j
  rw [List.getElem?_set]
  split
  · rename_i hij; subst hij; rw [h, if_pos (lt_of_get h)]
  · rfl

theorem Users.back_step {threads N : Nat} {ks} {x : Users} (h : Users.Reached f threads N ks x) {j c : Nat} (hj : j < N) (hi : x.inside[j]? = some (some c)) {ps : List Pt}
    {rs : List (Result Dbl)} (hp : x.calls[c]? = some ps) (hr : x.pool.clients[c]? = some (.returned rs)) : Users.Reached f threads N (ks ++ [.leave]) (x.back j) := by
  have st := ShStep.leave (o := deterministic f) (C := fun _ => anyClient) (t := ()) (Users.state h hj) hi hp hr trivial
  rw [set_get_self (Users.state h hj)] at st
  exact h.snoc st

/-- What a call has returned. -/
theorem Users.results {threads N : Nat} {ks} {x : Users} (h : Users.Reached f threads N ks x) {c : Nat} {ps : List Pt} {rs : List (Result Dbl)} (hp : x.calls[c]? = some ps)
    (hr : x.pool.clients[c]? = some (.returned rs)) : rs.map valueOf = ps.map (seen f) := by
  obtain ⟨hs, I⟩ := Users.inv h
  obtain ⟨ks, hx⟩ := I.exec
  obtain ⟨hl, hev⟩ := C35_own_results hx hr hp
  obtain ⟨evs, hseq⟩ := sequential_of hl (fun i p hpi => by
    obtain ⟨r, h1, out, h2, _, h4⟩ := hev i p hpi
    exact ⟨r, h1, out, h2, h4⟩)
  rw [sequential_deterministic hseq, List.map_map]
  exact List.map_congr_left fun p _ => (seen_eq f p).symm

/-- The transitions of the thread that steps the pool do not depend on the populations. -/
theorem main_any {ins' : Nat → In} {r t : RunSt} (h : RunStep E ins r t) (hf : t.futs ≠ r.futs) : RunStep E ins' r t := by
  cases h with
  | finish => exact absurd rfl hf
  | fail => exact absurd rfl hf
  | collect h hr hf' hc => exact .collect h hr hf' hc
  | throws h hr hf' hc => exact .throws h hr hf' hc
  | rethrow h hr hf' => exact .rethrow h hr hf'
  | interrupt => exact absurd rfl hf

omit [Libm] in
theorem main_running {r t : RunSt} (h : RunStep E ins r t) (hf : t.futs ≠ r.futs) : t.running = r.running := by
  cases h with
  | finish => exact absurd rfl hf
  | fail => exact absurd rfl hf
  | collect => rfl
  | throws => rfl
  | rethrow => rfl
  | interrupt => rfl

/-- A transition keeps the invariants, and for the pool it is none or one of the coarse ones. -/
theorem PevStep.sound {threads N : Nat} {ks} {k : PevKind} {z w : RunSt × Users} (st : PevStep E f M ins k z w) (hMN : M ≤ N) (h : Users.Reached f threads N ks z.2) (I : Inside M ins z)
    (hlen : ∀ j ∈ z.1.running, j < M) :
    Users.Reached f threads N (ks ++ k.sh) w.2 ∧ Inside M ins w ∧ (∀ j ∈ w.1.running, j ∈ z.1.running) ∧ (w.1 = z.1 ∨ RunStep E (asked f ins) z.1 w.1) := by
  have hil := Users.inside_length h
  have back : ∀ {r : RunSt} {x : Users} {j c : Nat} {ps : List Pt} {rs : List (Result Dbl)} {t : RunSt}, x.inside.length = N → Inside M ins (r, x) → (∀ j ∈ r.running, j < M) → j ∈ r.running →
      x.inside[j]? = some (some c) → t.running = r.running.erase j → Inside M ins (t, x.back j) := by
    intro r x j c ps rs t hil I hlen hj hi ht i hiM
    by_cases hij : i = j
    · subst hij
      left
      show (x.inside.set i none)[i]? = _
      rw [List.getElem?_set_self (by omega)]
    · show (x.inside.set j none)[i]? = _ ∨ ∃ c, (x.inside.set j none)[i]? = _ ∧ _
      rw [List.getElem?_set_ne (Ne.symm hij)]
      refine (I i hiM).imp id ?_
      rintro ⟨c, h1, h2, h3⟩
      exact ⟨c, h1, by rw [ht]; exact (List.mem_erase_of_ne hij).2 h2, h3⟩
  have got : ∀ {r : RunSt} {x : Users} {j c : Nat} {ps : List Pt} {rs : List (Result Dbl)}, Users.Reached f threads N ks x → Inside M ins (r, x) → j < M → x.inside[j]? = some (some c) →
      x.calls[c]? = some ps → x.pool.clients[c]? = some (.returned rs) → ({ ins j with pop := ps, res := rs.map valueOf } : In) = asked f ins j := by
    intro r x j c ps rs h I hj hi hp hr
    have hps : ps = (ins j).pop := by
      rcases I j hj with h0 | ⟨c', h0, -, h1⟩
      · rw [hi] at h0; simp at h0
      · dsimp only at h0 h1
        rw [hi] at h0; simp only [Option.some.injEq] at h0; subst h0
        rw [hp] at h1; exact Option.some.inj h1
    subst hps
    unfold asked
    rw [Users.results h hp hr]
  cases st with
  | @call r x j m hj hM hm hd hi =>
    refine ⟨Users.call_step h (by omega) hi _, fun i hiM => ?_, fun _ h => h, .inl rfl⟩
    by_cases hij : i = j
    · subst hij
      right
      refine ⟨x.calls.length, ?_, hj, ?_⟩
      · show (x.inside.set i _)[i]? = _
        rw [List.getElem?_set_self (by rw [hil]; omega)]
      · show (x.calls ++ [_])[x.calls.length]? = _
        simp
    · show (x.inside.set j _)[i]? = _ ∨ ∃ c, (x.inside.set j _)[i]? = _ ∧ _ ∧ (x.calls ++ [_])[c]? = _
      rw [List.getElem?_set_ne (Ne.symm hij)]
      refine (I i hiM).imp id ?_
      rintro ⟨c, h1, h2, h3⟩
      exact ⟨c, h1, h2, getElem?_append_some h3⟩
  | @early r x j m hj hm hd hi =>
    refine ⟨by rw [show PevKind.early.sh = [] from rfl, List.append_nil]; exact h, fun i hiM => ?_, fun _ h => List.mem_of_mem_erase h, .inr ?_⟩
    · refine (I i hiM).imp id ?_
      rintro ⟨c, h1, h2, h3⟩
      refine ⟨c, h1, (List.mem_erase_of_ne ?_).2 h2, h3⟩
      rintro rfl
      dsimp only at h1
      rw [hi] at h1; simp at h1
    · have hs : m.step E (Opt.internal E (asked f ins j)) = (m, .err) := by unfold Opt.step; rw [if_pos hd]
      have := RunStep.fail (E := E) (ins := asked f ins) hj hm hs
      rwa [set_get_self hm] at this
  | @finish r x j c m m' ps rs y hj hm hi hp hr hs =>
    have hjM := hlen j hj
    rw [got h I hjM hi hp hr] at hs
    exact ⟨Users.back_step h (by omega) hi hp hr, back (ps := ps) (rs := rs) hil I hlen hj hi rfl, fun _ h => List.mem_of_mem_erase h, .inr (.finish hj hm hs)⟩
  | @fail r x j c m m' ps rs hj hm hi hp hr hs =>
    have hjM := hlen j hj
    rw [got h I hjM hi hp hr] at hs
    exact ⟨Users.back_step h (by omega) hi hp hr, back (ps := ps) (rs := rs) hil I hlen hj hi rfl, fun _ h => List.mem_of_mem_erase h, .inr (.fail hj hm hs)⟩
  | @work r x y k st =>
    refine ⟨h.snoc st, ?_, fun _ h => h, .inl rfl⟩
    cases st with
    | pool => exact I
  | @other r x y k st hk ho =>
    refine ⟨h.snoc st, fun i hiM => ?_, fun _ h => h, .inl rfl⟩
    dsimp only
    rw [ho i hiM]
    refine (I i hiM).imp id ?_
    rintro ⟨c, h1, h2, h3⟩
    refine ⟨c, h1, h2, ?_⟩
    cases st with
    | enter => exact getElem?_append_some h3
    | leave => exact h3
    | pool => exact h3
  | @main r t x st hf =>
    refine ⟨by rw [show PevKind.main.sh = [] from rfl, List.append_nil]; exact h, fun i hiM => ?_, fun j hj => by rw [← main_running st hf]; exact hj, .inr (main_any st hf)⟩
    dsimp only
    rw [main_running st hf]
    exact I i hiM
  | interrupt => exact ⟨by rw [show PevKind.interrupt.sh = [] from rfl, List.append_nil]; exact h, I, fun _ h => h, .inr .interrupt⟩

theorem PevStep.exec {threads N : Nat} {ks} {ks' : List PevKind} {z w : RunSt × Users} (st : Exec (PevStep E f M ins) ks' z w) (hMN : M ≤ N) (h : Users.Reached f threads N ks z.2) (I : Inside M ins z)
    (hlen : ∀ j ∈ z.1.running, j < M) :
    Users.Reached f threads N (ks ++ ks'.flatMap PevKind.sh) w.2 ∧ Inside M ins w ∧ (∀ j ∈ w.1.running, j ∈ z.1.running) ∧ RunExec E (asked f ins) z.1 w.1 := by
  induction st with
  | nil => exact ⟨by simpa using h, I, fun _ h => h, .nil⟩
  | snoc _ st ih =>
    obtain ⟨a, b, c, d⟩ := ih h I hlen
    obtain ⟨a', b', c', d'⟩ := st.sound hMN a b fun j hj => hlen j (c j hj)
    refine ⟨by simpa [List.append_assoc] using a', b', fun j hj => c j (c' j hj), ?_⟩
    rcases d' with d' | d'
    · rw [d']; exact d
    · exact d.snoc d'

/-- No thread of a member is inside `evaluate`. -/
def Outside (M : Nat) (x : Users) : Prop := ∀ j < M, x.inside[j]? = some none

theorem inside_launch {x : Users} (h : Outside M x) (r : RunSt) : Inside M ins (r, x) := fun j hj => .inl (h j hj)

/-- The members that are started. -/
theorem launch_bound {p p₁ p₂ : Pool} {sel : List Nat} (I : PoolOk p) (hM : p.members.length ≤ M) (h1 : p₁ = (if p.own.stepCount = 0 then p.signal .start else p).signal .preStep)
    (h2 : Refill E p₁ sel p₂) : (∀ j ∈ p₂.launch.running, j < M) ∧ p₂.launch.pool.members.length = p.members.length := by
  have hl : p₂.launch.pool.members.length = p.members.length := by
    have e2 := (refill_later h2).1
    rw [h1] at e2
    refine e2.trans ?_
    split <;> rfl
  refine ⟨fun j hj => ?_, hl⟩
  have := (launched_ok I (E := E) ⟨p₁, sel, p₂, h1, h2, rfl⟩).running j hj
  omega

/-- **C120.** Whatever the threads do, the step of a pool whose members share an evaluator with each other and with other threads is a step in the sense of C37 - C42 and C97 - C98, in which every member
gets for each of its points what the objective yields for it. -/
theorem C120_step {threads N : Nat} {ks ks'} {p p' : Pool} {x y : Users} {sel run : List Nat} {r : Option Nat} (hMN : M ≤ N) (h : Users.Reached f threads N ks x) (ho : Outside M x) (hp : PoolOk p)
    (hM : p.members.length ≤ M) (st : Pool.StepWith E f M ins ks' (p, x) sel run (p', y) r) :
    Pool.Step E (asked f ins) p sel run p' r ∧ Users.Reached f threads N (ks ++ ks'.flatMap PevKind.sh) y ∧ Outside M y := by
  cases st with
  | @mk _ _ p₁ p₂ _ _ _ t _ hd hne h1 h2 h3 hend h4 =>
    obtain ⟨a, b, c, d⟩ := PevStep.exec h3 hMN h (inside_launch ho _) (launch_bound hp hM h1 h2).1
    refine ⟨.mk hd hne h1 h2 d hend h4, a, fun j hj => ?_⟩
    rcases b j hj with b | ⟨c, -, b, -⟩
    · exact b
    · dsimp only at b; rw [hend.1] at b; cases b

theorem played_hist {P : Opt → Prop} {Q : In → Prop} {p q : Pool} {l : List In} (h : Pool.Played E P Q p l q) : ∃ ls, Pool.Hist E P p ls q := by
  induction h with
  | nil => exact ⟨_, .nil⟩
  | step _ st _ ih => obtain ⟨ls, h⟩ := ih; exact ⟨_, h.step st⟩
  | push _ hm ih => obtain ⟨ls, h⟩ := ih; exact ⟨_, h.push hm⟩
  | addCond _ ih => obtain ⟨ls, h⟩ := ih; exact ⟨_, h.addCond⟩
  | interrupt _ ih => obtain ⟨ls, h⟩ := ih; exact ⟨_, h.interrupt⟩
  | test _ ih => obtain ⟨ls, h⟩ := ih; exact ⟨_, h.test⟩

theorem exec_length {ins : Nat → In} {r t : RunSt} (h : RunExec E ins r t) : t.pool.members.length = r.pool.members.length := by
  induction h with
  | nil => rfl
  | snoc _ st ih =>
    cases st with
    | finish => rw [← ih]; exact List.length_set
    | fail => rw [← ih]; exact List.length_set
    | collect h hr hf hc => rw [← ih]; exact (collect_later hc).1
    | throws h hr hf hc => rw [← ih]; exact (collect_later hc).1
    | rethrow => exact ih
    | interrupt => rw [← ih]; exact (interrupt_later _).1

theorem poolStep_length {ins : Nat → In} {p p' : Pool} {sel run : List Nat} {x : Option Nat} (st : Pool.Step E ins p sel run p' x) : p'.members.length = p.members.length := by
  cases st with
  | @mk p₁ p₂ _ t _ _ hdim hne h1 h2 h3 hend h4 =>
    have e1 : p₁.members = p.members := by rw [h1]; split <;> rfl
    have e2 := (refill_later h2).1
    have e4 := (poolTest_later E { t.pool.signal .postStep with own := { t.pool.own with stepCount := t.pool.own.stepCount + 1 } }).1
    rw [h4] at e4
    exact e4.trans ((exec_length h3).trans (e2.trans (by rw [e1])))

variable {P : Opt → Prop} {Q : List Pt → Prop}

/-- **C120.** Whatever the threads do, a pool whose members share an evaluator with each other and with other threads, and the calls made of it, are those of a pool (in the sense of C108) whose members
get for each of their points what the objective yields for it. -/
theorem C120_played (cfg : PoolCfg) (info : ObjInfo) {threads N : Nat} (hMN : M ≤ N) {ks : List PevKind} {l : List (List Pt)} {p : Pool} {x : Users}
    (h : Pool.PlayedWith E f M P Q (Pool.init cfg info, Users.init threads N) ks l (p, x)) :
    (∃ is, is.map In.pop = l ∧ Pool.Played E P (fun i => Q i.pop ∧ i.res = i.pop.map (seen f)) (Pool.init cfg info) is p) ∧
    Users.Reached f threads N (ks.flatMap PevKind.sh) x ∧ Outside M x ∧ p.members.length ≤ M := by
  generalize hz : (Pool.init cfg info, Users.init threads N) = z₀ at h
  generalize hw : (p, x) = w at h
  induction h generalizing p x with
  | nil =>
    rw [← hz] at hw
    cases hw
    refine ⟨⟨[], rfl, .nil⟩, .nil, fun j hj => ?_, by simp [Pool.init]⟩
    show ((List.replicate N ()).map fun _ => (none : Option Nat))[j]? = _
    rw [List.getElem?_map, List.getElem?_replicate, if_pos (by omega)]
    rfl
  | @step q q' y y' ks ks' l sel run ins r h st hq ih =>
    obtain ⟨⟨is, h1, h2⟩, h3, h4, h5⟩ := ih rfl
    cases hw
    obtain ⟨ls, hh⟩ := played_hist h2
    have ok := hist_ok cfg info hh
    obtain ⟨g1, g2, g3⟩ := C120_step hMN h3 h4 ok h5 st
    refine ⟨⟨is ++ run.map (asked f ins), ?_, h2.step g1 fun i hi => ⟨hq i hi, rfl⟩⟩, by rw [List.flatMap_append]; exact g2, g3, by rw [poolStep_length g1]; exact h5⟩
    rw [List.map_append, h1, List.map_map]
    rfl
  | @push q y ks l m h hm hM ih =>
    obtain ⟨⟨is, h1, h2⟩, h3, h4, h5⟩ := ih rfl
    cases hw
    refine ⟨⟨is, h1, h2.push hm⟩, h3, h4, ?_⟩
    have := congrArg List.length (push_mark q m)
    simp only [List.length_map, List.length_append, List.length_cons, List.length_nil] at this
    omega
  | addCond h ih =>
    obtain ⟨⟨is, h1, h2⟩, h3, h4, h5⟩ := ih rfl
    cases hw
    exact ⟨⟨is, h1, h2.addCond⟩, h3, h4, h5⟩
  | interrupt h ih =>
    obtain ⟨⟨is, h1, h2⟩, h3, h4, h5⟩ := ih rfl
    cases hw
    exact ⟨⟨is, h1, h2.interrupt⟩, h3, h4, (interrupt_later _).1.trans_le h5⟩
  | test h ih =>
    obtain ⟨⟨is, h1, h2⟩, h3, h4, h5⟩ := ih rfl
    cases hw
    exact ⟨⟨is, h1, h2.test⟩, h3, h4, by rw [(poolTest_later E _).1]; exact h5⟩
  | @work q y y' ks l k h st ih =>
    obtain ⟨h2, h3, h4, h5⟩ := ih rfl
    cases hw
    refine ⟨h2, by rw [List.flatMap_append]; exact h3.snoc st, ?_, h5⟩
    cases st with
    | pool => exact h4
  | @other q y y' ks l k h st hk ho ih =>
    obtain ⟨h2, h3, h4, h5⟩ := ih rfl
    cases hw
    exact ⟨h2, by rw [List.flatMap_append]; exact h3.snoc st, fun j hj => by rw [ho j hj]; exact h4 j hj, h5⟩

/-- Points within the bounds. -/
def PopWithin (nan : Prop) (info : ObjInfo) (ps : List Pt) : Prop := ps ≠ [] ∧ ∀ x ∈ ps, EvaluatedWithin nan info x

theorem seen_some {x : Pt} {v : Dbl} : seen f x = some v ↔ f x = .returns (.ok v) := by
  unfold seen
  rcases f x with (_ | _) | _ | _ <;> simp

theorem seen_none {x : Pt} : seen f x ≠ none ↔ ∃ v, f x = .returns (.ok v) := by
  unfold seen
  rcases f x with (_ | _) | _ | _ <;> simp

/-- **C120.** After any calls of a pool whose members share an evaluator, with any schedule of all threads, once a member has been stepped: no value the objective has for a point of a population without
failures is better than `best_fitness()` of the pool, and that is the value the objective has for `best_point()`, which was in one of these populations and is within the bounds - if any value was
better than the worst fitness there is. -/
theorem C120_solution {nan : Prop} (cfg : PoolCfg) (info : ObjInfo) (hd : info.dim ≠ 0) (hf : ∀ x, f x ≠ .returns (.ok .nan)) {threads N : Nat} (hMN : M ≤ N) {ks : List PevKind} {l : List (List Pt)}
    {p : Pool} {x : Users} (h : Pool.PlayedWith E f M (Opt.Ready E info) (PopWithin nan info) (Pool.init cfg info, Users.init threads N) ks l (p, x)) (hl : l ≠ []) :
    ∃ q v, p.bestPoint = .ok q ∧ p.bestFitness = .ok v ∧
      (∀ ps ∈ l, (∀ x ∈ ps, ∃ g, f x = .returns (.ok g)) → ∀ x ∈ ps, ∀ g, f x = .returns (.ok g) → info.isBetter g v = false) ∧
      (v = info.worstFitness ∧ q = (SearchPoint.ofInfo info).values ∨
        f q = .returns (.ok v) ∧ EvaluatedWithin nan info q ∧ ∃ ps ∈ l, q ∈ ps ∧ ∀ x ∈ ps, ∃ g, f x = .returns (.ok g)) := by
  obtain ⟨⟨is, rfl, h2⟩, -⟩ := C120_played cfg info hMN h
  have hF : ∀ x, seen f x ≠ some .nan := fun x hx => hf x (seen_some.1 hx)
  obtain ⟨q, v, h3, h4, h5, h6⟩ := C108_solution hd hF cfg (h2.mono fun i hi => (⟨hi.1.1, hi.1.2, hi.2⟩ : In.Plays nan (seen f) info i)) (by rintro rfl; exact hl rfl)
  refine ⟨q, v, h3, h4, ?_, ?_⟩
  · intro ps hps hc y hy g hg
    obtain ⟨i, hi, rfl⟩ := List.mem_map.1 hps
    exact h5 i hi (fun z hz => seen_none.2 (hc z hz)) y hy g (seen_some.2 hg)
  · rcases h6 with h6 | ⟨h6, h7, i, hi, h8, h9⟩
    · exact .inl h6
    · exact .inr ⟨seen_some.1 h6, h7, i.pop, List.mem_map_of_mem hi, h8, fun z hz => seen_none.1 (h9 z hz)⟩

theorem Pool.PlayedWith.mono {Q' : List Pt → Prop} (hQ : ∀ ps, Q ps → Q' ps) {z₀ w : Pool × Users} {ks : List PevKind} {l : List (List Pt)} (h : Pool.PlayedWith E f M P Q z₀ ks l w) :
    Pool.PlayedWith E f M P Q' z₀ ks l w := by
  induction h with
  | nil => exact .nil
  | step _ st hq ih => exact ih.step st fun i hi => hQ _ (hq i hi)
  | push _ hm hM ih => exact ih.push hm hM
  | addCond _ ih => exact ih.addCond
  | interrupt _ ih => exact ih.interrupt
  | test _ ih => exact ih.test
  | work _ st ih => exact ih.work st
  | other _ st hk ho ih => exact ih.other st hk ho

/-- **C120.** The same for pools of MES, EVA and CMA optimizers in any mixture. -/
theorem C120_algorithms (cfg : PoolCfg) (info : ObjInfo) (hd : info.dim ≠ 0) (hv : ∀ p ∈ info.pars, p.isValid = true) (hf : ∀ x, f x ≠ .returns (.ok .nan)) {threads N : Nat} (hMN : M ≤ N)
    {ks : List PevKind} {l : List (List Pt)} {p : Pool} {x : Users}
    (h : Pool.PlayedWith E f M (Opt.Ready E info) (fun ps => ∃ i : In, i.Made E (seen f) info ∧ i.pop = ps) (Pool.init cfg info, Users.init threads N) ks l (p, x)) (hl : l ≠ []) :
    ∃ q v, p.bestPoint = .ok q ∧ p.bestFitness = .ok v ∧
      (∀ ps ∈ l, (∀ x ∈ ps, ∃ g, f x = .returns (.ok g)) → ∀ x ∈ ps, ∀ g, f x = .returns (.ok g) → info.isBetter g v = false) ∧
      (v = info.worstFitness ∧ q = (SearchPoint.ofInfo info).values ∨
        f q = .returns (.ok v) ∧ EvaluatedWithin True info q ∧ ∃ ps ∈ l, q ∈ ps ∧ ∀ x ∈ ps, ∃ g, f x = .returns (.ok g)) := by
  refine C120_solution (E := E) (threads := threads) cfg info hd hf hMN (h.mono fun ps hps => ?_) hl
  obtain ⟨j, hj, rfl⟩ := hps
  have := hj.plays hd hv
  exact ⟨this.1, this.2.1⟩

/-! ## The end of a step -/

theorem played_members {nan : Prop} {F : Pt → Option Dbl} {info : ObjInfo} (hd : info.dim ≠ 0) (hF : ∀ x, F x ≠ some .nan) (cfg : PoolCfg) {l : List In} {p : Pool}
    (h : Pool.Played E (Opt.Ready E info) (In.Plays nan F info) (Pool.init cfg info) l p) {r t : RunSt} (hl : p.Launched E r) (hi : ∀ i ∈ r.futs, (ins i).Plays nan F info) (hx : RunExec E ins r t) :
    ∀ i ∈ t.running, ∀ m, t.pool.members[i]? = some m → m.vis.info = info ∧ (m.step E (Opt.internal E (ins i))).2 ≠ .ub := by
  obtain ⟨-, ls, ev, -, I, -⟩ := played_inv hd hF h
  obtain ⟨p₁, sel, p₂, h1, h2, rfl⟩ := hl
  have e1 : p₁.members = p.members := by rw [h1]; split <;> rfl
  have e2 := refill_mark h2
  rw [e1] at e2
  have I2 : PlayInv info ev p₂.launch.pool.members := I.congr e2
  obtain ⟨-, b, ev', J, -⟩ := I2.exec hd (S := p₂.launch.futs) (fun i h => (hi i h).valid) (fun i h g hg => by
    rw [(hi i h).2.2, List.mem_map] at hg
    obtain ⟨x, -, hx⟩ := hg
    rintro rfl
    exact hF x hx) hx rfl
  intro i hi' m hm
  obtain ⟨w, -, ht⟩ := J.mem i m hm
  exact ⟨w.info_eq, step_ne_ub hd w ht (hi i (b i hi')).valid⟩

/-- **C98.** If members and populations are as in C108, the steps of the members have no undefined behaviour: C98_no_deadlock and C98_ends hold without that proviso. -/
theorem C98_defined {nan : Prop} {F : Pt → Option Dbl} {info : ObjInfo} (hd : info.dim ≠ 0) (hF : ∀ x, F x ≠ some .nan) (cfg : PoolCfg) {l : List In} {p : Pool}
    (h : Pool.Played E (Opt.Ready E info) (In.Plays nan F info) (Pool.init cfg info) l p) {r t : RunSt} (hl : p.Launched E r) (hi : ∀ i ∈ r.futs, (ins i).Plays nan F info) (hx : RunExec E ins r t) :
    ∀ i ∈ t.running, ∀ m, t.pool.members[i]? = some m → (m.step E (Opt.internal E (ins i))).2 ≠ .ub :=
  fun i hi' m hm => (played_members hd hF cfg h hl hi hx i hi' m hm).2

/-- **C98.** A step of a pool whose members and populations are as in C108 can at any moment still come to its end (and, by `C98_bounded`, does unless interrupts never cease). -/
theorem C98_completes {nan : Prop} {F : Pt → Option Dbl} {info : ObjInfo} (hd : info.dim ≠ 0) (hF : ∀ x, F x ≠ some .nan) (cfg : PoolCfg) {l : List In} {p : Pool}
    (h : Pool.Played E (Opt.Ready E info) (In.Plays nan F info) (Pool.init cfg info) l p) {r t : RunSt} (hl : p.Launched E r) (hi : ∀ i ∈ r.futs, (ins i).Plays nan F info) (hx : RunExec E ins r t) :
    ∃ t', RunExec E ins t t' ∧ t'.running = [] ∧ t'.futs = [] := by
  obtain ⟨ls, hh⟩ := played_hist h
  exact C98_ends cfg info hh hl hx fun s hs => C98_defined hd hF cfg h hl hi hs

/-- What is counted: everything but interrupts of the pool and threads of the evaluator that wake up for no reason. -/
def PevKind.active : PevKind → Bool
  | .interrupt => false
  | .work k => k ≠ .spurious
  | .other k => k.active
  | _ => true

theorem active_le (ks : List PevKind) : ks.countP PevKind.active ≤ (ks.flatMap PevKind.sh).countP ShKind.active + (ks.count .early + ks.count .main) := by
  induction ks with
  | nil => simp
  | cons k ks ih =>
    rw [List.flatMap_cons, List.countP_append, List.countP_cons, List.count_cons, List.count_cons]
    have : (if k.active = true then 1 else 0) ≤ k.sh.countP ShKind.active + ((if (k == .early) = true then 1 else 0) + if (k == .main) = true then 1 else 0) := by
      cases k with
      | work k => cases k <;> decide
      | other k => cases k with
        | pool k => cases k <;> decide
        | _ => decide
      | _ => decide
    generalize (if k.active = true then 1 else 0) = a at *
    generalize (if (k == .early) = true then 1 else 0) = b at *
    generalize (if (k == .main) = true then 1 else 0) = c at *
    omega

/-- How many threads of members are inside `evaluate`. -/
def inCall (M : Nat) (x : Users) : Nat := ∑ j ∈ Finset.range M, if (x.inside[j]?.join).isSome then 1 else 0

theorem load_le {z : RunSt × Users} (I : Inside M ins z) : inCall M z.2 ≤ z.1.running.length := by
  unfold inCall
  rw [← Finset.sum_filter, Finset.sum_const, smul_eq_mul, mul_one]
  refine (Finset.card_le_card (t := z.1.running.toFinset) fun j hj => ?_).trans (List.toFinset_card_le _)
  rw [Finset.mem_filter, Finset.mem_range] at hj
  rcases I j hj.1 with h | ⟨c, -, h, -⟩
  · rw [h] at hj; simp at hj
  · simpa using h

theorem load_set {x : Users} {j : Nat} {a b : Option Nat} (hj : j < M) (h : x.inside[j]? = some a) (ha : a.isSome = false) (hb : b.isSome = true) {y : Users} (hy : y.inside = x.inside.set j b) :
    inCall M y = inCall M x + 1 := by
  have hl := lt_of_get h
  unfold inCall
  apply sum_step hj
  · rw [hy, List.getElem?_set_self hl, h]
    cases a <;> cases b <;> simp at ha hb ⊢
  · intro i hi
    rw [hy, List.getElem?_set_ne (Ne.symm hi)]

theorem load_back {x : Users} {j c : Nat} (hj : j < M) (h : x.inside[j]? = some (some c)) : inCall M (x.back j) + 1 = inCall M x := by
  have hl := lt_of_get h
  symm
  refine load_set (x := x.back j) (b := some c) hj (a := none) ?_ rfl rfl ?_
  · show (x.inside.set j none)[j]? = _
    rw [List.getElem?_set_self hl]
  · show x.inside = (x.inside.set j none).set j (some c)
    rw [List.set_set, set_get_self h]

theorem load_congr {x y : Users} (h : ∀ j < M, y.inside[j]? = x.inside[j]?) : inCall M y = inCall M x := by
  unfold inCall
  refine Finset.sum_congr rfl fun j hj => ?_
  rw [h j (Finset.mem_range.1 hj)]

/-- Every member that is stepped calls `evaluate` at most once, and every transition of a member or of the pool brings the step closer to its end. -/
theorem pev_counts {threads N : Nat} {ks} {ks' : List PevKind} {z w : RunSt × Users} (st : Exec (PevStep E f M ins) ks' z w) (hMN : M ≤ N) (h : Users.Reached f threads N ks z.2) (I : Inside M ins z)
    (hlen : ∀ j ∈ z.1.running, j < M) :
    w.2.calls.length + w.1.running.length + inCall M z.2 ≤ z.2.calls.length + z.1.running.length + inCall M w.2 + ks'.count (.other .enter) ∧
    ks'.count .back + ks'.count .early + ks'.count .main + w.1.todo ≤ z.1.todo := by
  induction st with
  | nil => simp
  | @snoc ls z u w k ex st ih =>
    obtain ⟨i1, i2⟩ := ih h I hlen
    obtain ⟨a, b, c, d⟩ := PevStep.exec ex hMN h I hlen
    have hjM : ∀ j ∈ u.1.running, j < M := fun j hj => hlen j (c j hj)
    simp only [List.count_append, List.count_singleton]
    unfold RunSt.todo at i2 ⊢
    cases st with
    | @call r x j m hj hM hm hd hi =>
      have := load_set (y := x.call j (ins j).pop) hM hi rfl rfl rfl
      have hc : (x.call j (ins j).pop).calls.length = x.calls.length + 1 := by simp [Users.call]
      refine ⟨?_, by simpa using i2⟩
      dsimp only at i1 ⊢
      simp only [beq_iff_eq, reduceCtorEq, if_false]
      omega
    | @early r x j m hj hm hd hi =>
      have := List.length_erase_of_mem hj
      have := List.length_pos_of_mem hj
      dsimp only at i1 i2 ⊢
      simp
      omega
    | @finish r x j c m m' ps rs y hj hm hi hp hr hs =>
      have := List.length_erase_of_mem hj
      have := List.length_pos_of_mem hj
      have := load_back (hjM j hj) hi
      have hc : (x.back j).calls = x.calls := rfl
      dsimp only at i1 i2 ⊢
      rw [hc]
      simp
      omega
    | @fail r x j c m m' ps rs hj hm hi hp hr hs =>
      have := List.length_erase_of_mem hj
      have := List.length_pos_of_mem hj
      have := load_back (hjM j hj) hi
      have hc : (x.back j).calls = x.calls := rfl
      dsimp only at i1 i2 ⊢
      rw [hc]
      simp
      omega
    | @work r x y k st =>
      cases st with
      | pool hk st =>
        refine ⟨?_, by simpa using i2⟩
        have := i1
        simp at this ⊢
        exact this
    | @other r x y k st hk ho =>
      have := load_congr ho
      refine ⟨?_, by simpa using i2⟩
      dsimp only at i1 ⊢
      rw [this]
      cases st with
      | enter =>
        simp
        omega
      | leave =>
        simp
        omega
      | pool => simp at hk
    | @main r t x st hf =>
      have hrun := main_running st hf
      have htodo := C98_bounded st
      unfold RunSt.todo at htodo
      rcases htodo with h | h
      · exact absurd (congrArg RunSt.futs h) hf
      · dsimp only at i1 i2 ⊢
        rw [hrun] at h ⊢
        simp
        omega
    | interrupt =>
      refine ⟨by simpa using i1, by simpa using i2⟩

theorem launched_bounds {p : Pool} (I : PoolOk p) (hM : p.members.length ≤ M) {r : RunSt} (hl : p.Launched E r) :
    (∀ j ∈ r.running, j < M) ∧ r.pool.members.length = p.members.length ∧ r.running.length ≤ p.cfg.concurrent ∧ r.todo ≤ 2 * p.cfg.concurrent := by
  have hl' := hl
  obtain ⟨p₁, sel, p₂, h1, h2, rfl⟩ := hl
  obtain ⟨a, b⟩ := launch_bound I hM h1 h2
  have c1 : p₁.cfg = p.cfg := by rw [h1]; split <;> rfl
  have c2 : p₂.cfg = p₁.cfg := by cases h2 <;> rfl
  have : (p₂.queue.take p₂.cfg.concurrent).length ≤ p.cfg.concurrent := by
    rw [c2, c1]; exact List.length_take_le _ _
  refine ⟨a, b, this, ?_⟩
  unfold RunSt.todo
  show (p₂.queue.take p₂.cfg.concurrent).length + (p₂.queue.take p₂.cfg.concurrent).length ≤ _
  omega

/-- **C120.** In a step of a pool whose members share an evaluator only boundedly much happens, apart from interrupts and wake-ups for no reason: `c` is the option `concurrent_optimizations`, `L` the
size of the populations, `threads` the number of threads of the evaluator. -/
theorem C120_bounded (cfg : PoolCfg) (info : ObjInfo) {threads N L : Nat} (hMN : M ≤ N) {ks ks' : List PevKind} {l : List (List Pt)} {p : Pool} {x y : Users} {r t : RunSt}
    (h : Pool.PlayedWith E f M P Q (Pool.init cfg info, Users.init threads N) ks l (p, x)) (hl : p.Launched E r) (hx : Exec (PevStep E f M ins) ks' (r, x) (t, y))
    (hu : Undisturbed ((ks ++ ks').flatMap PevKind.sh)) (hL : ∀ ps ∈ y.calls, ps.length ≤ L) :
    ks'.countP PevKind.active ≤ 2 * p.cfg.concurrent + 3 * threads + (x.calls.length + p.cfg.concurrent + ks'.count (.other .enter)) * (6 * L + 3 * threads + 6) +
      3 * ((ks ++ ks').flatMap PevKind.sh).count (.pool .spurious) := by
  obtain ⟨⟨is, -, h2⟩, h3, h4, h5⟩ := C120_played cfg info hMN h
  obtain ⟨lh, hh⟩ := played_hist h2
  obtain ⟨b1, b2, b3, b4⟩ := launched_bounds (hist_ok cfg info hh) h5 hl
  obtain ⟨e1, e2, -⟩ := PevStep.exec hx hMN h3 (inside_launch h4 r) b1
  obtain ⟨c1, c2⟩ := pev_counts hx hMN h3 (inside_launch h4 r) b1
  have hld := load_le e2
  rw [← List.flatMap_append] at e1
  have hs := steps_left e1 hu
  have ha := active_le ks'
  rw [List.flatMap_append, List.countP_append] at hs
  have hsum : (y.calls.map (callCost threads)).sum ≤ y.calls.length * (6 * L + 3 * threads + 6) := by
    clear hs hx e1 e2 c1 hld
    generalize y.calls = l at hL
    induction l with
    | nil => simp
    | cons a l ih =>
      have h1 := hL a (by simp)
      have h2 := ih (fun ps hps => hL ps (by simp [hps]))
      rw [List.map_cons, List.sum_cons, List.length_cons, Nat.succ_mul]
      have h3 : callCost threads a ≤ 6 * L + 3 * threads + 6 := by unfold callCost; omega
      generalize l.length * (6 * L + 3 * threads + 6) = X at *
      omega
  have hc : y.calls.length ≤ x.calls.length + p.cfg.concurrent + ks'.count (.other .enter) := by
    dsimp only at c1 hld
    omega
  have hm := Nat.mul_le_mul_right (6 * L + 3 * threads + 6) hc
  rw [List.flatMap_append]
  dsimp only at c2 hs
  generalize (x.calls.length + p.cfg.concurrent + ks'.count (.other .enter)) * (6 * L + 3 * threads + 6) = X at *
  generalize y.calls.length * (6 * L + 3 * threads + 6) = Y at *
  omega

/-- The transitions of the threads of the pool and of the evaluator that are not an interrupt or a wake-up for no reason. -/
def PevKind.own : PevKind → Bool
  | .call | .back | .early | .main | .work .work => true
  | _ => false

/-- **C120.** In a step of a pool whose members share an evaluator with at least one thread, nobody waits for ever: at any moment, whatever the schedule was and whatever the other threads do, as long as a
member is being stepped or a future has not been looked at, one of the threads of the pool or of the evaluator can go on. -/
theorem C120_no_deadlock {nan : Prop} (cfg : PoolCfg) (info : ObjInfo) (hd : info.dim ≠ 0) (hf : ∀ x, f x ≠ .returns (.ok .nan)) {threads N : Nat} (hth : 0 < threads) (hMN : M ≤ N)
    {ks ks' : List PevKind} {l : List (List Pt)} {p : Pool} {x y : Users} {r t : RunSt}
    (h : Pool.PlayedWith E f M (Opt.Ready E info) (PopWithin nan info) (Pool.init cfg info, Users.init threads N) ks l (p, x)) (hl : p.Launched E r)
    (hi : ∀ i ∈ r.futs, PopWithin nan info (ins i).pop) (hx : Exec (PevStep E f M ins) ks' (r, x) (t, y)) (hu : Undisturbed ((ks ++ ks').flatMap PevKind.sh))
    (hne : ¬ (t.running = [] ∧ t.futs = [])) : ∃ k z, k.own = true ∧ PevStep E f M ins k (t, y) z := by
  obtain ⟨⟨is, -, h2⟩, h3, h4, h5⟩ := C120_played cfg info hMN h
  obtain ⟨lh, hh⟩ := played_hist h2
  have hF : ∀ x, seen f x ≠ some .nan := fun x hx => hf x (seen_some.1 hx)
  obtain ⟨b1, b2, b3, b4⟩ := launched_bounds (hist_ok cfg info hh) h5 hl
  obtain ⟨e1, e2, e3, e4⟩ := PevStep.exec hx hMN h3 (inside_launch h4 r) b1
  rw [← List.flatMap_append] at e1
  have R := (launched_ok (hist_ok cfg info hh) hl).exec e4
  have hub := played_members (nan := nan) (F := seen f) hd hF cfg (h2.mono fun i hi => (⟨hi.1.1, hi.1.2, hi.2⟩ : In.Plays nan (seen f) info i)) hl
    (ins := asked f ins) (fun i hi' => ⟨(hi i hi').1, (hi i hi').2, rfl⟩) e4
  dsimp only at e2 e3 e4 R
  cases hr : t.running with
  | cons j js =>
    have hj : j ∈ t.running := by rw [hr]; simp
    have hjM := b1 j (e3 j hj)
    have hm := List.getElem?_eq_getElem (R.running j hj)
    obtain ⟨hinf, hub⟩ := hub j hj _ hm
    have hdm : (t.pool.members[j]'(R.running j hj)).vis.info.dim ≠ 0 := by rw [hinf]; exact hd
    · rcases e2 j hjM with hin | ⟨c, hin, -, hcall⟩
      · exact ⟨_, _, rfl, .call hj hjM hm hdm hin⟩
      · dsimp only at hin hcall
        obtain ⟨hs, I⟩ := Users.inv e1
        obtain ⟨kx, hxx⟩ := I.exec
        have Pv := PInv.of_exec I.exec
        obtain ⟨hctl, hw⟩ := undisturbed_ctl e1 hu
        have hcl : c < y.pool.clients.length := by rw [Pv.clen]; exact lt_of_get hcall
        have hget := List.getElem?_eq_getElem hcl
        by_cases hret : ∃ rs, y.pool.clients[c] = .returned rs
        · obtain ⟨rs, hrs⟩ := hret
          rw [hrs] at hget
          have heq : ({ ins j with pop := (ins j).pop, res := rs.map valueOf } : In) = asked f ins j := by
            unfold asked
            rw [Users.results e1 hcall hget]
          rcases hst : (t.pool.members[j]'(R.running j hj)).step E (Opt.internal E (asked f ins j)) with ⟨m', z⟩
          cases z with
          | ok z => exact ⟨_, _, rfl, .finish hj hm hin hcall hget (by rw [heq]; exact hst)⟩
          | err => exact ⟨_, _, rfl, .fail hj hm hin hcall hget (by rw [heq]; exact hst)⟩
          | ub => rw [hst] at hub; exact absurd rfl hub
        · have hidle : y.pool.clients[c] ≠ .idle := fun h0 => I.made (h0 ▸ List.getElem_mem hcl)
          obtain ⟨pool', hst⟩ := C36_no_deadlock (o := deterministic f) (fun p => ⟨_, rfl⟩) hxx hctl (by rintro h0; rw [h0] at hw; simp at hw; omega) hget
            ⟨hidle, fun rs h0 => hret ⟨rs, h0⟩⟩
          exact ⟨_, _, rfl, .work (.pool (k := .work) (by simp) hst)⟩
  | nil =>
    cases hfu : t.futs with
    | nil => exact absurd ⟨hr, hfu⟩ hne
    | cons i is =>
      have hi : i ∈ t.futs := by rw [hfu]; simp
      by_cases hfa : i ∈ t.failed
      · exact ⟨_, _, rfl, .main (.rethrow hfu (by rw [hr]; simp) hfa) (by simp [hfu])⟩
      · obtain ⟨p', hc, -⟩ := collect_total R.pool (R.futs i hi)
        exact ⟨_, _, rfl, .main (.collect hfu (by rw [hr]; simp) hfa hc) (by simp [hfu])⟩

theorem own_cases {k : PevKind} (h : k.own = true) : k = .call ∨ k = .back ∨ k = .early ∨ k = .main ∨ k = .work .work := by
  cases k with
  | work k => cases k <;> simp [PevKind.own] at h ⊢
  | _ => simp [PevKind.own] at h ⊢

theorem own_sh {k : PevKind} (h : k.own = true) : k ≠ .other .enter ∧ k.active = true ∧ ShKind.pool .spurious ∉ k.sh ∧ ShKind.pool .request ∉ k.sh := by
  rcases own_cases h with rfl | rfl | rfl | rfl | rfl <;> decide

/-- **C120.** And so the step can at any moment still come to its end, by what the threads of the pool and of the evaluator do themselves. -/
theorem C120_ends {nan : Prop} (cfg : PoolCfg) (info : ObjInfo) (hd : info.dim ≠ 0) (hf : ∀ x, f x ≠ .returns (.ok .nan)) {threads N : Nat} (hth : 0 < threads) (hMN : M ≤ N)
    {ks ks' : List PevKind} {l : List (List Pt)} {p : Pool} {x y : Users} {r t : RunSt}
    (h : Pool.PlayedWith E f M (Opt.Ready E info) (PopWithin nan info) (Pool.init cfg info, Users.init threads N) ks l (p, x)) (hl : p.Launched E r)
    (hi : ∀ i ∈ r.futs, PopWithin nan info (ins i).pop) (hx : Exec (PevStep E f M ins) ks' (r, x) (t, y)) (hu : Undisturbed ((ks ++ ks').flatMap PevKind.sh)) :
    ∃ more t' y', (∀ k ∈ more, k.own = true) ∧ Exec (PevStep E f M ins) (ks' ++ more) (r, x) (t', y') ∧ t'.running = [] ∧ t'.futs = [] := by
  obtain ⟨L, hL, hP⟩ : ∃ L, (∀ ps ∈ y.calls, ps.length ≤ L) ∧ ∀ j < M, (ins j).pop.length ≤ L := by
    refine ⟨(y.calls.map List.length).sum + ∑ j ∈ Finset.range M, (ins j).pop.length, fun ps hps => ?_, fun j hj => ?_⟩
    · have := List.single_le_sum (l := y.calls.map List.length) (fun _ _ => Nat.zero_le _) _ (List.mem_map_of_mem hps)
      omega
    · have := Finset.single_le_sum (f := fun j => (ins j).pop.length) (fun _ _ => Nat.zero_le _) (Finset.mem_range.2 hj)
      omega
  generalize hB : 2 * p.cfg.concurrent + 3 * threads + (x.calls.length + p.cfg.concurrent + ks'.count (.other .enter)) * (6 * L + 3 * threads + 6) +
      3 * ((ks ++ ks').flatMap PevKind.sh).count (.pool .spurious) - ks'.countP PevKind.active = n
  induction n using Nat.strong_induction_on generalizing t y ks' with
  | _ n IH =>
    by_cases hne : t.running = [] ∧ t.futs = []
    · exact ⟨[], t, y, by simp, by rwa [List.append_nil], hne⟩
    · obtain ⟨k, ⟨t', y'⟩, hk, st⟩ := C120_no_deadlock cfg info hd hf hth hMN h hl hi hx hu hne
      have hx' := hx.snoc st
      have hL' : ∀ ps ∈ y'.calls, ps.length ≤ L := by
        cases st with
        | @call r x j m hj hM hm hd hi =>
          intro ps hps
          rcases List.mem_append.1 hps with h | h
          · exact hL ps h
          · rw [List.mem_singleton.1 h]; exact hP j hM
        | early => exact hL
        | finish => exact hL
        | fail => exact hL
        | work st => cases st; exact hL
        | other st hk' => cases hk
        | main => exact hL
        | interrupt => cases hk
      obtain ⟨o1, o2, o3, o4⟩ := own_sh hk
      have hu' : Undisturbed ((ks ++ (ks' ++ [k])).flatMap PevKind.sh) := by
        intro q hq
        rw [← List.append_assoc, List.flatMap_append, List.mem_append] at hq
        rcases hq with hq | hq
        · exact hu q hq
        · rw [List.flatMap_cons, List.flatMap_nil, List.append_nil] at hq
          rintro rfl
          exact o4 hq
      have hbd := C120_bounded cfg info hMN h hl hx' hu' hL'
      have c1 : (ks' ++ [k]).count (.other .enter) = ks'.count (.other .enter) := by
        rw [List.count_append, List.count_singleton, if_neg (by simpa using o1), Nat.add_zero]
      have c2 : ((ks ++ (ks' ++ [k])).flatMap PevKind.sh).count (.pool .spurious) = ((ks ++ ks').flatMap PevKind.sh).count (.pool .spurious) := by
        rw [← List.append_assoc, List.flatMap_append, List.count_append, List.flatMap_cons, List.flatMap_nil, List.append_nil, List.count_eq_zero.2 o3, Nat.add_zero]
      have c3 : (ks' ++ [k]).countP PevKind.active = ks'.countP PevKind.active + 1 := by
        rw [List.countP_append, List.countP_singleton, if_pos o2]
      obtain ⟨more, t'', y'', m1, m2, m3⟩ := IH _ (by rw [c1, c2] at hbd; rw [c1, c2]; omega) hx' hu' hL' rfl
      refine ⟨k :: more, t'', y'', ?_, by simpa [List.append_assoc] using m2, m3⟩
      intro q hq
      rcases List.mem_cons.1 hq with rfl | hq
      · exact hk
      · exact m1 q hq

/-! ## Every schedule of the members is possible -/

/-- A call that has begun can be served by the threads of the evaluator alone. -/
theorem Users.serve {threads N : Nat} (hth : 0 < threads) {ks : List ShKind} {x : Users} (h : Users.Reached f threads N ks x) (hu : Undisturbed ks) {c : Nat} {ps : List Pt}
    (hc : x.calls[c]? = some ps) :
    ∃ n y rs, Exec (ShStep (deterministic f) fun _ => anyClient) (List.replicate n (.pool .work)) x y ∧ y.calls = x.calls ∧ y.inside = x.inside ∧ y.pool.clients[c]? = some (.returned rs) := by
  generalize hB : 3 * threads + (x.calls.map (callCost threads)).sum + 3 * ks.count (.pool .spurious) - ks.countP ShKind.active = b
  induction b using Nat.strong_induction_on generalizing x ks with
  | _ b IH =>
    obtain ⟨hs, I⟩ := Users.inv h
    obtain ⟨kx, hxx⟩ := I.exec
    have Pv := PInv.of_exec I.exec
    obtain ⟨hctl, hw⟩ := undisturbed_ctl h hu
    have hget := List.getElem?_eq_getElem (show c < x.pool.clients.length by rw [Pv.clen]; exact lt_of_get hc)
    by_cases hret : ∃ rs, x.pool.clients[c]'(by rw [Pv.clen]; exact lt_of_get hc) = .returned rs
    · obtain ⟨rs, hrs⟩ := hret
      exact ⟨0, x, rs, .nil, rfl, rfl, by rw [hget, hrs]⟩
    · obtain ⟨pool', hst⟩ := C36_no_deadlock (o := deterministic f) (fun p => ⟨_, rfl⟩) hxx hctl (by rintro h0; rw [h0] at hw; simp at hw; omega) hget
        ⟨fun h0 => I.made (h0 ▸ List.getElem_mem _), fun rs h0 => hret ⟨rs, h0⟩⟩
      have st : ShStep (deterministic f) (fun _ => anyClient) (.pool .work) x { x with pool := pool' } := .pool (by simp) hst
      have h' := h.snoc st
      have hu' : Undisturbed (ks ++ [ShKind.pool .work]) := by
        intro k hk
        rcases List.mem_append.1 hk with hk | hk
        · exact hu k hk
        · rw [List.mem_singleton.1 hk]; decide
      have hb := steps_left h' hu'
      have e1 : (ks ++ [ShKind.pool .work]).countP ShKind.active = ks.countP ShKind.active + 1 := by rw [List.countP_append]; rfl
      have e2 : (ks ++ [ShKind.pool .work]).count (.pool .spurious) = ks.count (.pool .spurious) := by rw [List.count_append]; rfl
      rw [e1, e2] at hb
      dsimp only at hb
      obtain ⟨n, y, rs, g1, g2, g3, g4⟩ := IH _ (by rw [e1, e2]; dsimp only; omega) h' hu' hc rfl
      refine ⟨n + 1, y, rs, ?_, g2, g3, g4⟩
      rw [List.replicate_succ]
      exact (Exec.nil.snoc st).trans g1

/-- The kinds of transitions that `C120_realised` needs. -/
def PevKind.quiet (k : PevKind) : Prop := k.own = true ∨ k = .interrupt

theorem realise_step {threads N : Nat} (hth : 0 < threads) (hMN : M ≤ N) {ks : List ShKind} {s t : RunSt} {x : Users} (h : Users.Reached f threads N ks x) (hu : Undisturbed ks) (ho : Outside M x)
    (hlen : ∀ j ∈ s.running, j < M) (st : RunStep E (asked f ins) s t) :
    ∃ ks' y, Exec (PevStep E f M ins) ks' (s, x) (t, y) ∧ (∀ k ∈ ks', k.quiet) ∧ Outside M y := by
  have main : t.futs ≠ s.futs → ∃ ks' y, Exec (PevStep E f M ins) ks' (s, x) (t, y) ∧ (∀ k ∈ ks', k.quiet) ∧ Outside M y := fun hf =>
    ⟨[.main], x, Exec.nil.snoc (.main (main_any st hf) hf), by simp [PevKind.quiet, PevKind.own], ho⟩
  have served : ∀ {j : Nat} {m : Opt}, j ∈ s.running → s.pool.members[j]? = some m → m.vis.info.dim ≠ 0 →
      ∃ (ks' : List PevKind) (y : Users) (c : Nat) (rs : List (Result Dbl)), Exec (PevStep E f M ins) ks' (s, x) (s, y) ∧ (∀ k ∈ ks', k.quiet) ∧ y.inside[j]? = some (some c) ∧
        y.calls[c]? = some (ins j).pop ∧ y.pool.clients[c]? = some (.returned rs) ∧ rs.map valueOf = (ins j).pop.map (seen f) ∧ Outside M (y.back j) := by
    intro j m hj hm hd
    have hjM := hlen j hj
    have hil := Users.inside_length h
    have hc0 : (x.call j (ins j).pop).calls[x.calls.length]? = some (ins j).pop := by
      show (x.calls ++ [_])[x.calls.length]? = _
      simp
    have hin0 : (x.call j (ins j).pop).inside[j]? = some (some x.calls.length) := List.getElem?_set_self (by omega)
    have h1 := Users.call_step h (by omega) (ho j hjM) (ins j).pop
    have hu1 : Undisturbed (ks ++ [ShKind.enter]) := by
      intro k hk
      rcases List.mem_append.1 hk with hk | hk
      · exact hu k hk
      · rw [List.mem_singleton.1 hk]; decide
    obtain ⟨n, y, rs, g1, g2, g3, g4⟩ := Users.serve hth h1 hu1 hc0
    have lift : ∀ {n : Nat} {x y : Users}, Exec (ShStep (deterministic f) fun _ => anyClient) (List.replicate n (.pool .work)) x y →
        Exec (PevStep E f M ins) (List.replicate n (.work .work)) (s, x) (s, y) := by
      intro n x y hx
      generalize hl : List.replicate n (ShKind.pool .work) = l at hx
      induction hx generalizing n with
      | nil =>
        have : n = 0 := by simpa using congrArg List.length hl
        subst this
        exact .nil
      | @snoc ls a b c k _ st ih =>
        have hn : n = ls.length + 1 := by simpa using congrArg List.length hl
        subst hn
        rw [List.replicate_succ'] at hl ⊢
        obtain ⟨e1, e2⟩ := List.append_inj' hl rfl
        simp only [List.cons.injEq, and_true] at e2
        subst e2
        exact (ih e1).snoc (.work st)
    refine ⟨.call :: List.replicate n (.work .work), y, x.calls.length, rs, (Exec.nil.snoc (.call hj hjM hm hd (ho j hjM))).trans (lift g1), ?_, by rw [g3, hin0], by rw [g2, hc0], g4, ?_, ?_⟩
    · intro k hk
      rcases List.mem_cons.1 hk with rfl | hk
      · exact .inl rfl
      · rw [List.eq_of_mem_replicate hk]; exact .inl rfl
    · exact Users.results (h1.trans g1) (by rw [g2, hc0]) g4
    · intro i hi
      show (y.inside.set j none)[i]? = _
      rw [g3]
      show ((x.inside.set j _).set j none)[i]? = _
      rw [List.set_set]
      by_cases hij : j = i
      · subst hij
        exact List.getElem?_set_self (by omega)
      · rw [List.getElem?_set_ne hij]
        exact ho i hi
  have same : ∀ {j : Nat} {rs : List (Result Dbl)}, rs.map valueOf = (ins j).pop.map (seen f) → ({ ins j with pop := (ins j).pop, res := rs.map valueOf } : In) = asked f ins j := by
    intro j rs h
    unfold asked
    rw [h]
  cases st with
  | @finish j m m' y hj hm hs =>
    have hd : m.vis.info.dim ≠ 0 := by
      intro hd
      unfold Opt.step at hs
      rw [if_pos hd] at hs
      cases hs
    obtain ⟨ks', y, c, rs, g1, g2, g3, g4, g5, g6, g7⟩ := served hj hm hd
    refine ⟨ks' ++ [.back], y.back j, g1.snoc (.finish hj hm g3 g4 g5 (by rw [same g6]; exact hs)), fun k hk => ?_, g7⟩
    rcases List.mem_append.1 hk with hk | hk
    · exact g2 k hk
    · rw [List.mem_singleton.1 hk]; exact .inl rfl
  | @fail j m m' hj hm hs =>
    by_cases hd : m.vis.info.dim = 0
    · have : m = m' := by
        unfold Opt.step at hs
        rw [if_pos hd] at hs
        exact (Prod.mk.inj hs).1
      subst this
      rw [set_get_self hm]
      exact ⟨[.early], x, Exec.nil.snoc (.early hj hm hd (ho j (hlen j hj))), by simp [PevKind.quiet, PevKind.own], ho⟩
    · obtain ⟨ks', y, c, rs, g1, g2, g3, g4, g5, g6, g7⟩ := served hj hm hd
      refine ⟨ks' ++ [.back], y.back j, g1.snoc (.fail hj hm g3 g4 g5 (by rw [same g6]; exact hs)), fun k hk => ?_, g7⟩
      rcases List.mem_append.1 hk with hk | hk
      · exact g2 k hk
      · rw [List.mem_singleton.1 hk]; exact .inl rfl
  | collect h1 => exact main (by rw [h1]; simp)
  | throws h1 => exact main (by rw [h1]; simp)
  | rethrow h1 => exact main (by rw [h1]; simp)
  | interrupt => exact ⟨[.interrupt], x, Exec.nil.snoc .interrupt, by simp [PevKind.quiet], ho⟩

theorem quiet_sh {ks : List PevKind} (h : ∀ k ∈ ks, k.quiet) : Undisturbed (ks.flatMap PevKind.sh) := by
  intro q hq
  obtain ⟨k, hk, hq⟩ := List.mem_flatMap.1 hq
  rintro rfl
  rcases h k hk with h | rfl
  · exact (own_sh h).2.2.2 hq
  · cases hq

theorem undisturbed_append {a b : List ShKind} (ha : Undisturbed a) (hb : Undisturbed b) : Undisturbed (a ++ b) := by
  intro k hk
  rcases List.mem_append.1 hk with hk | hk
  · exact ha k hk
  · exact hb k hk

theorem run_running {ins : Nat → In} {s t : RunSt} (h : RunExec E ins s t) : ∀ j ∈ t.running, j ∈ s.running := by
  induction h with
  | nil => exact fun _ h => h
  | snoc _ st ih =>
    intro j hj
    apply ih
    cases st with
    | finish => exact List.mem_of_mem_erase hj
    | fail => exact List.mem_of_mem_erase hj
    | _ => exact hj

theorem realise {threads N : Nat} (hth : 0 < threads) (hMN : M ≤ N) {ks : List ShKind} {s t : RunSt} {x : Users} (h : Users.Reached f threads N ks x) (hu : Undisturbed ks) (ho : Outside M x)
    (hlen : ∀ j ∈ s.running, j < M) (st : RunExec E (asked f ins) s t) :
    ∃ ks' y, Exec (PevStep E f M ins) ks' (s, x) (t, y) ∧ (∀ k ∈ ks', k.quiet) ∧ Outside M y := by
  induction st with
  | nil => exact ⟨[], x, .nil, by simp, ho⟩
  | snoc ex st ih =>
    obtain ⟨k1, y1, h1, h2, h3⟩ := ih
    obtain ⟨e1, -⟩ := PevStep.exec h1 hMN h (inside_launch ho _) hlen
    obtain ⟨k2, y2, g1, g2, g3⟩ := realise_step hth hMN e1 (undisturbed_append hu (quiet_sh h2)) h3 (fun j hj => hlen j (run_running ex j hj)) st
    refine ⟨k1 ++ k2, y2, h1.trans g1, fun k hk => ?_, g3⟩
    rcases List.mem_append.1 hk with hk | hk
    · exact h2 k hk
    · exact g2 k hk

/-- **C120.** Conversely every step of a pool, in the sense of C37 - C42 and C97 - C98, in which the members get what the objective yields is possible when the members share an evaluator with at least
one thread, whatever was done with it before (as long as nobody has asked for another number of threads). -/
theorem C120_realised {threads N : Nat} (hth : 0 < threads) (hMN : M ≤ N) {ks : List ShKind} {p p' : Pool} {x : Users} {sel run : List Nat} {r : Option Nat} (h : Users.Reached f threads N ks x)
    (hu : Undisturbed ks) (ho : Outside M x) (hp : PoolOk p) (hM : p.members.length ≤ M) (st : Pool.Step E (asked f ins) p sel run p' r) :
    ∃ ks' y, Pool.StepWith E f M ins ks' (p, x) sel run (p', y) r ∧ Users.Reached f threads N (ks ++ ks'.flatMap PevKind.sh) y ∧ Outside M y ∧ Undisturbed (ks ++ ks'.flatMap PevKind.sh) := by
  cases st with
  | mk hd hne h1 h2 h3 hend h4 =>
    have hb := launch_bound hp hM h1 h2
    obtain ⟨ks', y, g1, g2, g3⟩ := realise hth hMN h hu ho hb.1 h3
    have st : Pool.StepWith E f M ins ks' (p, x) _ _ (p', y) r := .mk hd hne h1 h2 g1 hend h4
    exact ⟨ks', y, st, (PevStep.exec g1 hMN h (inside_launch ho _) hb.1).1, g3, undisturbed_append hu (quiet_sh g2)⟩

/-- The function `squareOf`; it fails where that is not defined. -/
def squareObj (x : Pt) : Outcome Dbl := match squareOf x with | some v => .returns (.ok v) | none => .throwsOther

theorem squareObj_seen : seen squareObj = squareOf := by
  funext x
  unfold seen squareObj
  cases squareOf x <;> rfl

/-- Two members that share an evaluator of one thread with another thread, which has called `evaluate`; both members are stepped at the same time, and the pool has found the better of the two points. -/
example : ∃ ks p y, Pool.PlayedWith optEnv squareObj 2 (Opt.Ready optEnv optInfo) (PopWithin False optInfo) (Pool.init { concurrent := 2 } optInfo, Users.init 1 3) ks [[[.fin 1]], [[.fin 2]]] (p, y) ∧
    PevKind.other .enter ∈ ks ∧ p.bestFitness = .ok (.fin 1) ∧ p.bestPoint = .ok [.fin 1] := by
  have hr : ((Opt.new optInfo 0).addCond (.maxSteps 2)).Ready optEnv optInfo := ⟨[.addCond (.maxSteps 2)], rfl, by simp⟩
  let ins : Nat → In := fun i => squareIns (if i = 0 then 1 else 2) i
  have ha : asked squareObj ins = ins := by
    funext i
    unfold asked
    rw [squareObj_seen]
    rfl
  have h1 : ((limPool { concurrent := 2 } 2 2).stepWith optEnv ins [0, 1]).map (fun y => (y.1, y.2.1, y.2.2.2)) = some ([0, 1], [0, 1], none) := by decide +kernel
  have h2 : ((limPool { concurrent := 2 } 2 2).stepWith optEnv ins [0, 1]).map (fun y => (y.2.2.1.bestFitness, y.2.2.1.bestPoint)) = some (.ok (.fin 1), .ok [.fin 1]) := by decide +kernel
  obtain ⟨⟨sel, run, q, r⟩, hx, hy⟩ := Option.map_eq_some_iff.1 h1
  rw [hx] at h2
  simp only [Option.map_some, Option.some.injEq, Prod.mk.injEq] at h2 hy
  obtain ⟨rfl, rfl, rfl⟩ := hy
  obtain ⟨hb, hp⟩ := h2
  have hl : [0, 1].map (fun i => (ins i).pop) = [[[.fin 1]], [[.fin 2]]] := by decide +kernel
  have h0 : Pool.PlayedWith optEnv squareObj 2 (Opt.Ready optEnv optInfo) (PopWithin False optInfo) (Pool.init { concurrent := 2 } optInfo, Users.init 1 3) [] [] (limPool { concurrent := 2 } 2 2, Users.init 1 3) :=
    (Pool.PlayedWith.nil.push hr (by decide)).push hr (by decide)
  have h2 := h0.other (k := .enter) (y := (Users.init 1 3).call 2 [[.fin 5]]) (.enter (j := 2) (s := ()) rfl rfl trivial) (.inl rfl) (fun j hj => by
    have : j = 0 ∨ j = 1 := by omega
    rcases this with rfl | rfl <;> rfl)
  obtain ⟨⟨is, e1, e2⟩, e3, e4, e5⟩ := C120_played _ _ (by decide) h2
  obtain ⟨ls, hh⟩ := played_hist e2
  have st := stepWith_sound hx
  rw [← ha] at st
  obtain ⟨ks', y, g1, -⟩ := C120_realised (f := squareObj) (M := 2) (threads := 1) (N := 3) (by decide) (by decide) e3 (by
    intro k hk
    simp [PevKind.sh] at hk
    rw [hk]; decide) e4 (hist_ok _ _ hh) e5 st
  have h3 := h2.step g1 (Q := PopWithin False optInfo) fun i hi => by
    have : (ins i).Plays False squareOf optInfo := by
      show (squareIns (if i = 0 then 1 else 2) i).Plays False squareOf optInfo
      split <;> exact squareIns_plays _ (by decide +kernel) (by decide +kernel) (by decide +kernel) _
    exact ⟨this.1, this.2.1⟩
  rw [hl] at h3
  exact ⟨_, q, y, h3, by simp, hb, hp⟩

/-- Both members are started, and whatever the threads do (here, the other thread calls `evaluate` in between), the step can end. -/
example : ∃ r, (limPool { concurrent := 2 } 2 2).Launched optEnv r ∧ r.running = [0, 1] ∧
    ∃ more t y, (∀ k ∈ more, k.own = true) ∧ Exec (PevStep optEnv squareObj 2 (squareIns 3)) ([.other .enter] ++ more) (r, Users.init 1 3) (t, y) ∧ t.running = [] ∧ t.futs = [] := by
  have hr : ((Opt.new optInfo 0).addCond (.maxSteps 2)).Ready optEnv optInfo := ⟨[.addCond (.maxSteps 2)], rfl, by simp⟩
  have h1 : (refillWith optEnv [0, 1] (((limPool { concurrent := 2 } 2 2).signal .start).signal .preStep)).map (fun y => y.2.launch.futs) = some [0, 1] := by decide +kernel
  obtain ⟨⟨sel, p₂⟩, hx, hy⟩ := Option.map_eq_some_iff.1 h1
  dsimp only at hy
  have h0 : Pool.PlayedWith optEnv squareObj 2 (Opt.Ready optEnv optInfo) (PopWithin False optInfo) (Pool.init { concurrent := 2 } optInfo, Users.init 1 3) [] [] (limPool { concurrent := 2 } 2 2, Users.init 1 3) :=
    (Pool.PlayedWith.nil.push hr (by decide)).push hr (by decide)
  have hl : (limPool { concurrent := 2 } 2 2).Launched optEnv p₂.launch := ⟨_, sel, p₂, by rw [if_pos (by decide)], refillWith_sound hx, rfl⟩
  refine ⟨p₂.launch, hl, hy, ?_⟩
  refine C120_ends (threads := 1) (N := 3) _ _ (by decide) (fun x => ?_) (by decide) (by decide) h0 hl (fun i _ => ?_)
    (Exec.nil.snoc (.other (k := .enter) (y := (Users.init 1 3).call 2 [[.fin 5]]) (.enter (j := 2) (s := ()) rfl rfl trivial) (.inl rfl) (fun j hj => by
      have : j = 0 ∨ j = 1 := by omega
      rcases this with rfl | rfl <;> rfl))) (fun k hk => ?_)
  · intro h; rw [← seen_some, squareObj_seen] at h; revert h
    unfold squareOf
    split <;> simp
  · have : (squareIns 3 i).Plays False squareOf optInfo := squareIns_plays _ (by decide +kernel) (by decide +kernel) (by decide +kernel) _
    exact ⟨this.1, this.2.1⟩
  · simp [PevKind.sh] at hk
    rw [hk]; decide

end Spot
