import Verif.Lemmas.SharedPool
import Mathlib.Algebra.BigOperators.Group.Finset.Basic
import Mathlib.Algebra.Order.BigOperators.Group.Finset

/-!
# C114: optimizers that share an evaluator
-/

namespace Spot.Evaluators

variable {α F S : Type}

/-- What a client can do that has a `sequential_evaluator` (spot/evaluator.cpp:17-26) for itself, with the populations it has asked to be evaluated. -/
inductive Alone (o : Objective α F) (C : Client S α F) (s₀ : S) : List (List α) → S → Prop
  | start : Alone o C s₀ [] s₀
  | next {ls s ps rs evs t} (h : Alone o C s₀ ls s) (ha : C.ask s ps) (hs : Sequential o ps rs evs) (ht : C.tell s ps rs t) : Alone o C s₀ (ls ++ [ps]) t

/-- Results that are possible in any order are possible one after another. -/
theorem sequential_of {o : Objective α F} {ps : List α} {rs : List (Result F)} (hl : rs.length = ps.length)
    (h : ∀ (i : Nat) (p : α), ps[i]? = some p → ∃ r, rs[i]? = some r ∧ ∃ out, o p out ∧ r = evaluateNoexcept out) : ∃ evs, Sequential o ps rs evs := by
  induction ps generalizing rs with
  | nil =>
    have : rs = [] := List.length_eq_zero_iff.mp (by simpa using hl)
    subst this; exact ⟨[], .nil⟩
  | cons p ps ih =>
    cases rs with
    | nil => simp at hl
    | cons r rs =>
      obtain ⟨r', hr', out, ho, he⟩ := h 0 p rfl
      simp only [List.getElem?_cons_zero, Option.some.injEq] at hr'
      subst hr'
      obtain ⟨evs, hevs⟩ := ih (rs := rs) (by simpa using hl) (fun i q hq => by simpa using h (i + 1) q (by simpa using hq))
      subst he
      exact ⟨_, .cons ho hevs⟩

/-- What is known of all threads, whatever happened. `hs j` are the populations client `j` has got results for. -/
structure ShInv (o : Objective α F) (C : Nat → Client S α F) (n : Nat) (starts : List S) (x : Sh S α F) (hs : Nat → List (List α)) : Prop where
  slen : x.states.length = starts.length
  ilen : x.inside.length = starts.length
  exec : ∃ ks, Exec (PStep o x.calls) ks (PSt.init F n x.calls.length) x.pool
  alone : ∀ (j : Nat) s₀ s, starts[j]? = some s₀ → x.states[j]? = some s → Alone o (C j) s₀ (hs j) s
  call : ∀ (j c : Nat) s, x.states[j]? = some s → x.inside[j]? = some (some c) → ∃ ps, x.calls[c]? = some ps ∧ (C j).ask s ps
  asked : ∀ ps ∈ x.calls, ∃ (j : Nat) (s₀ : S) (ls : List (List α)) (s : S), starts[j]? = some s₀ ∧ Alone o (C j) s₀ ls s ∧ (C j).ask s ps
  made : CPc.idle ∉ x.pool.clients
  load : ∑ j ∈ Finset.range starts.length, ((hs j).length + (if (x.inside[j]?.join).isSome then 1 else 0)) = x.calls.length

theorem PInv.of_exec {o : Objective α F} {pts : List (List α)} {n : Nat} {s : PSt F}
    (h : ∃ ks, Exec (PStep o pts) ks (PSt.init F n pts.length) s) : PInv o pts s := by
  obtain ⟨ks, h⟩ := h; exact PInv.reach h rfl

theorem sum_step {N j : Nat} {f g : Nat → Nat} (hj : j < N) (h : g j = f j + 1) (hne : ∀ i, i ≠ j → g i = f i) :
    ∑ i ∈ Finset.range N, g i = ∑ i ∈ Finset.range N, f i + 1 := by
  rw [← Finset.add_sum_erase _ g (Finset.mem_range.mpr hj), ← Finset.add_sum_erase _ f (Finset.mem_range.mpr hj), h]
  rw [Finset.sum_congr rfl (fun i hi => hne i (Finset.ne_of_mem_erase hi))]
  exact Nat.add_right_comm _ _ _

theorem lt_of_get {β : Type} {l : List β} {i : Nat} {a : β} (h : l[i]? = some a) : i < l.length := by
  by_contra hc; rw [List.getElem?_eq_none (by omega)] at h; simp at h

theorem PStep.not_idle {o : Objective α F} {pts : List (List α)} {k : PKind} {s t : PSt F} (h : PStep o pts k s t) (hi : CPc.idle ∉ s.clients) :
    CPc.idle ∉ t.clients := by
  have key : ∀ {c : Nat} {pc : CPc F}, pc ≠ .idle → CPc.idle ∉ s.clients.set c pc := by
    intro c pc hne hm
    rcases List.mem_or_eq_of_mem_set hm with h | h
    · exact hi h
    · exact hne h.symm
  cases h <;> first | exact hi | exact key (by simp)

theorem ShInv.step {o : Objective α F} {C : Nat → Client S α F} {n : Nat} {starts : List S} {x y : Sh S α F} {hs : Nat → List (List α)} {k : ShKind}
    (I : ShInv o C n starts x hs) (st : ShStep o C k x y) : ∃ hs', ShInv o C n starts y hs' := by
  cases st with
  | @enter _ j s ps hj hi ha =>
    have hjl : j < starts.length := by rw [← I.slen]; exact lt_of_get hj
    have P := PInv.of_exec I.exec
    refine ⟨hs, { slen := I.slen, ilen := by simpa using I.ilen, exec := ?_, alone := I.alone, call := ?_, asked := ?_, made := by simpa using I.made, load := ?_ }⟩
    · obtain ⟨ks, hx⟩ := I.exec
      have h1 := hx.more ps
      have hget : x.pool.more.clients[x.calls.length]? = some .idle := by
        simp only [PSt.more]
        rw [← P.clen]; simp
      have h2 := h1.snoc (PStep.call (o := o) (pts := x.calls ++ [ps]) hget)
      refine ⟨ks ++ [.call], ?_⟩
      · have he : ({ x.pool.more with clients := x.pool.more.clients.set x.calls.length .lock } : PSt F) =
            { x.pool with clients := x.pool.clients ++ [.lock] } := by
          simp only [PSt.more]
          rw [← P.clen]; simp
        rw [he] at h2
        exact h2
    · intro j' c s' hj' hi'
      by_cases hjj : j' = j
      · subst hjj
        rw [hj] at hj'; simp only [Option.some.injEq] at hj'; subst hj'
        simp only at hi'
        rw [List.getElem?_set_self (by rw [I.ilen]; exact hjl)] at hi'
        simp only [Option.some.injEq] at hi'
        subst hi'
        exact ⟨ps, by simp, ha⟩
      · simp only at hi'
        rw [List.getElem?_set_ne (Ne.symm hjj)] at hi'
        obtain ⟨qs, h1, h2⟩ := I.call j' c s' hj' hi'
        exact ⟨qs, getElem?_append_some h1, h2⟩
    · intro qs hq
      simp only [List.mem_append, List.mem_singleton] at hq
      rcases hq with hq | rfl
      · exact I.asked qs hq
      · exact ⟨j, starts[j], hs j, s, List.getElem?_eq_getElem hjl, I.alone j _ _ (List.getElem?_eq_getElem hjl) hj, ha⟩
    · simp only [List.length_append, List.length_singleton]
      rw [← I.load]
      apply sum_step hjl
      · rw [List.getElem?_set_self (by rw [I.ilen]; exact hjl), hi]; simp
      · intro i hne
        rw [List.getElem?_set_ne (Ne.symm hne)]
  | @leave _ j c s t ps rs hj hi hp hr ht =>
    have hjl : j < starts.length := by rw [← I.slen]; exact lt_of_get hj
    obtain ⟨qs, hq, ha⟩ := I.call j c s hj hi
    rw [hp] at hq; simp only [Option.some.injEq] at hq; subst hq
    obtain ⟨ks, hx⟩ := I.exec
    obtain ⟨hl, hev⟩ := C35_own_results hx hr hp
    obtain ⟨evs, hseq⟩ := sequential_of hl (fun i p hpi => by
      obtain ⟨r, h1, out, h2, _, h4⟩ := hev i p hpi
      exact ⟨r, h1, out, h2, h4⟩)
    refine ⟨Function.update hs j (hs j ++ [ps]),
      { slen := by simpa using I.slen, ilen := by simpa using I.ilen, exec := I.exec, alone := ?_, call := ?_, asked := I.asked, made := I.made, load := ?_ }⟩
    · intro j' s₀ s' h0 hj'
      by_cases hjj : j' = j
      · subst hjj
        simp only at hj'
        rw [List.getElem?_set_self (by rw [I.slen]; exact hjl)] at hj'
        simp only [Option.some.injEq] at hj'
        subst hj'
        rw [Function.update_self]
        exact .next (I.alone _ _ _ h0 hj) ha hseq ht
      · simp only at hj'
        rw [List.getElem?_set_ne (Ne.symm hjj)] at hj'
        rw [Function.update_of_ne hjj]
        exact I.alone _ _ _ h0 hj'
    · intro j' c' s' hj' hi'
      by_cases hjj : j' = j
      · subst hjj
        simp only at hi'
        rw [List.getElem?_set_self (by rw [I.ilen]; exact hjl)] at hi'
        simp at hi'
      · simp only at hi' hj'
        rw [List.getElem?_set_ne (Ne.symm hjj)] at hi' hj'
        exact I.call _ _ _ hj' hi'
    · rw [← I.load]
      apply Finset.sum_congr rfl
      intro i _
      by_cases hij : i = j
      · subst hij
        simp only
        rw [List.getElem?_set_self (by rw [I.ilen]; exact hjl), hi, Function.update_self]
        simp
      · simp only
        rw [List.getElem?_set_ne (Ne.symm hij), Function.update_of_ne hij]
  | @pool _ k p hk h =>
    obtain ⟨ks, hx⟩ := I.exec
    exact ⟨hs, { I with exec := ⟨_, hx.snoc h⟩, made := h.not_idle I.made }⟩

theorem ShInv.init (o : Objective α F) (C : Nat → Client S α F) (n : Nat) (starts : List S) :
    ShInv o C n starts (Sh.init α F n starts) (fun _ => []) where
  slen := rfl
  ilen := by simp [Sh.init]
  exec := ⟨[], .nil⟩
  alone := by
    intro j s₀ s h0 hs
    have : some s₀ = some s := by rw [← h0, ← hs]; rfl
    simp only [Option.some.injEq] at this
    subst this
    exact .start
  call := by
    intro j c s _ hi
    simp only [Sh.init, List.getElem?_map] at hi
    cases h : starts[j]? <;> rw [h] at hi <;> simp at hi
  asked := by simp [Sh.init]
  made := by simp [Sh.init, PSt.init]
  load := by
    apply Finset.sum_eq_zero
    intro j _
    simp only [Sh.init, List.getElem?_map]
    cases starts[j]? <;> simp

theorem ShInv.reach {o : Objective α F} {C : Nat → Client S α F} {n : Nat} {starts : List S} {ks} {x : Sh S α F}
    (h : Exec (ShStep o C) ks (Sh.init α F n starts) x) : ∃ hs, ShInv o C n starts x hs := by
  generalize hy : Sh.init α F n starts = y at h
  induction h with
  | nil => subst hy; exact ⟨_, ShInv.init o C n starts⟩
  | snoc _ st ih => obtain ⟨hs, I⟩ := ih hy; exact I.step st

/-- **C114.** Whatever the schedule, the other clients and the number of threads, also if it is changed meanwhile: what a client that shares an evaluator has done is something it can do with
a `sequential_evaluator` of its own. -/
theorem C114_same {o : Objective α F} {C : Nat → Client S α F} {n : Nat} {starts : List S} {ks} {x : Sh S α F}
    (h : Exec (ShStep o C) ks (Sh.init α F n starts) x) {j : Nat} {s₀ : S} (h0 : starts[j]? = some s₀) :
    ∃ s ls, x.states[j]? = some s ∧ Alone o (C j) s₀ ls s := by
  obtain ⟨hs, I⟩ := ShInv.reach h
  have hj : j < x.states.length := by rw [I.slen]; exact lt_of_get h0
  exact ⟨_, _, List.getElem?_eq_getElem hj, I.alone j _ _ h0 (List.getElem?_eq_getElem hj)⟩

/-- The steps other than spurious wake-ups. -/
def ShKind.active : ShKind → Bool
  | .pool .spurious => false
  | _ => true

/-- Nobody has asked for another number of threads or for the end of the evaluator. -/
def Undisturbed (ks : List ShKind) : Prop := ∀ k ∈ ks, k ≠ .pool .request

theorem undisturbed_ctl {o : Objective α F} {C : Nat → Client S α F} {n : Nat} {starts : List S} {ks} {x : Sh S α F}
    (h : Exec (ShStep o C) ks (Sh.init α F n starts) x) (hu : Undisturbed ks) : x.pool.ctl = .idle ∧ x.pool.workers.length = n := by
  generalize hy : Sh.init α F n starts = y at h
  induction h with
  | nil => subst hy; simp [Sh.init, PSt.init]
  | @snoc ls s t u l ex st ih =>
    obtain ⟨h1, h2⟩ := ih (fun k hk => hu k (by simp [hk])) hy
    have hl := hu l (by simp)
    cases st with
    | enter => exact ⟨h1, h2⟩
    | leave => exact ⟨h1, h2⟩
    | pool hk st => cases st <;> simp_all [wakeAll_length]

theorem sum_zipWith_append {β γ : Type} (f : β → γ → Nat) {l : List β} {m : List γ} (h : l.length = m.length) (a : β) (b : γ) :
    (List.zipWith f (l ++ [a]) (m ++ [b])).sum = (List.zipWith f l m).sum + f a b := by
  rw [List.zipWith_append h]; simp

/-- The number of steps that can be attributed to a call. -/
def callCost (n : Nat) (ps : List α) : Nat := 6 * ps.length + 3 * n + 6

theorem steps_left {o : Objective α F} {C : Nat → Client S α F} {n : Nat} {starts : List S} {ks} {x : Sh S α F}
    (h : Exec (ShStep o C) ks (Sh.init α F n starts) x) (hu : Undisturbed ks) :
    x.pool.left n x.calls + ks.countP ShKind.active + x.inside.countP Option.isSome ≤
      3 * n + (x.calls.map (callCost n)).sum + 3 * ks.count (.pool .spurious) := by
  generalize hy : Sh.init α F n starts = y at h
  induction h with
  | nil =>
    subst hy
    have h0 : (List.replicate starts.length (none : Option Nat)).countP Option.isSome = 0 := by
      rw [List.countP_eq_zero]; intro a ha; rw [List.eq_of_mem_replicate ha]; simp
    simp [Sh.init, PSt.init, PSt.left, WPc.left, KPc.left, h0]
    omega
  | @snoc ls s t u l ex st ih =>
    have hu' : Undisturbed ls := fun k hk => hu k (by simp [hk])
    replace ih := ih hu' hy
    subst hy
    obtain ⟨hs, I⟩ := ShInv.reach ex
    have P := PInv.of_exec I.exec
    have hl := hu l (by simp)
    obtain ⟨hc, hw⟩ := undisturbed_ctl ex hu'
    cases st with
    | @enter _ j s ps hj hi ha =>
      have h1 := countP_set_add (Option.isSome (α := Nat)) (b := some t.calls.length) hi
      have h2 := sum_zipWith_append (fun (pc : CPc F) (ps : List α) => CPc.left n ps.length pc) P.clen CPc.lock ps
      simp only [PSt.left] at ih ⊢
      rw [h2]
      simp [callCost, CPc.left, List.countP_append, List.count_append, ShKind.active] at h1 ih ⊢
      omega
    | @leave _ j c s t' ps rs hj hi hp hr ht =>
      have h1 := countP_set_add (Option.isSome (α := Nat)) (b := none) hi
      simp [List.countP_append, List.count_append, ShKind.active] at h1 ih ⊢
      omega
    | @pool _ k p hk st =>
      have hk2 : k ≠ .request := fun hh => hl (by rw [hh])
      obtain ⟨ks', hx⟩ := I.exec
      have h1 := (left_pstep (B := n) st P ⟨hk, hk2⟩ (by omega) (by rw [hc]; trivial) (XInv.reach hx rfl).started).1
      cases k <;> simp [List.countP_append, List.count_append, ShKind.active, PKind.cost] at h1 hk hk2 ih ⊢ <;> omega

/-- **C114.** If every client asks at most `K` times for at most `L` evaluations when it is alone, the number of steps is bounded (waiting threads may wake up for no reason any number of times;
otherwise they sleep). So all clients make progress until nothing can be done any more. -/
theorem C114_finite {o : Objective α F} {C : Nat → Client S α F} {n : Nat} {starts : List S} {ks} {x : Sh S α F} {K L : Nat}
    (h : Exec (ShStep o C) ks (Sh.init α F n starts) x) (hu : Undisturbed ks)
    (hK : ∀ (j : Nat) s₀, starts[j]? = some s₀ → ∀ ls s ps, Alone o (C j) s₀ ls s → (C j).ask s ps → ls.length < K ∧ ps.length ≤ L) :
    ks.countP ShKind.active ≤ 3 * n + starts.length * K * (6 * L + 3 * n + 6) + 3 * ks.count (.pool .spurious) := by
  have h1 := steps_left h hu
  obtain ⟨hs, I⟩ := ShInv.reach h
  have h2 : (x.calls.map (callCost n)).sum ≤ x.calls.length * (6 * L + 3 * n + 6) := by
    have hall : ∀ ps ∈ x.calls, callCost n ps ≤ 6 * L + 3 * n + 6 := by
      intro ps hps
      obtain ⟨j, s₀, ls, s, h0, ha, hask⟩ := I.asked ps hps
      have := (hK j s₀ h0 ls s ps ha hask).2
      unfold callCost; omega
    clear h1
    generalize x.calls = l at hall
    induction l with
    | nil => simp
    | cons a l ih =>
      have h1 := hall a (by simp)
      have h2 := ih (fun ps hps => hall ps (by simp [hps]))
      simp only [List.map_cons, List.sum_cons, List.length_cons, Nat.add_mul]
      omega
  have h3 : x.calls.length ≤ starts.length * K := by
    rw [← I.load]
    have hle : ∀ j ∈ Finset.range starts.length, ((hs j).length + (if (x.inside[j]?.join).isSome then 1 else 0)) ≤ K := by
      intro j hj
      have hjl := Finset.mem_range.mp hj
      obtain ⟨s0, h0⟩ : ∃ s0, starts[j]? = some s0 := ⟨_, List.getElem?_eq_getElem hjl⟩
      obtain ⟨sj, hst⟩ : ∃ sj, x.states[j]? = some sj := ⟨_, List.getElem?_eq_getElem (by rw [I.slen]; exact hjl)⟩
      have ha := I.alone j _ _ h0 hst
      cases hin : x.inside[j]?.join with
      | none =>
        simp only [Option.isSome_none, Bool.false_eq_true, if_false]
        generalize hs j = hj' at ha
        cases ha with
        | start => simp
        | next h ha' hs' ht =>
          have := (hK j _ h0 _ _ _ h ha').1
          simp; omega
      | some c =>
        have hin' : x.inside[j]? = some (some c) := by
          cases hh : x.inside[j]? with
          | none => rw [hh] at hin; simp at hin
          | some a => rw [hh] at hin; simp at hin; rw [hin]
        obtain ⟨ps, _, hask⟩ := I.call j c _ hst hin'
        have := (hK j _ h0 _ _ _ ha hask).1
        simp; omega
    have := Finset.sum_le_card_nsmul _ _ _ hle
    simpa using this
  have h4 : x.calls.length * (6 * L + 3 * n + 6) ≤ starts.length * K * (6 * L + 3 * n + 6) := Nat.mul_le_mul_right _ h3
  omega

/-- **C114.** If there is at least one worker thread, evaluations end and clients can go on with what they get, then nobody waits for ever: in a state in which nothing can happen (except that a
waiting thread wakes up for no reason) every client is finished. -/
theorem C114_no_deadlock {o : Objective α F} (ho : ∀ p, ∃ out, o p out) {C : Nat → Client S α F} {n : Nat} (hn : 0 < n) {starts : List S} {ks} {x : Sh S α F}
    (h : Exec (ShStep o C) ks (Sh.init α F n starts) x) (hu : Undisturbed ks)
    (hC : ∀ (j : Nat) s₀, starts[j]? = some s₀ → ∀ ls s ps rs evs, Alone o (C j) s₀ ls s → (C j).ask s ps → Sequential o ps rs evs → ∃ t, (C j).tell s ps rs t)
    (hno : ∀ k y, ShStep o C k x y → k = .pool .spurious ∨ k = .pool .request) {j : Nat} {s : S} (hj : x.states[j]? = some s) :
    x.inside[j]? = some none ∧ ∀ ps, ¬ (C j).ask s ps := by
  obtain ⟨hs, I⟩ := ShInv.reach h
  obtain ⟨hc, hw⟩ := undisturbed_ctl h hu
  obtain ⟨ks', hx⟩ := I.exec
  have P := PInv.of_exec I.exec
  have hjl : j < starts.length := by rw [← I.slen]; exact lt_of_get hj
  have h0 := List.getElem?_eq_getElem hjl
  have hjn : ∃ v, x.inside[j]? = some v := ⟨_, List.getElem?_eq_getElem (by rw [I.ilen]; exact hjl)⟩
  obtain ⟨v, hv⟩ := hjn
  cases v with
  | none =>
    refine ⟨hv, fun ps ha => ?_⟩
    rcases hno _ _ (.enter hj hv ha) with hk | hk <;> simp at hk
  | some c =>
    exfalso
    obtain ⟨ps, hps, ha⟩ := I.call j c s hj hv
    have hcl : c < x.pool.clients.length := by rw [P.clen]; exact lt_of_get hps
    have hpc := List.getElem?_eq_getElem hcl
    by_cases hidle : x.pool.clients[c] = .idle
    · exact I.made (hidle ▸ List.getElem_mem hcl)
    · by_cases hret : ∃ rs, x.pool.clients[c] = .returned rs
      · obtain ⟨rs, hret⟩ := hret
        rw [hret] at hpc
        obtain ⟨hl, hev⟩ := C35_own_results hx hpc hps
        obtain ⟨evs, hseq⟩ := sequential_of hl (fun i p hpi => by
          obtain ⟨r, h1, out, h2, _, h4⟩ := hev i p hpi
          exact ⟨r, h1, out, h2, h4⟩)
        obtain ⟨t, ht⟩ := hC j _ h0 _ _ _ _ _ (I.alone j _ _ h0 hj) ha hseq
        rcases hno _ _ (.leave hj hv hps hpc ht) with hk | hk <;> simp at hk
      · obtain ⟨t, st⟩ := C36_no_deadlock ho hx hc (by intro hh; rw [hh] at hw; simp at hw; omega) hpc ⟨hidle, fun rs hr => hret ⟨rs, hr⟩⟩
        rcases hno _ _ (.pool (by simp) st) with hk | hk <;> simp at hk

/-- **C114.** So from every state the clients can be brought to an end: any schedule that goes on as long as something can be done does it. -/
theorem C114_completes {o : Objective α F} {C : Nat → Client S α F} {n : Nat} {starts : List S} {ks} {x : Sh S α F} {K L : Nat}
    (h : Exec (ShStep o C) ks (Sh.init α F n starts) x) (hu : Undisturbed ks)
    (hK : ∀ (j : Nat) s₀, starts[j]? = some s₀ → ∀ ls s ps, Alone o (C j) s₀ ls s → (C j).ask s ps → ls.length < K ∧ ps.length ≤ L) :
    ∃ ks' y, Exec (ShStep o C) ks' x y ∧ Undisturbed (ks ++ ks') ∧ ∀ k z, ShStep o C k y z → k = .pool .spurious ∨ k = .pool .request := by
  by_contra hc
  push Not at hc
  have key : ∀ m, ∃ ks' y, Exec (ShStep o C) ks' x y ∧ Undisturbed (ks ++ ks') ∧ m ≤ ks'.countP ShKind.active ∧ ks'.count (.pool .spurious) = 0 := by
    intro m
    induction m with
    | zero => exact ⟨[], x, .nil, by simpa using hu, by simp, by simp⟩
    | succ m ih =>
      obtain ⟨ks', y, h1, h2, h3, h4⟩ := ih
      obtain ⟨k, z, st, hk1, hk2⟩ := hc ks' y h1 h2
      refine ⟨ks' ++ [k], z, h1.snoc st, ?_, ?_, ?_⟩
      · intro l hl
        rw [← List.append_assoc, List.mem_append, List.mem_singleton] at hl
        rcases hl with hl | rfl
        · exact h2 l hl
        · exact hk2
      · have : k.active = true := by
          cases k with
          | pool k => cases k <;> simp_all [ShKind.active]
          | _ => rfl
        simp [List.countP_append, this]; omega
      · simp [List.count_append, h4, hk1]
  obtain ⟨ks', y, h1, h2, h3, h4⟩ := key (3 * n + starts.length * K * (6 * L + 3 * n + 6) + 3 * ks.count (.pool .spurious) + 1)
  have := C114_finite (h.trans h1) h2 hK
  rw [List.countP_append, List.count_append] at this
  omega

/-! ## Evaluators whose calls share nothing -/

/-- What a call returns is possible with a `sequential_evaluator`, and a call that has not returned goes on. -/
structure LocalEval.Sound (V : LocalEval α F) (o : Objective α F) : Prop where
  correct : ∀ {ps l rs}, Relation.ReflTransGen (V.step ps) (V.init ps) l → V.result l rs → ∃ evs, Sequential o ps rs evs
  progress : ∀ {ps l}, Relation.ReflTransGen (V.step ps) (V.init ps) l → (∃ rs, V.result l rs) ∨ ∃ m, V.step ps l m

theorem sequential_append {o : Objective α F} {ps qs : List α} {rs ss evs fvs} (h : Sequential o ps rs evs) (h' : Sequential o qs ss fvs) :
    Sequential o (ps ++ qs) (rs ++ ss) (evs ++ fvs) := by
  induction h with
  | nil => exact h'
  | cons h _ ih => exact .cons h ih

theorem sequentialEval_sound {o : Objective α F} (ho : ∀ p, ∃ out, o p out) : (sequentialEval o).Sound o := by
  have key : ∀ {ps : List α} {l : List α × List (Result F)}, Relation.ReflTransGen ((sequentialEval o).step ps) ((sequentialEval o).init ps) l →
      ∃ qs evs, ps = qs ++ l.1 ∧ Sequential o qs l.2 evs := by
    intro ps l h
    induction h with
    | refl => exact ⟨[], [], rfl, .nil⟩
    | @tail b c _ st ih =>
      obtain ⟨qs, evs, h1, h2⟩ := ih
      obtain ⟨p, out, hp, h3, h4⟩ := st
      refine ⟨qs ++ [p], evs ++ [(p, out)], by rw [h1, h3]; simp, ?_⟩
      rw [h4]
      exact sequential_append h2 (.cons hp .nil)
  constructor
  · intro ps l rs h hr
    obtain ⟨qs, evs, h1, h2⟩ := key h
    cases (hr : l = ([], rs))
    rw [List.append_nil] at h1
    subst h1
    exact ⟨_, h2⟩
  · intro ps l h
    obtain ⟨as, bs⟩ := l
    cases as with
    | nil => exact .inl ⟨bs, rfl⟩
    | cons a as =>
      obtain ⟨out, hp⟩ := ho a
      exact .inr ⟨(as, bs ++ [evaluateNoexcept out]), a, out, hp, rfl, rfl⟩

theorem batchEval_sound {o : Objective α F} (ho : ∀ p, ∃ out, o p out) : (batchEval o).Sound o := by
  constructor
  · rintro ps l rs h ⟨h1, rfl⟩
    obtain ⟨g1, g2, -⟩ := C33_batch h h1
    refine sequential_of g1 fun i p hp => ?_
    obtain ⟨r, hr, out, h2, _, h4⟩ := g2 i p hp
    exact ⟨r, hr, out, h2, h4⟩
  · intro ps l h
    by_cases hr : l.pc = .returned
    · exact .inl ⟨_, hr, rfl⟩
    · exact .inr ((C33_batch_returns ho ps).1 l h hr)

theorem exec_of_steps {L T : Type} {R : L → T → T → Prop} {s t : T} (h : Relation.ReflTransGen (fun a b => ∃ k, R k a b) s t) : ∃ ks, Exec R ks s t := by
  induction h with
  | refl => exact ⟨[], .nil⟩
  | tail _ st ih => obtain ⟨ks, ih⟩ := ih; obtain ⟨k, st⟩ := st; exact ⟨_, ih.snoc st⟩

theorem asyncEval_sound {o : Objective α F} (ho : ∀ p, ∃ out, o p out) {tc : Nat} (htc : 0 < tc) : (asyncEval o tc).Sound o := by
  constructor
  · rintro ps l rs h ⟨h1, h2⟩
    obtain ⟨ks, hx⟩ := exec_of_steps h
    obtain ⟨rs', g0, g1, g2, -⟩ := C33_async hx h1
    have : rs = rs' := List.map_injective_iff.2 (Option.some_injective _) (h2.symm.trans g0)
    subst this
    refine sequential_of g1 fun i p hp => ?_
    obtain ⟨r, hr, out, h2, _, h4⟩ := g2 i p hp
    exact ⟨r, hr, out, h2, h4⟩
  · intro ps l h
    obtain ⟨ks, hx⟩ := exec_of_steps h
    by_cases hr : l.pc = .returned
    · obtain ⟨rs, g0, -⟩ := C33_async hx hr
      exact .inl ⟨rs, hr, g0⟩
    · obtain ⟨k, t, _, st⟩ := C34_progress ho htc hx hr
      exact .inr ⟨t, k, st⟩

structure LInvar (o : Objective α F) {V : LocalEval α F} (C : Nat → Client S α F) (starts : List S) (x : LSh S V) : Prop where
  slen : x.states.length = starts.length
  ilen : x.inside.length = starts.length
  alone : ∀ (j : Nat) s₀ s, starts[j]? = some s₀ → x.states[j]? = some s → ∃ ls, Alone o (C j) s₀ ls s
  call : ∀ (j : Nat) s ps l, x.states[j]? = some s → x.inside[j]? = some (some (ps, l)) → (C j).ask s ps ∧ Relation.ReflTransGen (V.step ps) (V.init ps) l

theorem LInvar.reach {o : Objective α F} {V : LocalEval α F} (hV : V.Sound o) {C : Nat → Client S α F} {starts : List S} {x : LSh S V}
    (h : Relation.ReflTransGen (LStep C) (LSh.init V starts) x) : LInvar o C starts x := by
  induction h with
  | refl =>
    refine ⟨rfl, by simp [LSh.init], ?_, ?_⟩
    · intro j s₀ s h0 hs
      have : some s₀ = some s := by rw [← h0, ← hs]; rfl
      simp only [Option.some.injEq] at this
      subst this
      exact ⟨[], .start⟩
    · intro j s ps l _ hi
      simp only [LSh.init, List.getElem?_map] at hi
      cases h : starts[j]? <;> rw [h] at hi <;> simp at hi
  | @tail x y _ st I =>
    cases st with
    | @enter j s ps hj hi ha =>
      have hjl : j < x.inside.length := lt_of_get hi
      refine ⟨I.slen, by simpa using I.ilen, I.alone, ?_⟩
      intro j' s' qs l hj' hi'
      by_cases hjj : j' = j
      · subst hjj
        rw [hj] at hj'; simp only [Option.some.injEq] at hj'; subst hj'
        simp only at hi'
        rw [List.getElem?_set_self hjl] at hi'
        simp only [Option.some.injEq, Prod.mk.injEq] at hi'
        obtain ⟨rfl, rfl⟩ := hi'
        exact ⟨ha, .refl⟩
      · simp only at hi'
        rw [List.getElem?_set_ne (Ne.symm hjj)] at hi'
        exact I.call _ _ _ _ hj' hi'
    | @work j ps l m hi h =>
      have hjl : j < x.inside.length := lt_of_get hi
      refine ⟨I.slen, by simpa using I.ilen, I.alone, ?_⟩
      intro j' s' qs l' hj' hi'
      by_cases hjj : j' = j
      · subst hjj
        simp only at hi'
        rw [List.getElem?_set_self hjl] at hi'
        simp only [Option.some.injEq, Prod.mk.injEq] at hi'
        obtain ⟨rfl, rfl⟩ := hi'
        obtain ⟨g1, g2⟩ := I.call _ _ _ _ hj' hi
        exact ⟨g1, g2.tail h⟩
      · simp only at hi'
        rw [List.getElem?_set_ne (Ne.symm hjj)] at hi'
        exact I.call _ _ _ _ hj' hi'
    | @leave j s t ps l rs hj hi hr ht =>
      have hjl : j < x.inside.length := lt_of_get hi
      have hjs : j < x.states.length := lt_of_get hj
      obtain ⟨g1, g2⟩ := I.call _ _ _ _ hj hi
      obtain ⟨evs, hseq⟩ := hV.correct g2 hr
      refine ⟨by simpa using I.slen, by simpa using I.ilen, ?_, ?_⟩
      · intro j' s₀ s' h0 hj'
        by_cases hjj : j' = j
        · subst hjj
          simp only at hj'
          rw [List.getElem?_set_self hjs] at hj'
          simp only [Option.some.injEq] at hj'
          subst hj'
          obtain ⟨ls, hal⟩ := I.alone _ _ _ h0 hj
          exact ⟨_, .next hal g1 hseq ht⟩
        · simp only at hj'
          rw [List.getElem?_set_ne (Ne.symm hjj)] at hj'
          exact I.alone _ _ _ h0 hj'
      · intro j' s' qs l' hj' hi'
        by_cases hjj : j' = j
        · subst hjj
          simp only at hi'
          rw [List.getElem?_set_self hjl] at hi'
          simp at hi'
        · simp only at hi' hj'
          rw [List.getElem?_set_ne (Ne.symm hjj)] at hi' hj'
          exact I.call _ _ _ _ hj' hi'

/-- **C114.** The same for clients that share a `sequential_evaluator`, a `batch_evaluator` or an `async_evaluator` (`sequentialEval_sound`, `batchEval_sound`, `asyncEval_sound`): whatever the
schedule, a client does what it can do alone, and a client that has not finished can go on (within a call: C33, C34). -/
theorem C114_local {o : Objective α F} {V : LocalEval α F} (hV : V.Sound o) {C : Nat → Client S α F} {starts : List S} {x : LSh S V}
    (h : Relation.ReflTransGen (LStep C) (LSh.init V starts) x) {j : Nat} {s₀ : S} (h0 : starts[j]? = some s₀) :
    ∃ s ls, x.states[j]? = some s ∧ Alone o (C j) s₀ ls s ∧
      ((∀ ps rs evs, (C j).ask s ps → Sequential o ps rs evs → ∃ t, (C j).tell s ps rs t) → (∃ ps, (C j).ask s ps) → ∃ y, LStep C x y ∧ ∀ i, i ≠ j → y.inside[i]? = x.inside[i]?) := by
  have I := LInvar.reach hV h
  have hj : j < x.states.length := by rw [I.slen]; exact lt_of_get h0
  have hji : j < x.inside.length := by rw [I.ilen]; exact lt_of_get h0
  have hjs := List.getElem?_eq_getElem hj
  obtain ⟨ls, hal⟩ := I.alone j _ _ h0 hjs
  refine ⟨_, ls, hjs, hal, fun hC ⟨ps, hask⟩ => ?_⟩
  obtain ⟨v, hv⟩ : ∃ v, x.inside[j]? = some v := ⟨_, List.getElem?_eq_getElem hji⟩
  cases v with
  | none => exact ⟨_, .enter hjs hv hask, fun i hi => by simp [List.getElem?_set_ne (Ne.symm hi)]⟩
  | some v =>
    obtain ⟨qs, l⟩ := v
    obtain ⟨g1, g2⟩ := I.call _ _ _ _ hjs hv
    rcases hV.progress g2 with ⟨rs, hr⟩ | ⟨m, st⟩
    · obtain ⟨evs, hseq⟩ := hV.correct g2 hr
      obtain ⟨t, ht⟩ := hC _ _ _ g1 hseq
      exact ⟨_, .leave hjs hv hr ht, fun i hi => by simp [List.getElem?_set_ne (Ne.symm hi)]⟩
    · exact ⟨_, .work hv st, fun i hi => by simp [List.getElem?_set_ne (Ne.symm hi)]⟩

end Spot.Evaluators
