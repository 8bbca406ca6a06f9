import Verif.Model.FindCondition
import Verif.Props.CmaInvariance
import Verif.Spec.Optimizer
import Verif.Lemmas.PoolSelect
import Verif.Lemmas.PoolEnd

/-! # C102: `find_stop_condition`, and conditions that have no effect -/

namespace Spot
variable {E : OptEnv}

/-- A call of the interface of the optimizer, or an assignment to a condition found by `find_stop_condition`. -/
inductive Op2
  | call (o : Op)
  | change (k : Kind) (f : Cond → Cond)

/-- Assignments do not change the class of an object. -/
def Op2.Keeps : Op2 → Prop
  | .call _ => True
  | .change _ f => ∀ c, (f c).kind = c.kind

def Op2.apply (E : OptEnv) (s : Opt) : Op2 → Opt
  | .call o => o.apply E s
  | .change k f => (s.change k f).1

/-- The classes of the conditions added by a call. -/
def Op2.adds : Op2 → List Kind
  | .call (.addCond c) => [c.kind]
  | _ => []

theorem setError_kinds (cs : List Cond) : (setError cs).map Cond.kind = cs.map Cond.kind := by
  induction cs with
  | nil => rfl
  | cons c cs ih => cases c <;> simp [setError, Cond.kind, ih]

theorem modify_kinds (f : Cond → Cond) (hf : ∀ c, (f c).kind = c.kind) (cs : List Cond) (i : Nat) : (cs.modify i f).map Cond.kind = cs.map Cond.kind := by
  apply List.ext_getElem?
  intro j
  rw [List.getElem?_map, List.getElem?_map, List.getElem?_modify]
  cases cs[j]? with
  | none => rfl
  | some c =>
    simp only [Option.map_some]
    split <;> simp [hf]

theorem evaluateStep_conds (s : Opt) (pop : List Pt) (res : List (Option Dbl)) : (s.evaluateStep E pop res).1.conds = s.conds ∨ (s.evaluateStep E pop res).1.conds = setError s.conds := by
  obtain ⟨-, -, e3, -⟩ := evaluateStep_later E s pop res
  exact e3

theorem step_kinds (i : In) (m : Opt) : (m.step E (Opt.internal E i)).1.conds.map Cond.kind = m.conds.map Cond.kind := by
  have hint : (Opt.internal E i m.begun).1.conds = m.begun.conds ∨ (Opt.internal E i m.begun).1.conds = setError m.begun.conds := by
    have e3 := evaluateStep_conds (E := E) m.begun i.pop i.res
    unfold Opt.internal
    dsimp only
    split
    · exact e3
    · exact e3
  have hs : (Opt.internal E i m.begun).1.conds.map Cond.kind = m.conds.map Cond.kind := by
    rw [begun_conds] at hint
    rcases hint with h1 | h1 <;> rw [h1]
    exact setError_kinds _
  unfold Opt.step
  split
  · rfl
  · change (match Opt.internal E i m.begun with
      | (s, .ok true) =>
        ({ s.signal .postStep with vis := { (s.signal .postStep).vis with stepCount := (s.signal .postStep).vis.stepCount + 1 } } : Opt).testStop E
      | (s, .ok false) => s.testStop E
      | (s, .err) => (s, .err)
      | (s, .ub) => (s, .ub)).1.conds.map Cond.kind = _
    rcases hi : Opt.internal E i m.begun with ⟨s, r⟩
    rw [hi] at hs
    cases r with
    | ok b => cases b with
      | true => dsimp only; rw [testStop_conds]; exact hs
      | false => dsimp only; rw [testStop_conds]; exact hs
    | err => exact hs
    | ub => exact hs

theorem apply_kinds (s : Opt) (o : Op2) (ho : o.Keeps) : (o.apply E s).conds.map Cond.kind = s.conds.map Cond.kind ++ o.adds := by
  cases o with
  | change k f =>
    unfold Op2.apply Opt.change Op2.adds
    dsimp only
    split
    · rw [List.append_nil]; exact modify_kinds f ho _ _
    · simp
    · simp
  | call o =>
    cases o with
    | step i => simpa [Op2.apply, Op.apply, Op2.adds] using step_kinds i s
    | interrupt => simp [Op2.apply, Op.apply, Op2.adds, Opt.interrupt]
    | addCond c => simp [Op2.apply, Op.apply, Op2.adds, Opt.addCond]
    | addRep t => simp [Op2.apply, Op.apply, Op2.adds]
    | window n => simp [Op2.apply, Op.apply, Op2.adds]
    | trend => simp [Op2.apply, Op.apply, Op2.adds]
    | progress => simp [Op2.apply, Op.apply, Op2.adds]
    | predicted k => simp [Op2.apply, Op.apply, Op2.adds]
    | test => simp [Op2.apply, Op.apply, Op2.adds, testStop_conds]

theorem findCond_spec (k : Kind) (cs : List Cond) :
    (∀ i, findCond k cs = .ok i ↔ (cs.map Cond.kind)[i]? = some k ∧ ∀ j < i, (cs.map Cond.kind)[j]? ≠ some k) ∧
    (findCond k cs = .err ↔ k ∉ cs.map Cond.kind) ∧ findCond k cs ≠ .ub := by
  induction cs with
  | nil => simp [findCond]
  | cons c cs ih =>
    obtain ⟨h1, h2, h3⟩ := ih
    by_cases hc : c.kind = k
    · refine ⟨fun i => ?_, ?_, ?_⟩
      · simp only [findCond, if_pos hc]
        constructor
        · intro h
          rw [← Res.ok.inj h]
          exact ⟨by simp [hc], by simp⟩
        · rintro ⟨-, h⟩
          cases i with
          | zero => rfl
          | succ i => exact absurd (by simp [hc]) (h 0 (by omega))
      · simp [findCond, hc]
      · simp [findCond, hc]
    · have e : findCond k (c :: cs) = (findCond k cs >>= fun i => .ok (i + 1)) := by simp only [findCond, if_neg hc]
      rw [e]
      cases hf : findCond k cs with
      | ok n =>
        obtain ⟨g1, g2⟩ := (h1 n).1 hf
        refine ⟨fun i => ?_, ?_, by rw [Res.ok_bind]; simp⟩
        · rw [Res.ok_bind]
          constructor
          · intro h
            rw [← Res.ok.inj h]
            refine ⟨by simpa using g1, fun j hj => ?_⟩
            cases j with
            | zero => simpa using hc
            | succ j => simpa using g2 j (by omega)
          · rintro ⟨a1, a2⟩
            cases i with
            | zero => simp at a1; exact absurd a1 hc
            | succ i =>
              have : findCond k cs = .ok i := (h1 i).2 ⟨by simpa using a1, fun j hj => by simpa using a2 (j + 1) (by omega)⟩
              rw [hf] at this
              rw [Res.ok.inj this]
        · rw [Res.ok_bind]
          simp only [reduceCtorEq, List.map_cons, List.mem_cons, not_or, false_iff, not_and, not_not]
          exact fun _ => List.mem_of_getElem? g1
      | err =>
        have hn := h2.1 hf
        refine ⟨fun i => ⟨fun h => absurd (show (Res.err : Res Nat) = .ok i from h) (by simp), ?_⟩, ?_, show (Res.err : Res Nat) ≠ .ub by simp⟩
        · rintro ⟨a1, -⟩
          cases i with
          | zero => simp at a1; exact absurd a1 hc
          | succ i => exact absurd (List.mem_of_getElem? (by simpa using a1)) hn
        · constructor
          · intro _
            rw [List.map_cons, List.mem_cons, not_or]
            exact ⟨fun h => hc h.symm, hn⟩
          · intro _; rfl
      | ub => exact absurd hf h3

/-- **C102.** After any calls and assignments, the conditions of an optimizer are those it was constructed with and those that were added, in that order: `find_stop_condition` returns the first of
its class in that order, and throws exactly if there is none. -/
theorem C102_first (s : Opt) (h : List Op2) (hk : ∀ o ∈ h, o.Keeps) (k : Kind) :
    let order := s.conds.map Cond.kind ++ h.flatMap Op2.adds
    let t := h.foldl (Op2.apply E) s
    t.conds.length = order.length ∧ (∀ i, findCond k t.conds = .ok i ↔ order[i]? = some k ∧ ∀ j < i, order[j]? ≠ some k) ∧ (findCond k t.conds = .err ↔ k ∉ order) := by
  have e : ∀ (h : List Op2) (s : Opt), (∀ o ∈ h, o.Keeps) → (h.foldl (Op2.apply E) s).conds.map Cond.kind = s.conds.map Cond.kind ++ h.flatMap Op2.adds := by
    intro h
    induction h with
    | nil => intro s _; simp
    | cons o h ih =>
      intro s hk
      rw [List.foldl_cons, ih _ fun o ho => hk o (List.mem_cons_of_mem _ ho), apply_kinds s o (hk o List.mem_cons_self), List.flatMap_cons, List.append_assoc]
  have e := e h s hk
  obtain ⟨h1, h2, -⟩ := findCond_spec k (h.foldl (Op2.apply E) s).conds
  dsimp only
  refine ⟨by rw [← e, List.length_map], ?_, ?_⟩
  · rw [← e]; exact h1
  · rw [← e]; exact h2

/-- **C102.** A new optimizer has an abort condition and an error condition; a new MES, EVA or CMA optimizer is one to which a flat fitness condition with 1e-9 was added. -/
theorem C102_constructed (info : ObjInfo) : (Opt.init info).conds.map Cond.kind = [.abort, .error] ∧
    (∀ [Libm] (R : Rng Dbl) (e : R.Eng), (EsOpt.make info e).opt = (Opt.init info).addCond (.flat (Dbl.ofQ (1 / 10 ^ 9))) ∧
      (EsOpt.make info e).opt.conds.map Cond.kind = [.abort, .error, .flat]) ∧
    ∀ [Libm] (G : GaussSrc Dbl) (opt : Int) (modulo : Dbl) (rng : G.St) (p : CmaPar Dbl) (s : CmaOpt G info.dim), CmaOpt.make info opt modulo rng = .ok (p, s) →
      s.opt = (Opt.init info).addCond (.flat (Dbl.ofQ (1 / 10 ^ 9))) ∧ s.opt.conds.map Cond.kind = [.abort, .error, .flat] := by
  refine ⟨rfl, fun R e => ⟨rfl, rfl⟩, fun G opt modulo rng p s h => ?_⟩
  have h1 := (make_ok h).1
  exact ⟨h1, by rw [h1]; rfl⟩

/-- **C102.** An assignment changes the condition that was found and nothing else. -/
theorem C102_change (s : Opt) (k : Kind) (f : Cond → Cond) :
    (∀ i, findCond k s.conds = .ok i → ∃ t, s.change k f = (t, .ok ()) ∧ t.conds.length = s.conds.length ∧ t.conds[i]? = s.conds[i]?.map f ∧
      (∀ j, j ≠ i → t.conds[j]? = s.conds[j]?) ∧ t.vis = s.vis ∧ t.stopped = s.stopped ∧ t.reps = s.reps ∧ t.log = s.log) ∧
    (findCond k s.conds = .err → s.change k f = (s, .err)) := by
  constructor
  · intro i hi
    unfold Opt.change
    rw [hi]
    refine ⟨_, rfl, by simp, ?_, fun j hj => ?_, rfl, rfl, rfl, rfl⟩
    · simp
    · simp [Ne.symm hj]
  · intro h
    unfold Opt.change
    rw [h]

theorem findCond_tail {k : Kind} {c : Cond} {cs : List Cond} (hc : c.kind ≠ k) : findCond k (c :: cs) = (findCond k cs >>= fun i => .ok (i + 1)) := by
  simp only [findCond, if_neg hc]

/-- **C102.** The two places where spot itself uses `find_stop_condition`: a failed step sets the message of the first error condition, and a pool sets the target of the first predicted fitness
condition of each member (or throws). -/
theorem C102_used (cs : List Cond) (f : Dbl) :
    (∀ i, findCond .error cs = .ok i → setError cs = cs.modify i (fun _ => .error true)) ∧
    (∀ i, findCond .predicted cs = .ok i → setTarget f cs = some (cs.modify i (fun c => match c with | .predicted _ a n => .predicted f a n | c => c))) ∧
    (findCond .predicted cs = .err ↔ setTarget f cs = none) := by
  induction cs with
  | nil => simp [findCond, setTarget]
  | cons c cs ih =>
    obtain ⟨h1, h2, h3⟩ := ih
    refine ⟨?_, ?_, ?_⟩
    · intro i hi
      by_cases hc : c.kind = .error
      · simp only [findCond, if_pos hc] at hi
        have hi := Res.ok.inj hi
        subst hi
        cases c <;> simp [Cond.kind] at hc
        rfl
      · rw [findCond_tail hc] at hi
        obtain ⟨j, hj, hi⟩ := Res.bind_eq_ok.1 hi
        have hi := Res.ok.inj hi
        subst hi
        have e : setError (c :: cs) = c :: setError cs := by cases c <;> first | rfl | exact absurd rfl hc
        rw [e, h1 j hj]
        rfl
    · intro i hi
      by_cases hc : c.kind = .predicted
      · simp only [findCond, if_pos hc] at hi
        have hi := Res.ok.inj hi
        subst hi
        cases c <;> simp [Cond.kind] at hc
        rfl
      · rw [findCond_tail hc] at hi
        obtain ⟨j, hj, hi⟩ := Res.bind_eq_ok.1 hi
        have hi := Res.ok.inj hi
        subst hi
        have e : setTarget f (c :: cs) = (setTarget f cs).map (c :: ·) := by cases c <;> first | rfl | exact absurd rfl hc
        rw [e, h2 j hj]
        rfl
    · by_cases hc : c.kind = .predicted
      · cases c <;> simp [Cond.kind] at hc
        simp [findCond, Cond.kind, setTarget]
      · have e : setTarget f (c :: cs) = (setTarget f cs).map (c :: ·) := by cases c <;> first | rfl | exact absurd rfl hc
        rw [e, findCond_tail hc, Option.map_eq_none_iff, ← h3]
        cases findCond .predicted cs with
        | ok n => simp [Res.ok_bind]
        | err => exact ⟨fun _ => rfl, fun _ => rfl⟩
        | ub =>
          show (Res.ub : Res Nat) = .err ↔ (Res.ub : Res Nat) = .err
          exact Iff.rfl

/-! ## Conditions without effect -/

theorem trend_info (v : Vis) : (v.fitnessTrend E).1.info = v.info := (core_ext (fitnessTrend_core E v)).1

/-- `d` does not fire as long as `c` does not, in an optimizer that minimizes (`b`) or maximizes. -/
def Implied (E : OptEnv) (b : Bool) (c d : Cond) : Prop := ∀ v, v.info.minimize = b → (c.test E v).2 = .ok false → d.test E v = (v, .ok false)

/-- What a test of the stop conditions says, without the index. -/
def fired (r : Res (Option Nat)) : Res Bool := r >>= fun o => .ok o.isSome

theorem testLoop_shift (cs : List Cond) : ∀ (k k' : Nat) (v : Vis), (testLoop E k cs v).1 = (testLoop E k' cs v).1 ∧ fired (testLoop E k cs v).2 = fired (testLoop E k' cs v).2 := by
  induction cs with
  | nil => intro k k' v; exact ⟨rfl, rfl⟩
  | cons c cs ih =>
    intro k k' v
    simp only [testLoop]
    rcases c.test E v with ⟨w, x⟩
    cases x with
    | ok b => cases b with
      | true => exact ⟨rfl, rfl⟩
      | false => exact ih _ _ _
    | err => exact ⟨rfl, rfl⟩
    | ub => exact ⟨rfl, rfl⟩

theorem testLoop_after (c d : Cond) {b : Bool} (hd : Implied E b c d) (A B : List Cond) : ∀ (k k' : Nat) (v : Vis), v.info.minimize = b → (c.test E v).2 = .ok false →
    (testLoop E k (A ++ d :: B) v).1 = (testLoop E k' (A ++ B) v).1 ∧ fired (testLoop E k (A ++ d :: B) v).2 = fired (testLoop E k' (A ++ B) v).2 := by
  induction A with
  | nil =>
    intro k k' v hb hv
    simp only [List.nil_append, testLoop, hd v hb hv]
    exact testLoop_shift B _ _ _
  | cons a A ih =>
    intro k k' v hb hv
    simp only [List.cons_append, testLoop]
    have hf := test_fst (E := E) a v
    rcases ha : a.test E v with ⟨w, x⟩
    rw [ha] at hf
    cases x with
    | ok y => cases y with
      | true => exact ⟨rfl, rfl⟩
      | false =>
        rcases hf with e | e <;> dsimp only at e <;> subst e
        · exact ih _ _ _ hb hv
        · exact ih _ _ _ (by rw [trend_info]; exact hb) (by rw [test_ft]; exact hv)
    | err => exact ⟨rfl, rfl⟩
    | ub => exact ⟨rfl, rfl⟩

theorem testLoop_implied (c d : Cond) {b : Bool} (hd : Implied E b c d) (A B : List Cond) : ∀ (k k' : Nat) (v : Vis), v.info.minimize = b → c ∈ A →
    (testLoop E k (A ++ d :: B) v).1 = (testLoop E k' (A ++ B) v).1 ∧ fired (testLoop E k (A ++ d :: B) v).2 = fired (testLoop E k' (A ++ B) v).2 := by
  induction A with
  | nil => intro k k' v _ h; cases h
  | cons a A ih =>
    intro k k' v hb hm
    simp only [List.cons_append, testLoop]
    have hf := test_fst (E := E) a v
    rcases ha : a.test E v with ⟨w, x⟩
    rw [ha] at hf
    cases x with
    | ok y => cases y with
      | true => exact ⟨rfl, rfl⟩
      | false =>
        have hw : w.info.minimize = b := by
          rcases hf with e | e <;> dsimp only at e <;> subst e
          · exact hb
          · rw [trend_info]; exact hb
        rcases List.mem_cons.1 hm with rfl | hm
        · refine testLoop_after c d hd A B _ _ w hw ?_
          rcases hf with e | e <;> dsimp only at e <;> subst e
          · rw [ha]
          · rw [test_ft, ha]
        · exact ih _ _ w hw hm
    | err => exact ⟨rfl, rfl⟩
    | ub => exact ⟨rfl, rfl⟩

theorem testLoop_info (cs : List Cond) : ∀ (k : Nat) (v : Vis), (testLoop E k cs v).1.info = v.info := by
  induction cs with
  | nil => intro k v; rfl
  | cons c cs ih =>
    intro k v
    have hf := test_fst (E := E) c v
    simp only [testLoop]
    rcases hc : c.test E v with ⟨w, x⟩
    rw [hc] at hf
    have hw : w.info = v.info := by
      rcases hf with e | e <;> dsimp only at e <;> subst e
      · rfl
      · exact trend_info v
    cases x with
    | ok y => cases y with
      | true => exact hw
      | false => exact (ih _ _).trans hw
    | err => exact hw
    | ub => exact hw

/-- The same optimizer with one more condition. -/
structure Extra (b : Bool) (c d : Cond) (s t : Opt) : Prop where
  vis : t.vis = s.vis
  stopped : t.stopped.isSome = s.stopped.isSome
  minimize : s.vis.info.minimize = b
  conds : ∃ A B, s.conds = A ++ B ∧ t.conds = A ++ d :: B ∧ c ∈ A

theorem Extra.signal {b : Bool} {c d : Cond} {s t : Opt} (h : Extra b c d s t) (e : Event) : Extra b c d (s.signal e) (t.signal e) := ⟨h.vis, h.stopped, h.minimize, h.conds⟩

theorem Extra.signal2 {b : Bool} {c d : Cond} {s t : Opt} (h : Extra b c d s t) (e e' : Event) : Extra b c d (s.signal e) (t.signal e') := ⟨h.vis, h.stopped, h.minimize, h.conds⟩

theorem Extra.test {b : Bool} {c d : Cond} {s t : Opt} (hd : Implied E b c d) (h : Extra b c d s t) :
    Extra b c d (s.testStop E).1 (t.testStop E).1 ∧ fired (t.testStop E).2 = fired (s.testStop E).2 := by
  have hst := h.stopped
  unfold Opt.testStop
  cases hs : s.stopped with
  | some k =>
    cases ht : t.stopped with
    | none => rw [hs, ht] at hst; cases hst
    | some k' => exact ⟨h, rfl⟩
  | none =>
    cases ht : t.stopped with
    | some k' => rw [hs, ht] at hst; cases hst
    | none =>
      obtain ⟨A, B, h1, h2, h3⟩ := h.conds
      have key := testLoop_implied c d hd A B 0 0 s.vis h.minimize h3
      rw [← h1, ← h2, ← h.vis] at key
      rw [h.vis] at key
      dsimp only
      rw [h.vis]
      rcases hl : testLoop E 0 s.conds s.vis with ⟨w, x⟩
      rcases hl' : testLoop E 0 t.conds s.vis with ⟨w', x'⟩
      rw [hl, hl'] at key
      obtain ⟨k1, k2⟩ := key
      dsimp only at k1 k2
      subst k1
      have hw : w'.info.minimize = b := by
        have := testLoop_info (E := E) s.conds 0 s.vis
        rw [hl] at this
        rw [show w'.info = _ from this]
        exact h.minimize
      cases x with
      | ok o => cases o with
        | some k =>
          cases x' with
          | ok o' => cases o' with
            | some k' => exact ⟨⟨rfl, rfl, hw, A, B, h1, h2, h3⟩, rfl⟩
            | none => cases k2
          | err => cases k2
          | ub => cases k2
        | none =>
          cases x' with
          | ok o' => cases o' with
            | some k' => cases k2
            | none => exact ⟨⟨rfl, rfl, hw, A, B, h1, h2, h3⟩, rfl⟩
          | err => cases k2
          | ub => cases k2
      | err =>
        cases x' with
        | ok o' => cases k2
        | err => exact ⟨⟨rfl, rfl, hw, A, B, h1, h2, h3⟩, rfl⟩
        | ub => cases k2
      | ub =>
        cases x' with
        | ok o' => cases k2
        | err => cases k2
        | ub => exact ⟨⟨rfl, rfl, hw, A, B, h1, h2, h3⟩, rfl⟩

theorem setError_split (A : List Cond) : (∀ B, setError (A ++ B) = setError A ++ B) ∨ (setError A = A ∧ ∀ B, setError (A ++ B) = A ++ setError B) := by
  induction A with
  | nil => exact .inr ⟨rfl, fun B => rfl⟩
  | cons a A ih =>
    by_cases ha : a.kind = .error
    · cases a <;> simp [Cond.kind] at ha
      exact .inl fun B => rfl
    · have e : ∀ cs, setError (a :: cs) = a :: setError cs := by intro cs; cases a <;> first | rfl | exact absurd rfl ha
      rcases ih with h | ⟨h1, h2⟩
      · exact .inl fun B => by rw [List.cons_append, e, e, h, List.cons_append]
      · exact .inr ⟨by rw [e, h1], fun B => by rw [List.cons_append, e, h2, List.cons_append]⟩

theorem mem_setError {c : Cond} (hc : c.kind ≠ .error) {A : List Cond} (h : c ∈ A) : c ∈ setError A := by
  induction A with
  | nil => cases h
  | cons a A ih =>
    by_cases ha : a.kind = .error
    · cases a <;> simp [Cond.kind] at ha
      rcases List.mem_cons.1 h with rfl | h
      · exact absurd rfl hc
      · exact List.mem_cons_of_mem _ h
    · have e : setError (a :: A) = a :: setError A := by cases a <;> first | rfl | exact absurd rfl ha
      rw [e]
      rcases List.mem_cons.1 h with rfl | h
      · exact List.mem_cons_self
      · exact List.mem_cons_of_mem _ (ih h)

theorem Extra.setError {b : Bool} {c d : Cond} {s t : Opt} (hc : c.kind ≠ .error) (hd : d.kind ≠ .error) (h : Extra b c d s t) :
    Extra b c d { s with conds := Spot.setError s.conds } { t with conds := Spot.setError t.conds } := by
  obtain ⟨A, B, h1, h2, h3⟩ := h.conds
  refine ⟨h.vis, h.stopped, h.minimize, ?_⟩
  dsimp only
  rw [h1, h2]
  rcases setError_split A with e | ⟨e1, e2⟩
  · exact ⟨Spot.setError A, B, e B, e _, mem_setError hc h3⟩
  · refine ⟨A, Spot.setError B, e2 B, ?_, h3⟩
    rw [e2]
    congr 1
    cases d <;> first | rfl | exact absurd rfl hd

theorem track_info (v : Vis) : (v.track E).info = v.info := by unfold Vis.track; split <;> rfl

theorem Extra.evaluate {b : Bool} {c d : Cond} {s t : Opt} (hc : c.kind ≠ .error) (hd : d.kind ≠ .error) (h : Extra b c d s t) (pop : List Pt) (res : List (Option Dbl)) :
    Extra b c d (s.evaluateStep E pop res).1 (t.evaluateStep E pop res).1 ∧ (t.evaluateStep E pop res).2 = (s.evaluateStep E pop res).2 := by
  have hv := h.vis
  have hm := h.minimize
  have e := h.setError hc hd
  unfold Opt.evaluateStep
  dsimp only [Opt.signal]
  rw [hv]
  split
  · exact ⟨⟨rfl, e.stopped, hm, e.conds⟩, rfl⟩
  · cases h1 : (res.map (fun r => r.getD s.vis.info.worstFitness))[s.vis.info.findBestFitness (res.map (fun r => r.getD s.vis.info.worstFitness))]? with
    | none => exact ⟨⟨rfl, h.stopped, hm, h.conds⟩, rfl⟩
    | some f =>
      cases h2 : pop[s.vis.info.findBestFitness (res.map (fun r => r.getD s.vis.info.worstFitness))]? with
      | none => exact ⟨⟨rfl, h.stopped, hm, h.conds⟩, rfl⟩
      | some p =>
        dsimp only
        by_cases hb : s.vis.info.isBetter f s.vis.bestFitness = true
        · simp only [hb, if_true]
          by_cases hl : s.vis.bestPoint.length = p.length
          · simp only [if_pos hl]
            exact ⟨⟨rfl, h.stopped, by rw [track_info]; exact hm, h.conds⟩, trivial⟩
          · simp only [if_neg hl]
            exact ⟨⟨rfl, h.stopped, hm, h.conds⟩, trivial⟩
        · simp only [hb, if_false, Bool.false_eq_true]
          exact ⟨⟨rfl, h.stopped, by rw [track_info]; exact hm, h.conds⟩, trivial⟩

theorem Extra.step {b : Bool} {c d : Cond} {s t : Opt} (hc : c.kind ≠ .error) (hd : d.kind ≠ .error) (hi : Implied E b c d) (h : Extra b c d s t) (i : In) :
    Extra b c d (s.step E (Opt.internal E i)).1 (t.step E (Opt.internal E i)).1 ∧ fired (t.step E (Opt.internal E i)).2 = fired (s.step E (Opt.internal E i)).2 := by
  have hv := h.vis
  unfold Opt.step
  rw [hv]
  split
  · exact ⟨h, rfl⟩
  · have hb : Extra b c d ((if s.vis.stepCount = 0 then s.signal .start else s).signal .preStep) ((if s.vis.stepCount = 0 then t.signal .start else t).signal .preStep) := by
      split
      · exact (h.signal _).signal _
      · exact h.signal _
    dsimp only
    generalize (if s.vis.stepCount = 0 then s.signal .start else s).signal .preStep = s1 at hb ⊢
    generalize (if s.vis.stepCount = 0 then t.signal .start else t).signal .preStep = t1 at hb ⊢
    have hint : Extra b c d (Opt.internal E i s1).1 (Opt.internal E i t1).1 ∧ (Opt.internal E i t1).2 = (Opt.internal E i s1).2 := by
      obtain ⟨e1, e2⟩ := hb.evaluate (E := E) hc hd i.pop i.res
      unfold Opt.internal
      dsimp only
      refine ⟨?_, e2⟩
      split
      · refine ⟨?_, e1.stopped, e1.minimize, e1.conds⟩
        unfold Opt.interrupt
        rw [e1.vis]
      · exact e1
    rcases h1 : Opt.internal E i s1 with ⟨s2, r⟩
    rcases h2 : Opt.internal E i t1 with ⟨t2, r'⟩
    rw [h1, h2] at hint
    obtain ⟨g1, g2⟩ := hint
    dsimp only at g1 g2
    subst g2
    cases r' with
    | ok b =>
      cases b with
      | true =>
        refine Extra.test hi (s := { s2.signal .postStep with vis := { (s2.signal .postStep).vis with stepCount := (s2.signal .postStep).vis.stepCount + 1 } })
          (t := { t2.signal .postStep with vis := { (t2.signal .postStep).vis with stepCount := (t2.signal .postStep).vis.stepCount + 1 } }) ⟨?_, g1.stopped, g1.minimize, g1.conds⟩
        show ({ t2.vis with stepCount := t2.vis.stepCount + 1 } : Vis) = { s2.vis with stepCount := s2.vis.stepCount + 1 }
        rw [g1.vis]
      | false => exact Extra.test hi g1
    | err => exact ⟨g1, rfl⟩
    | ub => exact ⟨g1, rfl⟩

theorem progress_info (v : Vis) : (v.progress E).1.info = v.info := by
  unfold Vis.progress
  dsimp only
  split
  · rfl
  · split <;> first | rfl | exact trend_info v

theorem predicted_info (k : Nat) (v : Vis) : (v.predictedFitness E k).1.info = v.info := by
  unfold Vis.predictedFitness
  dsimp only
  split
  · rfl
  · split <;> first | rfl | exact trend_info v

theorem Extra.apply {b : Bool} {c d : Cond} {s t : Opt} (hc : c.kind ≠ .error) (hd : d.kind ≠ .error) (hi : Implied E b c d) (h : Extra b c d s t) (o : Op) : Extra b c d (o.apply E s) (o.apply E t) := by
  have hv := h.vis
  cases o with
  | step i => exact (h.step hc hd hi i).1
  | interrupt =>
    refine ⟨?_, h.stopped, h.minimize, h.conds⟩
    show ({ t.vis with stopRequested := true } : Vis) = { s.vis with stopRequested := true }
    rw [hv]
  | addCond x =>
    obtain ⟨A, B, h1, h2, h3⟩ := h.conds
    refine ⟨?_, h.stopped, ?_, A, B ++ [x], ?_, ?_, h3⟩
    · show (if x.minWindow > t.vis.capacity then t.vis.setWindow x.minWindow else t.vis) = (if x.minWindow > s.vis.capacity then s.vis.setWindow x.minWindow else s.vis)
      rw [hv]
    · show (if x.minWindow > s.vis.capacity then s.vis.setWindow x.minWindow else s.vis).info.minimize = b
      split <;> exact h.minimize
    · show s.conds ++ [x] = _
      rw [h1, List.append_assoc]
    · show t.conds ++ [x] = _
      rw [h2, List.append_assoc]; rfl
  | addRep r => exact ⟨hv, h.stopped, h.minimize, h.conds⟩
  | window n => exact ⟨by show t.vis.setWindow n = s.vis.setWindow n; rw [hv], h.stopped, h.minimize, h.conds⟩
  | trend => exact ⟨by show (t.vis.fitnessTrend E).1 = (s.vis.fitnessTrend E).1; rw [hv], h.stopped, by show (s.vis.fitnessTrend E).1.info.minimize = b; rw [trend_info]; exact h.minimize, h.conds⟩
  | progress => exact ⟨by show (t.vis.progress E).1 = (s.vis.progress E).1; rw [hv], h.stopped, by show (s.vis.progress E).1.info.minimize = b; rw [progress_info]; exact h.minimize, h.conds⟩
  | predicted k => exact ⟨by show (t.vis.predictedFitness E k).1 = (s.vis.predictedFitness E k).1; rw [hv], h.stopped, by show (s.vis.predictedFitness E k).1.info.minimize = b; rw [predicted_info]; exact h.minimize, h.conds⟩
  | test => exact (h.test hi).1

/-- One condition is at least as strict as another of the same class: a flat fitness tolerance that is not smaller, a target that is not harder to reach, a number of steps that is not larger. -/
def AtLeast (info : ObjInfo) : Cond → Cond → Prop
  | .flat e, .flat e' => Dbl.le e' e = true
  | .target t, .target t' => if info.minimize then Dbl.le t' t = true else Dbl.le t t' = true
  | .maxSteps n, .maxSteps n' => n ≤ n'
  | _, _ => False

theorem AtLeast.implied {info : ObjInfo} {c d : Cond} (h : AtLeast info c d) : Implied E info.minimize c d ∧ c.kind ≠ .error ∧ d.kind ≠ .error ∧ d.minWindow = 0 := by
  cases c <;> cases d <;> simp only [AtLeast] at h
  case flat.flat e e' =>
    refine ⟨fun v hv hf => ?_, by simp [Cond.kind], by simp [Cond.kind], rfl⟩
    simp only [Cond.test] at hf ⊢
    by_cases hs : v.stepCount > 0
    · simp only [if_pos hs] at hf ⊢
      cases h1 : maxOf v.curFitnesses with
      | none => rw [h1] at hf; cases hf
      | some a =>
        cases h2 : minOf v.curFitnesses with
        | none => rw [h1, h2] at hf; cases hf
        | some b =>
          rw [h1, h2] at hf
          have hf := Res.ok.inj hf
          have : Dbl.lt (a.sub b) e' = false := by
            cases hx : Dbl.lt (a.sub b) e' with
            | false => rfl
            | true => rw [Dbl.lt_of_lt_of_le hx h] at hf; cases hf
          rw [← this]
    · simp only [if_neg hs]
  case target.target t t' =>
    refine ⟨fun v hv hf => ?_, by simp [Cond.kind], by simp [Cond.kind], rfl⟩
    simp only [Cond.test] at hf ⊢
    have hf := Res.ok.inj hf
    have : v.info.isBetter v.bestFitness t' = false := by
      unfold ObjInfo.isBetter at hf ⊢
      rw [hv] at hf ⊢
      cases hm : info.minimize with
      | true =>
        rw [hm] at hf h
        simp only [if_true] at hf h ⊢
        cases hx : Dbl.lt v.bestFitness t' with
        | false => rfl
        | true => rw [Dbl.lt_of_lt_of_le hx h] at hf; cases hf
      | false =>
        rw [hm] at hf h
        simp only [Bool.false_eq_true, if_false] at hf h ⊢
        cases hx : Dbl.lt t' v.bestFitness with
        | false => rfl
        | true => rw [Dbl.lt_of_le_of_lt h hx] at hf; cases hf
    rw [← this]
  case maxSteps.maxSteps n n' =>
    refine ⟨fun v hv hf => ?_, by simp [Cond.kind], by simp [Cond.kind], rfl⟩
    simp only [Cond.test] at hf ⊢
    have hf := of_decide_eq_false (Res.ok.inj hf)
    have : decide (v.stepCount ≥ n') = false := decide_eq_false (by omega)
    rw [this]

/-- **C102.** Adding a condition that is no stricter than one the optimizer already has makes no difference: after any calls the optimizer shows the same and has stopped in the same cases, and every
step ends the same way (except for the number of the condition that is reported). -/
theorem C102_no_effect (s : Opt) (c d : Cond) (hc : c ∈ s.conds) (hd : AtLeast s.vis.info c d) (h : List Op) :
    let a := s.after E h
    let b := (s.addCond d).after E h
    b.vis = a.vis ∧ b.stopped.isSome = a.stopped.isSome ∧ ∀ i, fired (b.step E (Opt.internal E i)).2 = fired (a.step E (Opt.internal E i)).2 := by
  obtain ⟨h1, h2, h3, h4⟩ := hd.implied (E := E)
  have h0 : Extra s.vis.info.minimize c d s (s.addCond d) := by
    refine ⟨?_, rfl, rfl, s.conds, [], by simp, rfl, hc⟩
    unfold Opt.addCond
    dsimp only
    rw [h4, if_neg (by omega)]
  have key : ∀ (h : List Op) (s t : Opt) (b : Bool), Implied E b c d → Extra b c d s t → Extra b c d (s.after E h) (t.after E h) := by
    intro h
    induction h with
    | nil => intro s t b _ e; exact e
    | cons o h ih => intro s t b hi e; exact ih _ _ b hi (e.apply h2 h3 hi o)
  have e := key h s (s.addCond d) _ h1 h0
  exact ⟨e.vis, e.stopped, fun i => (e.step h2 h3 h1 i).2⟩

/-- **C102 (finding).** So a flat fitness condition of 1e-9 or less that is added to a MES, EVA or CMA optimizer has no effect: the one the constructor adds fires first, and
`find_stop_condition< flat_fitness_condition >` finds that one. -/
theorem C102_flat_shadowed (info : ObjInfo) (e : Dbl) (he : Dbl.le e (Dbl.ofQ (1 / 10 ^ 9)) = true) (h : List Op) :
    let s := (Opt.init info).addCond (.flat (Dbl.ofQ (1 / 10 ^ 9)))
    ((s.addCond (.flat e)).after E h).vis = (s.after E h).vis ∧ ((s.addCond (.flat e)).after E h).stopped.isSome = (s.after E h).stopped.isSome ∧
      findCond .flat (s.addCond (.flat e)).conds = .ok 2 ∧ (s.addCond (.flat e)).conds[3]?.map Cond.kind = some .flat := by
  intro s
  obtain ⟨h1, h2, -⟩ := C102_no_effect (E := E) s (.flat (Dbl.ofQ (1 / 10 ^ 9))) (.flat e) (by simp [s, Opt.addCond]) he h
  exact ⟨h1, h2, rfl, rfl⟩

/-- With `find_stop_condition` the tolerance can be changed: the fitnesses of a step differ by 1/10^10, the optimizer stops unless the tolerance is set to 0. -/
example : ∃ i : In, let s := (Opt.new optInfo 0).addCond (.flat (Dbl.ofQ (1 / 10 ^ 9)))
    (s.step optEnv (Opt.internal optEnv i)).1.stopped = some 2 ∧
    ((s.addCond (.flat (.fin 0))).step optEnv (Opt.internal optEnv i)).1.stopped = some 2 ∧
    ((s.change .flat (fun _ => .flat (.fin 0))).1.step optEnv (Opt.internal optEnv i)).1.stopped = none := by
  refine ⟨⟨[[.fin 0], [.fin 1]], [some (.fin 1), some (.fin (1 + 1 / 10 ^ 10))], false⟩, ?_⟩
  decide +kernel

end Spot
