import Verif.Lemmas.PoolView
import Verif.Lemmas.PoolSelect
import Verif.Props.FileReporter
import Verif.Props.PoolCases

/-!
# C105: what the file reporter of a pool writes

`write_par_file` (spot/file_reporter.cpp:103-142) asks the pool for the best point of the *current step*, which is that of the best member; the file of a new best holds the announced point
only if that is the best point of that member.
-/

namespace Spot

variable {E : OptEnv}

/-! ## what a reporter of a pool hears -/

/-- What a reporter hears while members are being stepped: the events that are signalled in a transition, and what the getters of the pool return at that time. -/
inductive RunHears (E : OptEnv) (ins : Nat → In) : RunSt → List Call → RunSt → Prop
  | nil {r} : RunHears E ins r [] r
  | snoc {r s t : RunSt} {xs ys : List Call} (h : RunHears E ins r xs s) (st : RunStep E ins s t) (hl : t.pool.log = s.pool.log ++ ys.map Call.event)
      (hv : ∀ y ∈ ys, t.pool.view = .ok y.vis) : RunHears E ins r (xs ++ ys) t

/-- What a reporter hears in a history of a pool. In `on_start` and `on_pre_step`, the pool may have no best member yet (a file reporter asks for the parameters and the window, a console reporter
for the number of the step); in `on_stop` the reporters ask for nothing. -/
inductive Pool.Hears (E : OptEnv) (P : Opt → Prop) : Pool → List (List Nat × List Nat) → List Call → Pool → Prop
  | nil {p} : Pool.Hears E P p [] [] p
  | step {p q p₁ p₂ p₃ : Pool} {ls : List (List Nat × List Nat)} {xs pre ys post : List Call} {z : Call} {ins : Nat → In} {t : RunSt} {sel : List Nat} {r : Option Nat}
      (h : Pool.Hears E P p ls xs q) (hi : ∀ k, (ins k).Valid q.own.info) (hd : q.own.info.dim ≠ 0) (hne : q.members ≠ [])
      (h1 : p₁ = (if q.own.stepCount = 0 then q.signal .start else q).signal .preStep) (h2 : Refill E p₁ sel p₂)
      (h3 : RunHears E ins p₂.launch ys t) (hend : t.running = [] ∧ t.futs = [] ∧ t.threw = false)
      (h4 : Pool.testStop E { t.pool.signal .postStep with own := { t.pool.own with stepCount := t.pool.own.stepCount + 1 } } = (p₃, .ok r))
      (hpre : p₁.log = q.log ++ pre.map Call.event) (hprev : ∀ x ∈ pre, x.vis = q.own)
      (hz : z.event = .postStep) (hzv : t.pool.view = .ok z.vis) (hpost : p₃.log = t.pool.log ++ .postStep :: post.map Call.event) :
      Pool.Hears E P p (ls ++ [(sel, p₂.launch.futs)]) (xs ++ (pre ++ (ys ++ z :: post))) p₃
  | push {p q : Pool} {ls xs m} (h : Pool.Hears E P p ls xs q) (hm : P m) : Pool.Hears E P p ls xs (q.push m)
  | addCond {p q : Pool} {ls xs c} (h : Pool.Hears E P p ls xs q) : Pool.Hears E P p ls xs (q.addCond c)
  | interrupt {p q : Pool} {ls xs} (h : Pool.Hears E P p ls xs q) : Pool.Hears E P p ls xs q.interrupt
  | test {p q : Pool} {ls xs ys} (h : Pool.Hears E P p ls xs q) (hl : (q.testStop E).1.log = q.log ++ ys.map Call.event) :
      Pool.Hears E P p ls (xs ++ ys) (q.testStop E).1

/-- An optimizer of the same objective that has been constructed and configured, but never stepped. -/
def Opt.Unused (E : OptEnv) (info : ObjInfo) (m : Opt) : Prop :=
  ∃ (k : Int) (h : List Op), m = (Opt.new info k).after E h ∧ ∀ o ∈ h, ∀ i, o ≠ .step i

theorem RunHears.exec {ins : Nat → In} {r t : RunSt} {xs : List Call} (h : RunHears E ins r xs t) : RunExec E ins r t := by
  induction h with
  | nil => exact .nil
  | snoc _ st _ _ ih => exact ih.snoc st

theorem Pool.Hears.hist {P : Opt → Prop} {p q : Pool} {ls : List (List Nat × List Nat)} {xs : List Call} (h : Pool.Hears E P p ls xs q) : Pool.Hist E P p ls q := by
  induction h with
  | nil => exact .nil
  | step h hi hd hne h1 h2 h3 hend h4 _ _ _ _ _ ih => exact ih.step (.mk hd hne h1 h2 h3.exec hend h4)
  | push _ hm ih => exact ih.push hm
  | addCond _ ih => exact ih.addCond
  | interrupt _ ih => exact ih.interrupt
  | test _ _ ih => exact ih.test

/-- The reporter hears exactly the events that are signalled. -/
theorem RunHears.log {ins : Nat → In} {r t : RunSt} {xs : List Call} (h : RunHears E ins r xs t) : t.pool.log = r.pool.log ++ xs.map Call.event := by
  induction h with
  | nil => simp
  | snoc _ _ hl _ ih => rw [hl, ih]; simp

theorem Pool.Hears.log {P : Opt → Prop} {p q : Pool} {ls : List (List Nat × List Nat)} {xs : List Call} (h : Pool.Hears E P p ls xs q) :
    q.log = p.log ++ xs.map Call.event := by
  induction h with
  | nil => simp
  | @step q p₁ p₂ p₃ ls xs pre ys post z ins t sel r h hi hd hne h1 h2 h3 hend h4 hpre hprev hz hzv hpost ih =>
    have h5 := h3.log
    have h6 : p₂.launch.pool.log = p₁.log := (refill_fields h2).2.2.2.2.2.2.2.2
    rw [hpost, h5, h6, hpre, ih]
    simp [hz]
  | push _ hm ih => exact ih
  | addCond _ ih => exact ih
  | interrupt _ ih => exact ih
  | test _ hl ih => rw [hl, ih]; simp

/-! ## the members -/

/-- A member of a pool that was added before its first step. -/
structure MemOk (info : ObjInfo) (m : Opt) : Prop where
  info_eq : m.vis.info = info
  best_len : m.vis.bestPoint.length = info.dim
  cur_len : m.vis.curPoint.length = info.dim
  reached : m.vis.bestFitness = info.worstFitness ∨ info.isBetter m.vis.bestFitness info.worstFitness = true

/-- The best point of the current step is the best point. -/
def Opt.Agree (m : Opt) : Prop := m.vis.curFitness = m.vis.bestFitness ∧ m.vis.curPoint.map rounded = m.vis.bestPoint

/-- A fitness the pool would not announce, except at the very start. -/
def Pool.Low (p : Pool) (f : Dbl) : Prop :=
  (p.bestIdx = none → f = p.own.info.worstFitness) ∧ (p.bestIdx ≠ none → p.own.info.isBetter f p.best = false)

/-- `o` are the futures that have not been looked at, `run` the members whose step has not ended. -/
structure AgreeInv (o run : List Nat) (p : Pool) : Prop where
  mem : ∀ (k : Nat) (m : Opt), p.members[k]? = some m → MemOk p.own.info m ∧ (p.Low m.vis.bestFitness ∨ k ∈ o ∧ k ∉ run ∧ m.Agree)
  best : p.bestIdx ≠ none → p.best = p.own.info.worstFitness ∨ p.own.info.isBetter p.best p.own.info.worstFitness = true

theorem MemOk.face {info : ObjInfo} {m m' : Opt} (h : MemOk info m) (hf : m'.face = m.face) : MemOk info m' := by
  simp only [Opt.face, Prod.mk.injEq] at hf
  obtain ⟨h1, h2, h3, h4, h5, h6⟩ := hf
  exact ⟨h1.trans h.info_eq, by rw [h3]; exact h.best_len, by rw [h6]; exact h.cur_len, by rw [h2]; exact h.reached⟩

theorem Opt.Agree.face {m m' : Opt} (h : m.Agree) (hf : m'.face = m.face) : m'.Agree := by
  simp only [Opt.face, Prod.mk.injEq] at hf
  obtain ⟨h1, h2, h3, h4, h5, h6⟩ := hf
  unfold Opt.Agree; rw [h2, h3, h4, h6]; exact h

theorem AgreeInv.congr {o run : List Nat} {p p' : Pool} (I : AgreeInv o run p) (hs : p'.members.map Opt.face = p.members.map Opt.face)
    (hi : p'.own.info = p.own.info) (hb : p'.best = p.best) (hx : p'.bestIdx = p.bestIdx) : AgreeInv o run p' := by
  refine ⟨fun k m hm => ?_, by rw [hx, hb, hi]; exact I.best⟩
  obtain ⟨m', hm', hf⟩ := face_get hs.symm hm
  obtain ⟨h1, h2⟩ := I.mem k m' hm'
  refine ⟨by rw [hi]; exact h1.face hf.symm, ?_⟩
  have hbf : m.vis.bestFitness = m'.vis.bestFitness := by
    simp only [Opt.face, Prod.mk.injEq] at hf; exact hf.2.1.symm
  rcases h2 with h2 | ⟨a, b, h2⟩
  · exact .inl (by unfold Pool.Low at *; rw [hx, hi, hb, hbf]; exact h2)
  · exact .inr ⟨a, b, h2.face hf.symm⟩

theorem step_member {info : ObjInfo} (hd : info.dim ≠ 0) {m : Opt} {i : In} (hv : i.Valid info) (h : MemOk info m) :
    let m' := (m.step E (Opt.internal E i)).1
    MemOk info m' ∧ (m'.vis.bestFitness = m.vis.bestFitness ∨ m'.Agree) := by
  intro m'
  have hw : m.vis.WF info m.vis.maxErrors := ⟨h.info_eq, rfl, h.best_len⟩
  have hc : m'.vis.core = (m.vis.stepped E i).core := apply_core E m (.step i) hd hw hv
  have hwf := WF_core hc (stepped_WF E hw hv)
  obtain ⟨h1, h2, h3, h4, h5, h6, h7, -⟩ := core_ext hc
  have hb := (In.bestPt_get hv).2.2
  have hi := h.info_eq
  by_cases hf : i.Failed m.vis.maxErrors
  · have hs : m.vis.stepped E i = m.vis.withInterrupt i.interrupt := if_pos hf
    rw [hs] at h1 h3 h4 h5 h7
    have hw2 : (m.vis.withInterrupt i.interrupt).bestFitness = m.vis.bestFitness ∧ (m.vis.withInterrupt i.interrupt).curPoint = m.vis.curPoint := by
      cases i.interrupt <;> exact ⟨rfl, rfl⟩
    exact ⟨⟨hwf.info_eq, hwf.len, by rw [h7, hw2.2]; exact h.cur_len, by rw [h3, hw2.1]; exact h.reached⟩, .inl (h3.trans hw2.1)⟩
  · have hs : m.vis.stepped E i = ({ (m.vis.evaluated (i.res.map (fitOf m.vis.info)) (i.best m.vis.info) (i.bestPt m.vis.info)).track E with
           stepCount := m.vis.stepCount + 1 } : Vis).withInterrupt i.interrupt := if_neg hf
    have hw2 : (m.vis.stepped E i).bestFitness = (if m.vis.info.isBetter (i.best m.vis.info) m.vis.bestFitness then i.best m.vis.info else m.vis.bestFitness) ∧
        (m.vis.stepped E i).bestPoint = (if m.vis.info.isBetter (i.best m.vis.info) m.vis.bestFitness then (i.bestPt m.vis.info).map rounded else m.vis.bestPoint) ∧
        (m.vis.stepped E i).curFitness = i.best m.vis.info ∧ (m.vis.stepped E i).curPoint = i.bestPt m.vis.info := by
      rw [hs, track_fields]
      cases i.interrupt <;> exact ⟨rfl, rfl, rfl, rfl⟩
    obtain ⟨e1, e2, e3, e4⟩ := hw2
    rw [e1] at h3; rw [e2] at h4; rw [e3] at h5; rw [e4] at h7
    rw [hi] at h3 h4 h5 h7
    have hcl : m'.vis.curPoint.length = info.dim := by rw [h7]; exact hb
    by_cases hbt : info.isBetter (i.best info) m.vis.bestFitness = true
    · rw [if_pos hbt] at h3 h4
      refine ⟨⟨hwf.info_eq, hwf.len, hcl, .inr ?_⟩, .inr ⟨by rw [h5, h3], by rw [h7, h4]⟩⟩
      rw [h3]
      rcases h.reached with hr | hr
      · rw [← hr]; exact hbt
      · exact better_trans hbt hr
    · rw [if_neg hbt] at h3 h4
      exact ⟨⟨hwf.info_eq, hwf.len, hcl, by rw [h3]; exact h.reached⟩, .inl h3⟩

theorem AgreeInv.finish {o run : List Nat} {p : Pool} (I : AgreeInv o run p) {i : Nat} (hio : i ∈ o) (hir : i ∈ run) (hnd : run.Nodup) {m m' : Opt}
    (hm : p.members[i]? = some m) (h1 : MemOk p.own.info m') (h2 : m'.vis.bestFitness = m.vis.bestFitness ∨ m'.Agree) :
    AgreeInv o (run.erase i) { p with members := p.members.set i m' } := by
  have hl : i < p.members.length := (List.getElem?_eq_some_iff.1 hm).1
  refine ⟨fun k x hx => ?_, I.best⟩
  by_cases hik : i = k
  · subst hik
    have : x = m' := by simpa [hl] using hx.symm
    subst this
    refine ⟨h1, ?_⟩
    rcases h2 with h2 | h2
    · left
      rcases (I.mem i m hm).2 with h3 | ⟨-, h3, -⟩
      · rw [h2]; exact h3
      · exact absurd hir h3
    · exact .inr ⟨hio, hnd.not_mem_erase, h2⟩
  · have hx : p.members[k]? = some x := by
      rw [← hx]; exact (List.getElem?_set_ne hik).symm
    obtain ⟨h3, h4⟩ := I.mem k x hx
    refine ⟨h3, ?_⟩
    rcases h4 with h4 | ⟨a, b, h4⟩
    · exact .inl h4
    · exact .inr ⟨a, fun hc => b (List.mem_of_mem_erase hc), h4⟩

theorem view_of {p : Pool} {m : Opt} (h : p.bestMember = .ok m) : p.view = .ok { p.own with
    bestFitness := m.vis.bestFitness, bestPoint := m.vis.bestPoint, curFitness := m.vis.curFitness
    curFitnesses := m.vis.curFitnesses, curPoint := m.vis.curPoint } := by
  unfold Pool.view; rw [h]; rfl

/-- A future is looked at. If that is announced, the getters of the pool show the announced point as the best of the current step. -/
theorem AgreeInv.collect {is run : List Nat} {i : Nat} {p p' : Pool} (I : AgreeInv (i :: is) run p)
    (h : p.collect i = (p', .ok ())) : AgreeInv is run p' ∧ ∃ v, p'.view = .ok v ∧ v.info = p.own.info ∧ v.curPoint.length = p.own.info.dim ∧ v.stepCount = p.own.stepCount ∧
      ∀ q f fs, p'.log = p.log ++ [.newBest q f, .postEvaluate [] fs true] → f = p.own.info.worstFitness ∨ v.curFitness = f ∧ v.curPoint.map rounded = q := by
  have hs := collect_face h
  obtain ⟨-, ho, -⟩ := collect_fields h
  obtain ⟨m, fs, hm, hl⟩ := collect_log h
  obtain ⟨m', hm', hb⟩ := collect_best h
  rw [hm] at hm'; cases hm'
  obtain ⟨y, hy, hfy⟩ := face_get hs hm
  obtain ⟨hok, hag⟩ := I.mem i m hm
  have hfy' := hfy
  simp only [Opt.face, Prod.mk.injEq] at hfy'
  obtain ⟨f1, f2, f3, f4, f5, f6⟩ := hfy'
  split at hb
  · rename_i hc
    rw [if_pos hc] at hl
    obtain ⟨b1, b2⟩ := hb
    refine ⟨⟨fun k x hx => ?_, fun _ => by rw [ho, b2]; exact hok.reached⟩, ?_⟩
    · obtain ⟨x', hx', hfx⟩ := face_get hs.symm hx
      obtain ⟨h1, h2⟩ := I.mem k x' hx'
      have hbf : x.vis.bestFitness = x'.vis.bestFitness := by simp only [Opt.face, Prod.mk.injEq] at hfx; exact hfx.2.1.symm
      refine ⟨by rw [ho]; exact h1.face hfx.symm, ?_⟩
      by_cases hki : k = i
      · subst hki
        rw [hm] at hx'; cases hx'
        left
        refine ⟨fun hn => (by rw [b1] at hn; cases hn), fun _ => ?_⟩
        rw [ho, b2, hbf]; exact better_irrefl _ _
      · rcases h2 with h2 | ⟨a, b, h2⟩
        · left
          refine ⟨fun hn => (by rw [b1] at hn; cases hn), fun _ => ?_⟩
          rw [ho, b2, hbf]
          cases hx0 : p.bestIdx with
          | none =>
            rw [h2.1 hx0]
            rcases hok.reached with hr | hr
            · rw [hr]; exact better_irrefl _ _
            · by_contra hcon
              rw [Bool.not_eq_false] at hcon
              have := better_trans hcon hr
              rw [better_irrefl] at this; cases this
          | some k0 =>
            have h3 := h2.2 (by rw [hx0]; simp)
            rcases hc with hc | hc
            · rw [hx0] at hc; cases hc
            · by_contra hcon
              rw [Bool.not_eq_false] at hcon
              rw [better_trans hcon hc] at h3; cases h3
        · exact .inr ⟨by simpa [hki] using a, b, h2.face hfx.symm⟩
    · have hbm : p'.bestMember = .ok y := by unfold Pool.bestMember; rw [b1]; dsimp only; rw [hy]
      refine ⟨_, view_of hbm, by dsimp only; rw [ho], by dsimp only; rw [f6]; exact hok.cur_len, by dsimp only; rw [ho], ?_⟩
      intro q f fs' hlog
      rw [hl] at hlog
      have := List.append_cancel_left hlog
      simp only [List.cons.injEq, Event.newBest.injEq] at this
      obtain ⟨⟨rfl, rfl⟩, -⟩ := this
      rcases hag with hag | ⟨-, -, hag⟩
      · left
        cases hx0 : p.bestIdx with
        | none => exact hag.1 hx0
        | some k0 =>
          rcases hc with hc | hc
          · rw [hx0] at hc; cases hc
          · rw [hag.2 (by rw [hx0]; simp)] at hc; cases hc
      · right
        dsimp only
        rw [f4, f6]; exact hag
  · rename_i hc
    rw [if_neg hc] at hl
    push Not at hc
    obtain ⟨b1, b2⟩ := hb
    refine ⟨⟨fun k x hx => ?_, by rw [b1, b2, ho]; exact I.best⟩, ?_⟩
    · obtain ⟨x', hx', hfx⟩ := face_get hs.symm hx
      obtain ⟨h1, h2⟩ := I.mem k x' hx'
      have hbf : x.vis.bestFitness = x'.vis.bestFitness := by simp only [Opt.face, Prod.mk.injEq] at hfx; exact hfx.2.1.symm
      refine ⟨by rw [ho]; exact h1.face hfx.symm, ?_⟩
      by_cases hki : k = i
      · subst hki
        rw [hm] at hx'; cases hx'
        left
        refine ⟨fun hn => absurd (b1 ▸ hn) hc.1, fun _ => ?_⟩
        rw [ho, b2, hbf]; simpa using hc.2
      · rcases h2 with h2 | ⟨a, b, h2⟩
        · left; unfold Pool.Low at *; rw [b1, ho, b2, hbf]; exact h2
        · exact .inr ⟨by simpa [hki] using a, b, h2.face hfx.symm⟩
    · obtain ⟨k, hk⟩ := Option.ne_none_iff_exists'.1 hc.1
      -- the best member exists because the call had a result
      have hv : ∃ b, p'.bestMember = .ok b := by
        unfold Pool.collect at h
        rw [hm] at h
        dsimp only at h
        rw [show (p.bestIdx.isNone || p.own.info.isBetter m.vis.bestFitness p.best) = false by simp [hk, hc.2]] at h
        simp only [Bool.false_and, Bool.false_eq_true, if_false, if_true] at h
        split at h
        · rename_i b hb'
          refine ⟨b, ?_⟩
          rw [← (Prod.mk.inj h).1]
          exact hb'
        · cases h
      obtain ⟨b, hb'⟩ := hv
      have hkb : p'.members[k]? = some b := by
        unfold Pool.bestMember at hb'
        rw [b1, hk] at hb'
        dsimp only at hb'
        split at hb'
        · rename_i m2 hm2; rw [hm2]; exact congrArg some (Res.ok.inj hb')
        · cases hb'
      obtain ⟨b', hkb', hfb⟩ := face_get hs.symm hkb
      have hb2 := (I.mem k b' hkb').1.face hfb.symm
      refine ⟨_, view_of hb', by dsimp only; rw [ho], hb2.cur_len, by dsimp only; rw [ho], ?_⟩
      intro q f fs' hlog
      rw [hl] at hlog
      have := List.append_cancel_left hlog
      simp at this

/-! ## the calls -/

/-- What is known about a call in step `n`. -/
def Call.Good (info : ObjInfo) (n : Nat) (x : Call) : Prop :=
  match x.event with
  | .newBest q f => x.vis.stepCount = n ∧ x.vis.info = info ∧ x.vis.curPoint.length = info.dim ∧
      (f = info.worstFitness ∨ x.vis.curFitness = f ∧ x.vis.curPoint.map rounded = q)
  | .postEvaluate _ _ _ => x.vis.stepCount = n ∧ x.vis.info = info ∧ x.vis.curPoint.length = info.dim
  | .preEvaluate _ => False
  | _ => True

/-- The state during a step. -/
structure AgreeRun (info : ObjInfo) (n : Nat) (r : RunSt) : Prop where
  inv : AgreeInv r.futs r.running r.pool
  sub : ∀ i ∈ r.running, i ∈ r.futs
  nodup : r.running.Nodup
  info_eq : r.pool.own.info = info
  count : r.pool.own.stepCount = n

theorem bests_append (xs ys : List Call) : bests (xs ++ ys) = bests xs ++ bests ys := List.filter_append ..

theorem collect_events {p p' : Pool} {i : Nat} (h : p.collect i = (p', .ok ())) {ys : List Call} (hl : p'.log = p.log ++ ys.map Call.event) :
    (∃ q f fs, ys.map Call.event = [.newBest q f, .postEvaluate [] fs true]) ∨ ∃ fs, ys.map Call.event = [.postEvaluate [] fs false] := by
  obtain ⟨m, fs, -, hlog⟩ := collect_log h
  rw [hl] at hlog
  have := List.append_cancel_left hlog
  split at this
  · exact .inl ⟨_, _, fs, this⟩
  · exact .inr ⟨fs, this⟩

theorem map_event_one {ys : List Call} {e : Event} (h : ys.map Call.event = [e]) : ∃ y, ys = [y] ∧ y.event = e := by
  obtain ⟨y, l, rfl, h1, h2⟩ := List.map_eq_cons_iff.1 h
  rw [List.map_eq_nil_iff] at h2
  subst h2
  exact ⟨y, rfl, h1⟩

theorem map_event_two {ys : List Call} {e e' : Event} (h : ys.map Call.event = [e, e']) : ∃ y y', ys = [y, y'] ∧ y.event = e ∧ y'.event = e' := by
  obtain ⟨y, l, rfl, h1, h2⟩ := List.map_eq_cons_iff.1 h
  obtain ⟨y', rfl, h3⟩ := map_event_one h2
  exact ⟨y, y', rfl, h1, h3⟩

theorem AgreeRun.hears {ins : Nat → In} {info : ObjInfo} {n : Nat} (hd : info.dim ≠ 0) (hi : ∀ k, (ins k).Valid info) {r t : RunSt} {xs : List Call}
    (h : RunHears E ins r xs t) (ht : t.threw = false) (R : AgreeRun info n r) :
    AgreeRun info n t ∧ (∀ x ∈ xs, x.Good info n) ∧ (bests xs).length + t.futs.length ≤ r.futs.length := by
  induction h with
  | nil => exact ⟨R, by simp, by simp [bests]⟩
  | @snoc s t xs ys hx st hl hv ih =>
    have same : t.pool.log = s.pool.log → AgreeRun info n s ∧ (∀ x ∈ xs, x.Good info n) ∧ (bests xs).length + s.futs.length ≤ r.futs.length →
        AgreeRun info n t → t.futs.length = s.futs.length → AgreeRun info n t ∧ (∀ x ∈ xs ++ ys, x.Good info n) ∧ (bests (xs ++ ys)).length + t.futs.length ≤ r.futs.length := by
      intro e ih R' hf
      rw [e] at hl
      have : ys = [] := by
        have := congrArg List.length hl
        simp at this; exact this
      subst this
      rw [List.append_nil, hf]
      exact ⟨R', ih.2⟩
    cases st with
    | @finish i m m' x h hm hs =>
      have IH := ih ht
      have I := IH.1
      have hok := (I.inv.mem i m hm).1
      rw [I.info_eq] at hok
      have hb := step_member (E := E) hd (hi i) hok
      rw [hs] at hb
      refine same rfl IH ⟨I.inv.finish (I.sub i h) h I.nodup hm (by rw [I.info_eq]; exact hb.1) hb.2, fun j hj => I.sub j (List.mem_of_mem_erase hj),
        I.nodup.erase i, I.info_eq, I.count⟩ rfl
    | @fail i m m' h hm hs =>
      have IH := ih ht
      have I := IH.1
      have hok := (I.inv.mem i m hm).1
      rw [I.info_eq] at hok
      have hb := step_member (E := E) hd (hi i) hok
      rw [hs] at hb
      refine same rfl IH ⟨I.inv.finish (I.sub i h) h I.nodup hm (by rw [I.info_eq]; exact hb.1) hb.2, fun j hj => I.sub j (List.mem_of_mem_erase hj),
        I.nodup.erase i, I.info_eq, I.count⟩ rfl
    | @collect i is p h hr hf hc =>
      obtain ⟨I, hg, hlen⟩ := ih ht
      have hinv := I.inv
      rw [h] at hinv
      obtain ⟨I', v, hview, v1, v2, v3, v4⟩ := hinv.collect hc
      have ho := (collect_fields hc).2.1
      rw [I.info_eq] at v1 v2 v4
      rw [I.count] at v3
      have hys : ∀ y ∈ ys, y.vis = v := fun y hy => Res.ok.inj ((hv y hy).symm.trans hview)
      refine ⟨⟨I', fun j hj => ?_, I.nodup, by dsimp only; rw [ho]; exact I.info_eq, by dsimp only; rw [ho]; exact I.count⟩, ?_, ?_⟩
      · have := I.sub j hj
        rw [h] at this
        rcases List.mem_cons.1 this with rfl | h'
        · exact absurd hj hr
        · exact h'
      · intro x hx
        rcases List.mem_append.1 hx with hx | hx
        · exact hg x hx
        · rcases collect_events hc hl with ⟨q, f, fs, he⟩ | ⟨fs, he⟩
          · have hlog := hl
            dsimp only at hlog
            rw [he] at hlog
            have v4 := v4 q f fs hlog
            obtain ⟨y, y', rfl, e1, e2⟩ := map_event_two he
            have hxv := hys x hx
            rcases List.mem_cons.1 hx with rfl | hx
            · unfold Call.Good; rw [e1]; dsimp only; rw [hxv]
              exact ⟨v3, v1, v2, v4⟩
            · rw [List.mem_singleton] at hx; subst hx
              unfold Call.Good; rw [e2]; dsimp only; rw [hxv]
              exact ⟨v3, v1, v2⟩
          · obtain ⟨y, rfl, e1⟩ := map_event_one he
            have hxv := hys x hx
            rw [List.mem_singleton] at hx; subst hx
            unfold Call.Good; rw [e1]; dsimp only; rw [hxv]
            exact ⟨v3, v1, v2⟩
      · rw [bests_append, List.length_append]
        dsimp only
        have : (bests ys).length ≤ 1 := by
          rcases collect_events hc hl with ⟨q, f, fs, he⟩ | ⟨fs, he⟩
          · obtain ⟨y, y', rfl, e1, e2⟩ := map_event_two he
            simp [bests, Call.isBest, e1, e2]
          · obtain ⟨y, rfl, e1⟩ := map_event_one he
            simp [bests, Call.isBest, e1]
        rw [h, List.length_cons] at hlen
        omega
    | throws => cases ht
    | rethrow => cases ht
    | interrupt =>
      have IH := ih ht
      have I := IH.1
      exact same rfl IH ⟨I.inv.congr (interrupt_face _) rfl rfl rfl, I.sub, I.nodup, I.info_eq, I.count⟩ rfl

theorem unused_mem {info : ObjInfo} {m : Opt} (hd : info.dim ≠ 0) (h : m.Unused E info) : MemOk info m ∧ m.vis.bestFitness = info.worstFitness := by
  obtain ⟨k, h, rfl, hs⟩ := h
  have := (history_induction (E := E) hd (new_WF info k) (fun h s => (∀ o ∈ h, ∀ i, o ≠ .step i) → MemOk info s ∧ s.vis.bestFitness = info.worstFitness) (by
      intro _
      have hb : (Opt.new info k).vis.bestFitness = info.worstFitness := by simp [Opt.new, Opt.init, Opt.addCond, Cond.minWindow]
      refine ⟨⟨(new_WF info k).info_eq, (new_WF info k).len, ?_, .inl hb⟩, hb⟩
      simp [Opt.new, Opt.init, Opt.addCond, Cond.minWindow, SearchPoint.ofInfo, ObjInfo.dim]) (by
    intro h s o hw ho ih hs
    obtain ⟨h1, h2⟩ := ih (fun o ho => hs o (by simp [ho]))
    have hne := hs o (by simp)
    have hc := apply_core E s o hd hw ho
    have hf : (o.onVis E s.vis).info = s.vis.info ∧ (o.onVis E s.vis).bestFitness = s.vis.bestFitness ∧ (o.onVis E s.vis).bestPoint = s.vis.bestPoint ∧
        (o.onVis E s.vis).curPoint = s.vis.curPoint := by
      cases o with
      | step i => exact absurd rfl (hne i)
      | addCond c => simp only [Op.onVis]; split <;> exact ⟨rfl, rfl, rfl, rfl⟩
      | _ => exact ⟨rfl, rfl, rfl, rfl⟩
    obtain ⟨e1, -, e3, e4, -, -, e7, -⟩ := core_ext hc
    rw [hf.1] at e1; rw [hf.2.1] at e3; rw [hf.2.2.1] at e4; rw [hf.2.2.2] at e7
    exact ⟨⟨e1.trans h1.info_eq, by rw [e4]; exact h1.best_len, by rw [e7]; exact h1.cur_len, by rw [e3]; exact h1.reached⟩, e3.trans h2⟩) h (by
    intro o ho
    cases o with
    | step i => exact absurd rfl (hs _ ho i)
    | _ => trivial)).2
  exact this hs

/-- The calls that may write a par file. -/
def Call.writes (x : Call) : Bool := match x.event with
  | .newBest _ _ => true
  | .postEvaluate _ _ _ => true
  | _ => false

theorem Call.Good.weak {info : ObjInfo} {n k : Nat} {x : Call} (h : x.Good info n) (hw : x.writes = false) : x.Good info k := by
  obtain ⟨ev, v, upd, la, st⟩ := x
  cases ev <;> first | exact h | (simp [Call.writes] at hw)

theorem Call.Good.count {info : ObjInfo} {n : Nat} {x : Call} (h : x.Good info n) (hw : x.writes = true) : x.vis.stepCount = n := by
  obtain ⟨ev, v, upd, la, st⟩ := x
  cases ev <;> first | exact h.1 | (simp [Call.writes] at hw)

theorem isBest_writes {x : Call} (h : x.isBest = true) : x.writes = true := by
  obtain ⟨ev, v, upd, la, st⟩ := x
  cases ev <;> first | rfl | (simp [Call.isBest] at h)

/-- Everything that is needed about the calls of a pool. -/
structure CallsOk (info : ObjInfo) (c n : Nat) (xs : List Call) : Prop where
  good : ∀ x ∈ xs, ∃ k, (x.writes = true → k < n) ∧ x.Good info k
  order : xs.Pairwise fun x y => x.writes = true → y.writes = true → x.vis.stepCount ≤ y.vis.stepCount
  single : c ≤ 1 → (bests xs).Pairwise fun x y => x.vis.stepCount < y.vis.stepCount

/-- The calls of one more step. -/
theorem CallsOk.append {info : ObjInfo} {c n : Nat} {xs ys : List Call} (h : CallsOk info c n xs) (hy : ∀ y ∈ ys, y.Good info n) (hb : (bests ys).length ≤ c) :
    CallsOk info c (n + 1) (xs ++ ys) := by
  have hlt : ∀ x ∈ xs, x.writes = true → x.vis.stepCount < n := by
    intro x hx hw
    obtain ⟨k, h1, h2⟩ := h.good x hx
    rw [h2.count hw]; exact h1 hw
  refine ⟨?_, ?_, ?_⟩
  · intro x hx
    rcases List.mem_append.1 hx with hx | hx
    · obtain ⟨k, h1, h2⟩ := h.good x hx; exact ⟨k, fun hw => by have := h1 hw; omega, h2⟩
    · exact ⟨n, fun _ => by omega, hy x hx⟩
  · rw [List.pairwise_append]
    refine ⟨h.order, ?_, ?_⟩
    · refine List.pairwise_of_forall_mem_list ?_
      intro a ha b hb' wa wb
      rw [(hy a ha).count wa, (hy b hb').count wb]
    · intro a ha b hb' wa wb
      rw [(hy b hb').count wb]; exact (hlt a ha wa).le
  · intro hc
    rw [bests_append, List.pairwise_append]
    refine ⟨h.single hc, ?_, ?_⟩
    · match hbs : bests ys with
      | [] => exact .nil
      | [y] => exact List.pairwise_singleton _ _
      | y :: z :: l => rw [hbs] at hb; simp at hb; omega
    · intro a ha b hb'
      obtain ⟨ha, wa⟩ := List.mem_filter.1 ha
      obtain ⟨hb', wb⟩ := List.mem_filter.1 hb'
      rw [(hy b hb').count (isBest_writes wb)]
      exact hlt a ha (isBest_writes wa)

/-- More calls that write nothing. -/
theorem CallsOk.quiet {info : ObjInfo} {c n : Nat} {xs ys : List Call} (h : CallsOk info c n xs) (hy : ∀ y ∈ ys, y.Good info 0 ∧ y.writes = false) :
    CallsOk info c n (xs ++ ys) := by
  have hb : bests ys = [] := by
    rw [bests, List.filter_eq_nil_iff]
    intro y hy' hb
    have := isBest_writes hb
    rw [(hy y hy').2] at this; cases this
  refine ⟨?_, ?_, fun hc => by rw [bests_append, hb, List.append_nil]; exact h.single hc⟩
  · intro x hx
    rcases List.mem_append.1 hx with hx | hx
    · exact h.good x hx
    · exact ⟨0, fun hw => (by rw [(hy x hx).2] at hw; cases hw), (hy x hx).1⟩
  · rw [List.pairwise_append]
    refine ⟨h.order, ?_, ?_⟩
    · refine List.pairwise_of_forall_mem_list ?_
      intro a ha b _ wa
      rw [(hy a ha).2] at wa; cases wa
    · intro a _ b hb' _ wb
      rw [(hy b hb').2] at wb; cases wb

theorem poolTest_stop (p : Pool) : (p.testStop E).1.log = p.log ∨ ∃ k, (p.testStop E).1.log = p.log ++ [.stop k] := by
  have hf := testLoop_fields E p.conds 0 p
  unfold Pool.testStop
  split
  · exact .inl rfl
  · split
    · rename_i k heq
      rw [heq] at hf
      have h9 := hf.2.2.2.2.2.2.2.2
      dsimp only at h9
      exact .inr ⟨k, by simp [Pool.signal, h9]⟩
    · rename_i heq
      rw [heq] at hf
      exact .inl hf.2.2.2.2.2.2.2.2

theorem quiet_stop {info : ObjInfo} {ys : List Call} {l l' : List Event} (h : l' = l ++ ys.map Call.event) (hl : l' = l ∨ ∃ k, l' = l ++ [.stop k]) :
    ∀ y ∈ ys, y.Good info 0 ∧ y.writes = false := by
  rcases hl with hl | ⟨k, hl⟩
  · have : ys = [] := by
      rw [hl] at h
      have := congrArg List.length h
      simp at this; exact this
    subst this; simp
  · rw [hl] at h
    obtain ⟨y, rfl, e⟩ := map_event_one (List.append_cancel_left h).symm
    intro x hx
    rw [List.mem_singleton] at hx; subst hx
    unfold Call.Good Call.writes; rw [e]; exact ⟨trivial, rfl⟩

theorem hears_ok {info : ObjInfo} {cfg : PoolCfg} {ls : List (List Nat × List Nat)} {xs : List Call} {p : Pool}
    (h : Pool.Hears E (Opt.Unused E info) (Pool.init cfg info) ls xs p) (hd0 : info.dim ≠ 0) :
    AgreeInv [] [] p ∧ p.own.info = info ∧ CallsOk info cfg.concurrent p.own.stepCount xs := by
  induction h with
  | nil =>
    exact ⟨⟨by simp [Pool.init], by simp [Pool.init]⟩, by simp [Pool.init, Opt.init, Opt.addCond, Cond.minWindow], ⟨by simp, .nil, fun _ => .nil⟩⟩
  | @step q p₁ p₂ p₃ ls xs pre ys post z ins t sel r h hi hd hne h1 h2 h3 hend h4 hpre hprev hz hzv hpost ih =>
    obtain ⟨I, hinfo, C⟩ := ih
    have Q := QueueInv.hist E h.hist ⟨rfl, by simp [Pool.init], rfl, by simp⟩
    have o1 : p₁.own = q.own := by rw [h1]; split <;> rfl
    have I1 : AgreeInv [] [] p₁ := by rw [h1]; split <;> exact I.congr rfl rfl rfl rfl
    have q1 : p₁.queue = q.queue := by rw [h1]; split <;> rfl
    have c1 : p₁.cfg = q.cfg := by rw [h1]; split <;> rfl
    obtain ⟨f1, f2, f3, f4, f5, f6, f7, f8, f9⟩ := refill_fields h2
    have I2 : AgreeInv [] [] p₂ := I1.congr (refill_face h2) (by rw [f2]) f5 f6
    have hnd2 : p₂.queue.Nodup := by
      obtain ⟨s1, -, s3⟩ := refill_sel E h2
      rw [f8, q1]
      by_cases hq : q.queue = []
      · rw [hq]; exact s1
      · rw [s3 (by rw [q1]; exact hq), List.append_nil]; exact Q.nodup
    have R0 : AgreeRun info q.own.stepCount p₂.launch := by
      refine ⟨⟨fun k m hm => ?_, I2.best⟩, fun i hi => hi, hnd2.sublist (List.take_sublist _ _), ?_, ?_⟩
      · obtain ⟨a, b⟩ := I2.mem k m hm
        refine ⟨a, .inl ?_⟩
        rcases b with b | ⟨b, -⟩
        · exact b
        · simp at b
      · show p₂.own.info = info; rw [f2, o1]; exact hinfo
      · show p₂.own.stepCount = _; rw [f2, o1]
    rw [hinfo] at hd hi
    obtain ⟨R, hg, hlen⟩ := R0.hears hd hi h3 hend.2.2
    have hin := R.inv
    rw [hend.1, hend.2.1] at hin
    have hf := poolTest_fields E { t.pool.signal .postStep with own := { t.pool.own with stepCount := t.pool.own.stepCount + 1 } }
    have hfa := poolTest_face E { t.pool.signal .postStep with own := { t.pool.own with stepCount := t.pool.own.stepCount + 1 } }
    have hlg := poolTest_stop (E := E) { t.pool.signal .postStep with own := { t.pool.own with stepCount := t.pool.own.stepCount + 1 } }
    rw [h4] at hf hfa hlg
    dsimp only at hf hfa hlg
    obtain ⟨g1, g2, -⟩ := core_ext hf.2.1
    have hci : p₃.own.info = t.pool.own.info := g1
    refine ⟨hin.congr hfa hci hf.2.2.2.2.2.1 hf.2.2.2.2.2.2, hci.trans R.info_eq, ?_⟩
    have hcnt : p₃.own.stepCount = q.own.stepCount + 1 := by rw [g2]; show t.pool.own.stepCount + 1 = _; rw [R.count]
    rw [hcnt]
    have hpre' : ∀ x ∈ pre, x.writes = false ∧ ∀ n, x.Good info n := by
      have he : pre.map Call.event = (if q.own.stepCount = 0 then [.start] else []) ++ [.preStep] := by
        have : p₁.log = q.log ++ ((if q.own.stepCount = 0 then [.start] else []) ++ [.preStep]) := by
          rw [h1]; split <;> simp [Pool.signal]
        exact List.append_cancel_left (hpre.symm.trans this)
      intro x hx
      have hmem : x.event ∈ pre.map Call.event := List.mem_map_of_mem hx
      rw [he] at hmem
      have : x.event = .start ∨ x.event = .preStep := by
        split at hmem
        · simpa using hmem
        · simp only [List.nil_append, List.mem_singleton] at hmem; exact .inr hmem
      unfold Call.Good Call.writes
      rcases this with e | e <;> rw [e] <;> exact ⟨rfl, fun _ => trivial⟩
    have hpost' : ∀ y ∈ post, y.Good info 0 ∧ y.writes = false := by
      refine quiet_stop (l := t.pool.log ++ [.postStep]) (l' := p₃.log) (by rw [hpost]; simp) ?_
      simpa [Pool.signal] using hlg
    have hzw : z.writes = false ∧ ∀ n, z.Good info n := by unfold Call.Good Call.writes; rw [hz]; exact ⟨rfl, fun _ => trivial⟩
    refine C.append ?_ ?_
    · intro y hy
      rcases List.mem_append.1 hy with hy | hy
      · exact (hpre' y hy).2 _
      · rcases List.mem_append.1 hy with hy | hy
        · exact hg y hy
        · rcases List.mem_cons.1 hy with rfl | hy
          · exact hzw.2 _
          · exact (hpost' y hy).1.weak (hpost' y hy).2
    · have hnb : ∀ l : List Call, (∀ y ∈ l, y.writes = false) → bests l = [] := by
        intro l hl
        rw [bests, List.filter_eq_nil_iff]
        intro y hy hb
        have := isBest_writes hb
        rw [hl y hy] at this; cases this
      rw [bests_append, bests_append, hnb pre (fun y hy => (hpre' y hy).1), hnb (z :: post) (by
        intro y hy
        rcases List.mem_cons.1 hy with rfl | hy
        · exact hzw.1
        · exact (hpost' y hy).2)]
      simp only [List.nil_append, List.append_nil]
      have : p₂.launch.futs.length ≤ cfg.concurrent := by
        show (p₂.queue.take p₂.cfg.concurrent).length ≤ _
        rw [f3, c1]
        have := Q.conc
        rw [show (Pool.init cfg info).cfg = cfg from rfl] at this
        rw [this]
        exact List.length_take_le _ _
      omega
  | @push q ls xs m h hm ih =>
    obtain ⟨I, hinfo, C⟩ := ih
    refine ⟨⟨fun k x hx => ?_, I.best⟩, hinfo, C⟩
    have hu := unused_mem hd0 hm
    have hp := congrArg (·[k]?) (push_face q m)
    simp only [List.getElem?_map, hx, Option.map_some] at hp
    rcases lt_or_ge k q.members.length with hlt | hge
    · rw [List.getElem?_append_left (by simpa using hlt), List.getElem?_map, List.getElem?_eq_getElem hlt] at hp
      simp only [Option.map_some, Option.some.injEq] at hp
      obtain ⟨a, b⟩ := I.mem k _ (List.getElem?_eq_getElem hlt)
      refine ⟨a.face hp, .inl ?_⟩
      have hbf : x.vis.bestFitness = q.members[k].vis.bestFitness := by simp only [Opt.face, Prod.mk.injEq] at hp; exact hp.2.1
      rw [hbf]
      rcases b with b | ⟨b, -⟩
      · exact b
      · simp at b
    · rw [List.getElem?_append_right (by simpa using hge)] at hp
      have hk0 : k - q.members.length = 0 := by
        by_contra hne
        rw [List.getElem?_eq_none (by simp; omega)] at hp
        cases hp
      simp only [List.length_map, hk0, List.getElem?_cons_zero, Option.some.injEq] at hp
      have hbf : x.vis.bestFitness = m.vis.bestFitness := by simp only [Opt.face, Prod.mk.injEq] at hp; exact hp.2.1
      have hqi : (q.push m).own.info = info := hinfo
      refine ⟨by rw [hqi]; exact hu.1.face hp, .inl ⟨fun _ => by rw [hqi, hbf]; exact hu.2, fun hne => ?_⟩⟩
      have hb := I.best hne
      rw [hqi, hbf, hu.2]
      rw [hinfo] at hb
      show info.isBetter info.worstFitness q.best = false
      rcases hb with hb | hb
      · rw [hb]; exact better_irrefl _ _
      · by_contra hcon
        rw [Bool.not_eq_false] at hcon
        have := better_trans hcon hb
        rw [better_irrefl] at this; cases this
  | @addCond q ls xs c h ih =>
    obtain ⟨I, hinfo, C⟩ := ih
    have h1 : (q.addCond c).own.info = q.own.info := by unfold Pool.addCond; dsimp only; split <;> rfl
    have h2 : (q.addCond c).own.stepCount = q.own.stepCount := by unfold Pool.addCond; dsimp only; split <;> rfl
    exact ⟨I.congr rfl h1 rfl rfl, h1.trans hinfo, by rw [h2]; exact C⟩
  | interrupt h ih =>
    obtain ⟨I, hinfo, C⟩ := ih
    exact ⟨I.congr (interrupt_face _) rfl rfl rfl, hinfo, C⟩
  | @test q ls xs ys h hl ih =>
    obtain ⟨I, hinfo, C⟩ := ih
    have hf := poolTest_fields E q
    obtain ⟨g1, g2, -⟩ := core_ext hf.2.1
    refine ⟨I.congr (poolTest_face E q) g1 hf.2.2.2.2.2.1 hf.2.2.2.2.2.2, g1.trans hinfo, ?_⟩
    rw [g2]
    exact C.quiet (quiet_stop hl (poolTest_stop q))

/-! ## the files -/

/-- The par file that a call wrote is there. -/
def Call.There (c : FileCfg) (files : Str → Option Str) (x : Call) : Prop :=
  files (c.parName x.vis) = some ((SearchPoint.mk x.upd (x.vis.curPoint.map rounded)).write c.fmt)

/-- What holds after the calls `xs`. -/
structure PInv (c : FileCfg) (xs : List Call) (r : FileRep) : Prop where
  rc : bests xs = [] ∧ r.recent = [] ∨ (∃ x, bests xs = [x] ∧ r.recent = [(c.parName x.vis, x.vis.curFitness)]) ∨
    ∃ pre x y, bests xs = pre ++ [x] ∧ y ∈ pre ∧ r.recent = [(c.parName y.vis, y.vis.curFitness), (c.parName x.vis, x.vis.curFitness)]
  out : ∀ x ∈ bests xs, (∀ z ∈ xs, z.writes = true → z.vis.stepCount ≤ x.vis.stepCount) → r.lastOutput = x.vis.stepCount % 2 ^ 64
  last : ∀ x, (bests xs).getLast? = some x → x.There c r.files
  first : ∀ x, (bests xs).head? = some x → x.There c r.files

theorem PInv.quiet {c : FileCfg} {xs : List Call} {r r' : FileRep} {x : Call} (I : PInv c xs r) (hb : x.isBest = false) (hr : r'.recent = r.recent) (ho : r'.lastOutput = r.lastOutput)
    (hf : r'.files = r.files) : PInv c (xs ++ [x]) r' := by
  have e : bests (xs ++ [x]) = bests xs := by rw [bests_append]; simp [bests, hb]
  refine ⟨by rw [e, hr]; exact I.rc, ?_, by rw [e, hf]; exact I.last, by rw [e, hf]; exact I.first⟩
  rw [e, ho]
  exact fun y hy hz => I.out y hy (fun z h => hz z (by simp [h]))

theorem bests_sub {xs : List Call} {x : Call} (h : x ∈ bests xs) : x ∈ xs ∧ x.isBest = true := List.mem_filter.1 h

theorem PInv.step {c : FileCfg} {info : ObjInfo} {xs : List Call} {r : FileRep} {x : Call} {k : Nat} (hm : 1 ≤ c.maxSteps) (hg : x.Good info k) (hu : x.upd.dim = info.dim)
    (hord : ∀ y ∈ xs, y.writes = true → x.writes = true → y.vis.stepCount ≤ x.vis.stepCount)
    (hnd : ((bests (xs ++ [x])).map fun y => c.parName y.vis).Nodup) (I : PInv c xs r) :
    ∃ r', r.on c E x = .ok r' ∧ PInv c (xs ++ [x]) r' := by
  unfold FileRep.on
  obtain ⟨ev, v, upd, la, st⟩ := x
  cases ev with
  | start => refine ⟨_, rfl, I.quiet rfl ?_ ?_ ?_⟩ <;> (split <;> rfl)
  | preStep => exact ⟨_, rfl, I.quiet rfl rfl rfl rfl⟩
  | stop _ => exact ⟨_, rfl, I.quiet rfl rfl rfl rfl⟩
  | postStep => refine ⟨_, rfl, I.quiet rfl ?_ ?_ ?_⟩ <;> (split <;> rfl)
  | preEvaluate _ => exact absurd hg (by simp [Call.Good])
  | postEvaluate pop fs nb =>
    obtain ⟨g1, g2, g3⟩ : v.stepCount = k ∧ v.info = info ∧ v.curPoint.length = info.dim := hg
    dsimp only
    split
    · next hmax =>
      obtain ⟨x, hx⟩ : ∃ x : Call, x = ⟨.postEvaluate pop fs nb, v, upd, la, st⟩ := ⟨_, rfl⟩
      have hxv : x.vis = v := by rw [hx]
      have hxw : x.writes = true := by rw [hx]; rfl
      have hxb : x.isBest = false := by rw [hx]; rfl
      rw [← hx] at hnd hord ⊢
      refine ⟨_, write_ok (info := info) (by rw [hxv]; exact g3) (by rw [hx]; exact hu) false, ?_⟩
      have e : bests (xs ++ [x]) = bests xs := by rw [bests_append]; simp [bests, hxb]
      -- no best of this step
      have hno : ∀ y ∈ bests xs, y.vis.stepCount < v.stepCount := by
        intro y hy
        obtain ⟨hy1, hy2⟩ := bests_sub hy
        have h1 := hord y hy1 (isBest_writes hy2) hxw
        rw [hxv] at h1
        rcases lt_or_eq_of_le h1 with h1 | h1
        · exact h1
        · have := I.out y hy (fun z hz hw => by rw [h1, ← hxv]; exact hord z hz hw hxw)
          rw [this, h1] at hmax
          have h2 : (v.stepCount % 2 ^ 64 + 2 ^ 64 - v.stepCount % 2 ^ 64) = 2 ^ 64 := by omega
          rw [h2] at hmax; simp at hmax; omega
      have hfiles : ∀ y ∈ bests xs, (r.put c x).files (c.parName y.vis) = r.files (c.parName y.vis) := by
        intro y hy
        refine putFile_ne fun he => absurd (parName_inj he) ?_
        have := hno y hy
        rw [hxv]; omega
      refine ⟨by rw [e]; exact I.rc, ?_, ?_, ?_⟩
      · rw [e]
        intro y hy hz
        have := hz x (by simp) hxw
        have := hno y hy
        rw [hxv] at *; omega
      · rw [e]; intro y hy
        have := I.last y hy
        unfold Call.There at *
        exact (hfiles y (List.mem_of_getLast? hy)).trans this
      · rw [e]; intro y hy
        have := I.first y hy
        unfold Call.There at *
        exact (hfiles y (List.mem_of_mem_head? hy)).trans this
    · exact ⟨_, rfl, I.quiet rfl rfl rfl rfl⟩
  | newBest q f =>
    obtain ⟨g1, g2, g3, g4⟩ : v.stepCount = k ∧ v.info = info ∧ v.curPoint.length = info.dim ∧ _ := hg
    obtain ⟨x, hx⟩ : ∃ x : Call, x = ⟨.newBest q f, v, upd, la, st⟩ := ⟨_, rfl⟩
    have hxv : x.vis = v := by rw [hx]
    have hxw : x.writes = true := by rw [hx]; rfl
    have hxb : bests [x] = [x] := by rw [hx]; rfl
    dsimp only
    rw [← hx] at hnd hord ⊢
    rw [write_ok (info := info) (by rw [hxv]; exact g3) (by rw [hx]; exact hu) true, if_pos rfl]
    have e : bests (xs ++ [x]) = bests xs ++ [x] := by rw [bests_append, hxb]
    rw [e] at hnd
    have hne : ∀ y ∈ bests xs, c.parName y.vis ≠ c.parName x.vis := by
      intro y hy he
      rw [List.map_append, List.nodup_append] at hnd
      exact hnd.2.2 (c.parName y.vis) (List.mem_map_of_mem hy) (c.parName x.vis) (by simp) he
    have hput : x.There c (r.put c x).files := putFile_self _ _ _
    have hputne : ∀ y ∈ bests xs, y.There c r.files → y.There c (r.put c x).files := by
      intro y hy h
      unfold Call.There at *
      exact (putFile_ne (hne y hy)).trans h
    have hout : ∀ y ∈ bests xs ++ [x], (∀ z ∈ xs ++ [x], z.writes = true → z.vis.stepCount ≤ y.vis.stepCount) → x.vis.stepCount % 2 ^ 64 = y.vis.stepCount % 2 ^ 64 := by
      intro y hy hz
      have h1 := hz x (by simp) hxw
      rcases List.mem_append.1 hy with hy | hy
      · obtain ⟨hy1, hy2⟩ := bests_sub hy
        have h2 := hord y hy1 (isBest_writes hy2) hxw
        rw [show x.vis.stepCount = y.vis.stepCount by omega]
      · rw [List.mem_singleton] at hy; rw [hy]
    rcases I.rc with ⟨e0, hr⟩ | ⟨y, e0, hr⟩ | ⟨pre, z, y, e0, hy, hr⟩
    · refine ⟨_, by unfold FileRep.cleanup; rw [show (r.put c x).recent = r.recent from rfl, hr]; rfl, ?_⟩
      refine ⟨.inr (.inl ⟨x, by rw [e, e0]; rfl, rfl⟩), by rw [e]; exact hout, ?_, ?_⟩
      · rw [e, e0]; intro y hy; simp at hy; subst hy; exact hput
      · rw [e, e0]; intro y hy; simp at hy; subst hy; exact hput
    · refine ⟨_, by unfold FileRep.cleanup; rw [show (r.put c x).recent = r.recent from rfl, hr]; rfl, ?_⟩
      refine ⟨.inr (.inr ⟨[y], x, y, by rw [e, e0], by simp, rfl⟩), by rw [e]; exact hout, ?_, ?_⟩
      · rw [e, e0]; intro w hw; simp at hw; subst hw; exact hput
      · rw [e, e0]; intro w hw; simp at hw; subst hw
        exact hputne y (by rw [e0]; simp) (I.last y (by rw [e0]; rfl))
    · have hzb : z ∈ bests xs := by rw [e0]; simp
      have hyb : y ∈ bests xs := by rw [e0]; exact List.mem_append_left _ hy
      have hpre : pre ≠ [] := List.ne_nil_of_mem hy
      obtain ⟨w0, ws, hws⟩ := List.exists_cons_of_ne_nil hpre
      have hw0 : (bests xs).head? = some w0 := by rw [e0, hws]; rfl
      have hz0 : c.parName w0.vis ≠ c.parName z.vis := by
        intro he
        rw [List.map_append, List.nodup_append] at hnd
        have := hnd.1
        rw [e0, List.map_append, List.nodup_append] at this
        exact this.2.2 (c.parName w0.vis) (List.mem_map_of_mem (by rw [hws]; simp)) (c.parName z.vis) (by simp) he
      have hhead : ∀ w, (bests xs ++ [x]).head? = some w → w = w0 := by
        intro w hw
        rw [e0, hws] at hw
        simpa using hw.symm
      unfold FileRep.cleanup
      rw [show (r.put c x).recent = r.recent from rfl, hr]
      dsimp only [List.cons_append, List.nil_append]
      split
      · refine ⟨_, rfl, .inr (.inr ⟨bests xs, x, y, e, hyb, rfl⟩), by rw [e]; exact hout, ?_, ?_⟩
        · rw [e]; intro w hw; simp at hw; subst hw
          exact (removeFile_ne (hne z hzb).symm).trans hput
        · rw [e]; intro w hw
          rw [hhead w hw]
          exact (removeFile_ne hz0).trans (hputne w0 (List.mem_of_mem_head? hw0) (I.first w0 hw0))
      · refine ⟨_, rfl, .inr (.inr ⟨bests xs, x, z, e, hzb, rfl⟩), by rw [e]; exact hout, ?_, ?_⟩
        · rw [e]; intro w hw; simp at hw; subst hw; exact hput
        · rw [e]; intro w hw
          rw [hhead w hw]
          exact hputne w0 (List.mem_of_mem_head? hw0) (I.first w0 hw0)

theorem run_append (c : FileCfg) (E : OptEnv) (xs : List Call) (x : Call) : ∀ r, FileRep.run c E r (xs ++ [x]) = FileRep.run c E r xs >>= fun r => r.on c E x := by
  induction xs with
  | nil => intro r; simp only [List.nil_append, FileRep.run]; show _ = r.on c E x; cases r.on c E x <;> rfl
  | cons y ys ih =>
    intro r
    simp only [List.cons_append, FileRep.run]
    cases r.on c E y with
    | ok r' => exact ih r'
    | err => rfl
    | ub => rfl

theorem PInv.run {c : FileCfg} {info : ObjInfo} {n m : Nat} (hm : 1 ≤ c.maxSteps) (fs : Str → Option Str) : ∀ {xs : List Call}, CallsOk info n m xs → (∀ x ∈ xs, x.upd.dim = info.dim) →
    ((bests xs).map fun y => c.parName y.vis).Nodup → ∃ r, FileRep.run c E { files := fs } xs = .ok r ∧ PInv c xs r := by
  intro xs
  induction xs using List.reverseRecOn with
  | nil => exact fun _ _ _ => ⟨_, rfl, .inl ⟨rfl, rfl⟩, by simp [bests], by simp [bests], by simp [bests]⟩
  | append_singleton xs x ih =>
    intro C hu hnd
    have C' : CallsOk info n m xs := ⟨fun y hy => C.good y (by simp [hy]), (List.pairwise_append.1 C.order).1, fun h => by
      have := C.single h; rw [bests_append, List.pairwise_append] at this; exact this.1⟩
    obtain ⟨r, h1, I⟩ := ih C' (fun y hy => hu y (by simp [hy])) (by
      rw [bests_append, List.map_append, List.nodup_append] at hnd; exact hnd.1)
    obtain ⟨k, -, hg⟩ := C.good x (by simp)
    obtain ⟨r', h2, I'⟩ := I.step (E := E) hm hg (hu x (by simp)) (fun y hy => (List.pairwise_append.1 C.order).2.2 y hy x (by simp)) hnd
    exact ⟨r', by rw [run_append, h1]; exact h2, I'⟩

/-! ## the theorems -/

/-- **C105.** When a pool whose members were added before their first step announces a new best, the best point and fitness of the current step, as its getters return them to the reporters,
are the announced ones (unless the announced fitness is the worst possible one, see C40). -/
theorem C105_announced (info : ObjInfo) (hd : info.dim ≠ 0) (cfg : PoolCfg) {ls : List (List Nat × List Nat)} {xs : List Call} {p : Pool}
    (h : Pool.Hears E (Opt.Unused E info) (Pool.init cfg info) ls xs p) : ∀ x ∈ xs, ∀ q f, x.event = .newBest q f →
      f = info.worstFitness ∨ x.vis.curFitness = f ∧ x.vis.curPoint.map rounded = q := by
  intro x hx q f he
  obtain ⟨k, -, hg⟩ := (hears_ok h hd).2.2.good x hx
  unfold Call.Good at hg
  rw [he] at hg
  exact hg.2.2.2

/-- **C105.** A file reporter of a pool works for all its calls. If the files of the announced bests have different names, then the files of the first and the last announced best are there
and hold the announced points (unless the announced fitness is the worst possible one). -/
theorem C105_files (info : ObjInfo) (hd : info.dim ≠ 0) (cfg : PoolCfg) {ls : List (List Nat × List Nat)} {xs : List Call} {p : Pool}
    (h : Pool.Hears E (Opt.Unused E info) (Pool.init cfg info) ls xs p) (c : FileCfg) (hm : 1 ≤ c.maxSteps) (hu : ∀ x ∈ xs, x.upd.dim = info.dim) (fs : Str → Option Str)
    (hn : ((bests xs).map fun x => c.parName x.vis).Nodup) :
    ∃ r, FileRep.run c E { files := fs } xs = .ok r ∧ ∀ x, (bests xs).head? = some x ∨ (bests xs).getLast? = some x → ∀ q f, x.event = .newBest q f → f ≠ info.worstFitness →
      r.files (c.parName x.vis) = some ((SearchPoint.mk x.upd q).write c.fmt) := by
  obtain ⟨r, h1, I⟩ := PInv.run (E := E) hm fs (hears_ok h hd).2.2 hu hn
  refine ⟨r, h1, fun x hx q f he hf => ?_⟩
  have ht : x.There c r.files ∧ x ∈ bests xs := by
    rcases hx with hx | hx
    · exact ⟨I.first x hx, List.mem_of_mem_head? hx⟩
    · exact ⟨I.last x hx, List.mem_of_getLast? hx⟩
  rcases C105_announced info hd cfg h x (bests_sub ht.2).1 q f he with ha | ⟨-, ha⟩
  · exact absurd ha hf
  · have := ht.1
    unfold Call.There at this
    rw [this, ha]

/-- **C105.** The names are different if the option `concurrent_optimizations` is one: there is at most one new best in a step. -/
theorem C105_names (info : ObjInfo) (hd : info.dim ≠ 0) (cfg : PoolCfg) (hc : cfg.concurrent ≤ 1) {ls : List (List Nat × List Nat)} {xs : List Call} {p : Pool}
    (h : Pool.Hears E (Opt.Unused E info) (Pool.init cfg info) ls xs p) (c : FileCfg) : ((bests xs).map fun x => c.parName x.vis).Nodup := by
  have := (hears_ok h hd).2.2.single hc
  rw [List.nodup_iff_pairwise_ne, List.pairwise_map]
  refine this.imp fun {a b} hlt he => ?_
  have := parName_inj he
  omega

/-! ## concrete cases -/

/-- The calls while the futures are looked at, in order, after all steps have ended. -/
def collectHeard : List Nat → Pool → Option (List Call × Pool)
  | [], p => some ([], p)
  | i :: is, p => match p.collect i with
    | (p', .ok ()) => match p'.view, collectHeard is p' with
      | .ok v, some (xs, q) => some ((p'.log.drop p.log.length).map (fun e => ⟨e, v, v.info, [], []⟩) ++ xs, q)
      | _, _ => none
    | _ => none

/-- A step, with its calls. -/
def Pool.stepHeard (E : OptEnv) (ins : Nat → In) (ord : List Nat) (p : Pool) : Option (List Nat × List Nat × List Call × Pool) :=
  let p₁ := (if p.own.stepCount = 0 then p.signal .start else p).signal .preStep
  match refillWith E ord p₁ with
  | none => none
  | some (sel, p₂) =>
    match finishAll E ins p₂.launch.futs p₂.members with
    | none => none
    | some ms =>
      match collectHeard p₂.launch.futs { p₂.launch.pool with members := ms } with
      | none => none
      | some (ys, t) =>
        match t.view, Pool.testStop E { t.signal .postStep with own := { t.own with stepCount := t.own.stepCount + 1 } } with
        | .ok v, (p₃, .ok _) =>
          some (sel, p₂.launch.futs, (p₁.log.drop p.log.length).map (fun e => ⟨e, p.own, p.own.info, [], []⟩) ++
            (ys ++ ⟨.postStep, v, v.info, [], []⟩ :: (p₃.log.drop (t.log.length + 1)).map (fun e => ⟨e, v, v.info, [], []⟩)), p₃)
        | _, _ => none

theorem RunHears.trans {ins : Nat → In} {a b c : RunSt} {xs ys : List Call} (h : RunHears E ins a xs b) (h' : RunHears E ins b ys c) : RunHears E ins a (xs ++ ys) c := by
  induction h' with
  | nil => rw [List.append_nil]; exact h
  | snoc _ st hl hv ih => rw [← List.append_assoc]; exact ih.snoc st hl hv

theorem finishAll_heard {ins : Nat → In} (futs : List Nat) : ∀ (is : List Nat) (p : Pool) (ms : List Opt), finishAll E ins is p.members = some ms →
    RunHears E ins { pool := p, running := is, futs := futs } [] { pool := { p with members := ms }, running := [], futs := futs } := by
  intro is
  induction is with
  | nil => intro p ms h; simp only [finishAll, Option.some.injEq] at h; subst h; exact .nil
  | cons i is ih =>
    intro p ms h
    simp only [finishAll] at h
    split at h
    · cases h
    · rename_i m hm
      split at h
      · rename_i m' x hs
        have := ih { p with members := p.members.set i m' } ms h
        have st : RunStep E ins { pool := p, running := i :: is, futs := futs } _ := .finish (by simp) hm hs
        simp only [List.erase_cons_head] at st
        exact (RunHears.snoc (ys := []) .nil st (by simp) (by simp)).trans this
      · cases h

theorem event_map {l l' es : List Event} {v : Vis} (h : l' = l ++ es) :
    l' = l ++ ((l'.drop l.length).map (fun e => (⟨e, v, v.info, [], []⟩ : Call))).map Call.event := by
  subst h
  simp [Function.comp_def]

theorem collectHeard_sound {ins : Nat → In} : ∀ (is : List Nat) (p p' : Pool) (xs : List Call), collectHeard is p = some (xs, p') →
    RunHears E ins { pool := p, running := [], futs := is } xs { pool := p', running := [], futs := [] } := by
  intro is
  induction is with
  | nil => intro p p' xs h; simp only [collectHeard, Option.some.injEq, Prod.mk.injEq] at h; obtain ⟨rfl, rfl⟩ := h; exact .nil
  | cons i is ih =>
    intro p p' xs h
    simp only [collectHeard] at h
    split at h
    · rename_i q hc
      split at h
      · rename_i v ys q' hv hq
        simp only [Option.some.injEq, Prod.mk.injEq] at h
        obtain ⟨rfl, rfl⟩ := h
        have st : RunStep E ins { pool := p, running := [], futs := i :: is } _ := .collect rfl (by simp) (by simp) hc
        obtain ⟨m, fs, -, hlog⟩ := collect_log hc
        have h1 := RunHears.snoc .nil st (event_map (v := v) hlog) (by
          intro y hy
          obtain ⟨e, -, rfl⟩ := List.mem_map.1 hy
          exact hv)
        exact h1.trans (ih q _ _ hq)
      · cases h
    · cases h

theorem stepHeard_sound {P : Opt → Prop} {ins : Nat → In} {ord : List Nat} {p0 p p' : Pool} {ls : List (List Nat × List Nat)} {xs ys : List Call} {sel run : List Nat}
    (h : Pool.Hears E P p0 ls xs p) (hi : ∀ k, (ins k).Valid p.own.info) (hd : p.own.info.dim ≠ 0) (hne : p.members ≠ []) (hs : p.stepHeard E ins ord = some (sel, run, ys, p')) :
    Pool.Hears E P p0 (ls ++ [(sel, run)]) (xs ++ ys) p' := by
  unfold Pool.stepHeard at hs
  dsimp only at hs
  split at hs
  · cases hs
  · rename_i sel' p₂ hr
    split at hs
    · cases hs
    · rename_i ms hf
      split at hs
      · cases hs
      · rename_i zs t hc
        split at hs
        · rename_i v p₃ r hv ht
          simp only [Option.some.injEq, Prod.mk.injEq] at hs
          obtain ⟨rfl, rfl, rfl, rfl⟩ := hs
          have hlog := poolTest_stop (E := E) { t.signal .postStep with own := { t.own with stepCount := t.own.stepCount + 1 } }
          rw [ht] at hlog
          refine .step (t := { pool := t, running := [], futs := [] }) (z := ⟨.postStep, v, v.info, [], []⟩) h hi hd hne rfl (refillWith_sound hr) ?_ ⟨rfl, rfl, rfl⟩ ht ?_ ?_ rfl hv ?_
          · have := (finishAll_heard (E := E) (ins := ins) _ _ p₂.launch.pool ms hf).trans (collectHeard_sound _ _ _ _ hc)
            rw [List.nil_append] at this; exact this
          · exact event_map (es := (if p.own.stepCount = 0 then [.start] else []) ++ [.preStep]) (by split <;> simp [Pool.signal])
          · intro x hx
            obtain ⟨e, -, rfl⟩ := List.mem_map.1 hx
            rfl
          · have he : ∃ es, p₃.log = (t.log ++ [.postStep]) ++ es := by
              rcases hlog with hlog | ⟨k, hlog⟩
              · exact ⟨[], by rw [hlog]; simp [Pool.signal]⟩
              · exact ⟨_, hlog⟩
            obtain ⟨es, he⟩ := he
            have := event_map (v := v) he
            simp only [List.length_append, List.length_cons, List.length_nil, Nat.zero_add] at this
            simpa using this
        · cases hs

/-- Steps, with their calls. -/
def Pool.runsHeard (E : OptEnv) : List ((Nat → In) × List Nat) → Pool → Option (List (List Nat × List Nat) × List Call × Pool)
  | [], p => some ([], [], p)
  | (ins, ord) :: w, p => if p.members.length = 0 then none else match p.stepHeard E ins ord with
    | none => none
    | some (sel, run, xs, q) => match q.runsHeard E w with
      | none => none
      | some (ls, ys, q') => some ((sel, run) :: ls, xs ++ ys, q')

theorem runsHeard_sound {cfg : PoolCfg} : ∀ (w : List ((Nat → In) × List Nat)) (p : Pool) (l0 : List (List Nat × List Nat)) (x0 : List Call),
    (∀ x ∈ w, ∀ k, (x.1 k).Valid optInfo) → Pool.Hears E (Opt.Unused E optInfo) (Pool.init cfg optInfo) l0 x0 p → ∀ ls xs q, p.runsHeard E w = some (ls, xs, q) →
    Pool.Hears E (Opt.Unused E optInfo) (Pool.init cfg optInfo) (l0 ++ ls) (x0 ++ xs) q := by
  intro w
  induction w with
  | nil => intro p l0 x0 _ h ls xs q hr; cases hr; simpa using h
  | cons x w ih =>
    intro p l0 x0 hv h ls xs q hr
    obtain ⟨ins, ord⟩ := x
    simp only [Pool.runsHeard] at hr
    split at hr
    · cases hr
    rename_i hne
    split at hr
    · cases hr
    · rename_i sel run ys p' hs
      split at hr
      · cases hr
      · rename_i ls' zs q' hr'
        cases hr
        have hi := (hears_ok h (by decide)).2.1
        have h' := stepHeard_sound h (fun k => by rw [hi]; exact hv (ins, ord) (by simp) k) (by rw [hi]; decide) (fun h0 => hne (by rw [h0]; rfl)) hs
        have := ih p' _ _ (fun x hx => hv x (by simp [hx])) h' ls' zs _ hr'
        simpa using this

theorem newPool_hears (cfg : PoolCfg) (n : Nat) : Pool.Hears E (Opt.Unused E optInfo) (Pool.init cfg optInfo) [] [] (newPool cfg n) := by
  induction n with
  | zero => exact .nil
  | succ n ih => exact ih.push ⟨0, [], rfl, by simp⟩

theorem fitIns_valid (f : Nat → Option ℚ) (k : Nat) : (fitIns f k).Valid optInfo := ⟨by simp [fitIns], rfl, by simp [fitIns]; rfl⟩

/-- What holds at the end of a computed history holds for some history. -/
theorem exists_hears {cfg : PoolCfg} {n : Nat} {w : List ((Nat → Option ℚ) × List Nat)} {P : List Call → Prop} [∀ xs, Decidable (P xs)]
    (h : (match (newPool cfg n).runsHeard E (w.map fun x => (fitIns x.1, x.2)) with | some (_, xs, _) => decide (P xs) | none => false) = true) :
    ∃ ls xs p, Pool.Hears E (Opt.Unused E optInfo) (Pool.init cfg optInfo) ls xs p ∧ P xs := by
  split at h
  · rename_i ls xs p hr
    refine ⟨ls, xs, p, ?_, by simpa using h⟩
    have := runsHeard_sound (cfg := cfg) _ _ [] [] (fun x hx k => by
      obtain ⟨y, -, rfl⟩ := List.mem_map.1 hx
      exact fitIns_valid _ k) (newPool_hears cfg n) ls xs p hr
    simpa using this
  · cases h

/-- `%.3f`, of the numbers below. -/
def fixed3 : Dbl → Str
  | .fin q => let n := (|q| * 1000 + 1 / 2).floor.toNat
    (if q < 0 then ['-'] else []) ++ decN 1 (n / 1000) ++ '.' :: decN 3 (n % 1000)
  | _ => []

def poolCfg : FileCfg := { repCfg with f3 := fixed3, median := fun l => l.headD (.fin 0) }

/-- The names of the files of the announced bests, and whether the files are there. -/
def fileState (c : FileCfg) (xs : List Call) : List (Str × Bool) := match FileRep.run c optEnv { files := fun _ => none } xs with
  | .ok r => (bests xs).map fun x => (c.parName x.vis, (r.files (c.parName x.vis)).isSome)
  | _ => []

/-- Three members; the second and the third improve in the second step. The files have different names. -/
example : ∃ ls xs p, Pool.Hears optEnv (Opt.Unused optEnv optInfo) (Pool.init {} optInfo) ls xs p ∧ (((bests xs).map fun x => poolCfg.parName x.vis).Nodup ∧
    fileState poolCfg xs = [("0000_4.125_4.125.par".toList, true), ("0001_4.000_4.000.par".toList, true), ("0001_3.000_3.000.par".toList, true)]) :=
  exists_hears (n := 3) (w := [(fun i => some (33 / 8 + i), [0, 1, 2]), (fun i => some (5 - i), [0, 1, 2])]) (by decide +kernel)

/-- **C105 (finding).** The names can be the same: two members improve in one step and the numbers agree in three decimals. Then the file of the best point is deleted right after it was written,
since it is also the file of the best before it, which was a small improvement. -/
theorem C105_lost_file : ∃ ls xs p, Pool.Hears optEnv (Opt.Unused optEnv optInfo) (Pool.init {} optInfo) ls xs p ∧
    ((bests xs).map (fun x => x.vis.curFitness) = [.fin (33 / 8), .fin (4 + 2 / 4096), .fin (4 + 1 / 4096)] ∧
    fileState poolCfg xs = [("0000_4.125_4.125.par".toList, true), ("0001_4.000_4.000.par".toList, false), ("0001_4.000_4.000.par".toList, false)]) :=
  exists_hears (n := 3) (w := [(fun i => some (33 / 8 + i), [0, 1, 2]), (fun i => some (if i = 0 then 5 else 4 + (3 - i) / 4096), [0, 1, 2])]) (by decide +kernel)

/-- An optimizer that has made a step: it evaluated the point 1, with the fitness 5. -/
def usedMember : Opt := (Opt.new optInfo 0).after optEnv [.step { pop := [[.fin 1]], res := [some (.fin 5)] }]

/-- **C105 (finding).** A member that had made steps before it was added is announced with its best point, while the getters of the pool return that of the current step: the file of the new best
holds another point. Here the pool announces the point 1, with the fitness 5, and the getters return the point 2, with the fitness 7. -/
theorem C105_used_member : ∃ ls xs p, Pool.Hears optEnv (Opt.Fits optInfo.minimize) (Pool.init {} optInfo) ls xs p ∧
    ∃ x ∈ xs, x.event = .newBest [.fin 1] (.fin 5) ∧ x.vis.curFitness = .fin 7 ∧ x.vis.curPoint.map rounded = [.fin 2] := by
  have h0 : Pool.Hears optEnv (Opt.Fits optInfo.minimize) (Pool.init {} optInfo) [] [] ((Pool.init {} optInfo).push usedMember) := .push .nil ⟨by decide +kernel, by decide +kernel⟩
  have hd : (match ((Pool.init {} optInfo).push usedMember).stepHeard optEnv (fun _ => { pop := [[.fin 2]], res := [some (.fin 7)] }) [0] with
    | some (_, _, xs, _) => decide (∃ x ∈ xs, x.event = .newBest [.fin 1] (.fin 5) ∧ x.vis.curFitness = .fin 7 ∧ x.vis.curPoint.map rounded = [.fin 2])
    | none => false) = true := by decide +kernel
  split at hd
  · rename_i sel run xs q hs
    refine ⟨_, _, q, stepHeard_sound h0 (fun k => ⟨by simp, rfl, by simp; rfl⟩) (by decide) (by simp [Pool.push]) hs, ?_⟩
    simpa using hd
  · cases hd

end Spot
