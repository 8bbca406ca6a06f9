import Verif.Props.Reporters
import Verif.Model.FileReporter
import Verif.Lemmas.Printf

/-!
# Lemmas for the file reporter
-/

namespace Spot

/-! ### the order of the callbacks -/

/-- Callbacks so far: completed evaluations, whether there was a new best since, completed steps. -/
structure Phase where
  n : Nat
  b : Bool
  p : Nat

/-- What the callbacks of an optimizer look like to a reporter. -/
inductive LogStep (info : ObjInfo) : Phase → Event × Vis → Phase → Prop
  | start (v : Vis) : LogStep info ⟨0, false, 0⟩ (.start, v) ⟨0, false, 0⟩
  | preStep (n : Nat) (v : Vis) : LogStep info ⟨n, false, n⟩ (.preStep, v) ⟨n, false, n⟩
  | preEvaluate (n : Nat) (pop : List Pt) (v : Vis) (hn : v.stepCount = n) : LogStep info ⟨n, false, n⟩ (.preEvaluate pop, v) ⟨n, false, n⟩
  | newBest (n : Nat) (q : Pt) (f : Dbl) (v : Vis) (hn : v.stepCount = n) (hi : v.info = info) (hl : v.curPoint.length = info.dim)
      (hf : v.curFitness = f) (hq : v.curPoint.map rounded = q) : LogStep info ⟨n, false, n⟩ (.newBest q f, v) ⟨n, true, n⟩
  | postEvaluate (n : Nat) (b : Bool) (pop : List Pt) (fs : List Dbl) (nb : Bool) (v : Vis) (hn : v.stepCount = n) (hi : v.info = info)
      (hl : v.curPoint.length = info.dim) : LogStep info ⟨n, b, n⟩ (.postEvaluate pop fs nb, v) ⟨n + 1, false, n⟩
  | postStep (n : Nat) (v : Vis) (hn : v.stepCount = n) (hi : v.info = info) (hl : v.curPoint.length = info.dim) :
      LogStep info ⟨n + 1, false, n⟩ (.postStep, v) ⟨n + 1, false, n + 1⟩
  | stop (n k : Nat) (v : Vis) : LogStep info ⟨n, false, n⟩ (.stop k, v) ⟨n, false, n⟩

inductive LogPath (info : ObjInfo) : Phase → List (Event × Vis) → Phase → Prop
  | nil (a : Phase) : LogPath info a [] a
  | cons {a b c : Phase} {e : Event × Vis} {l : List (Event × Vis)} : LogStep info a e b → LogPath info b l c → LogPath info a (e :: l) c

theorem LogPath.append {info : ObjInfo} {a b c : Phase} {l l' : List (Event × Vis)} (h : LogPath info a l b) (h' : LogPath info b l' c) :
    LogPath info a (l ++ l') c := by
  induction h with
  | nil => exact h'
  | cons e _ ih => exact .cons e (ih h')

theorem LogPath.one {info : ObjInfo} {a b : Phase} {e : Event × Vis} (h : LogStep info a e b) : LogPath info a [e] b := .cons h (.nil _)

theorem map_fst_one {l : List (Event × Vis)} {e : Event} (h : l.map Prod.fst = [e]) : ∃ v, l = [(e, v)] := by
  cases l with
  | nil => simp at h
  | cons a l => 
    simp only [List.map_cons, List.cons.injEq, List.map_eq_nil_iff] at h
    exact ⟨a.2, by rw [← h.1, h.2]⟩

/-- The callbacks of one step. -/
theorem path_protocol {old : Vis} {failed improved : Bool} {stop : Option Nat} {pop : List Pt} {fs : List Dbl} {best : Pt} {f : Dbl}
    {new : List (Event × Vis)} (hs : ∀ e ∈ new, Seen old e)
    (h : new.map Prod.fst = protocol (old.stepCount = 0) failed improved stop pop fs best f) :
    LogPath old.info ⟨old.stepCount, false, old.stepCount⟩ new
      (if failed then ⟨old.stepCount, false, old.stepCount⟩ else ⟨old.stepCount + 1, false, old.stepCount + 1⟩) := by
  unfold protocol at h
  obtain ⟨l123, l4, rfl, h123, h4⟩ := List.map_eq_append_iff.1 h
  obtain ⟨l12, l3, rfl, h12, h3⟩ := List.map_eq_append_iff.1 h123
  obtain ⟨l1, l2, rfl, h1, h2⟩ := List.map_eq_append_iff.1 h12
  refine LogPath.append (b := if failed then ⟨old.stepCount, false, old.stepCount⟩ else ⟨old.stepCount + 1, false, old.stepCount + 1⟩)
    (LogPath.append (b := ⟨old.stepCount, false, old.stepCount⟩) (LogPath.append (b := ⟨old.stepCount, false, old.stepCount⟩) ?_ ?_) ?_) ?_
  · split at h1
    · next h0 =>
      obtain ⟨v, rfl⟩ := map_fst_one h1
      rw [of_decide_eq_true h0]
      exact .one (.start v)
    · rw [List.map_eq_nil_iff.1 h1]; exact .nil _
  · obtain ⟨la, lb, rfl, ha, hb⟩ := List.map_eq_append_iff.1 (show l2.map Prod.fst = [.preStep] ++ [.preEvaluate pop] from h2)
    obtain ⟨v, rfl⟩ := map_fst_one ha
    obtain ⟨w, rfl⟩ := map_fst_one hb
    have hw : Seen old (.preEvaluate pop, w) := hs _ (by simp)
    refine .cons (.preStep _ _) (.one (.preEvaluate _ _ _ ?_))
    rw [show w = old from hw]
  · cases hf : failed
    · rw [if_neg (by simp [hf])] at h3
      rw [if_neg (by simp)]
      obtain ⟨la, lb, rfl, ha, hb⟩ := List.map_eq_append_iff.1 h3
      obtain ⟨lc, ld, rfl, hc, hd⟩ := List.map_eq_append_iff.1 (show lb.map Prod.fst = [.postEvaluate pop fs improved] ++ [.postStep] from hb)
      obtain ⟨v, rfl⟩ := map_fst_one hc
      obtain ⟨w, rfl⟩ := map_fst_one hd
      have hv : Seen old (.postEvaluate pop fs improved, v) := hs _ (by simp)
      have hw : Seen old (.postStep, w) := hs _ (by simp)
      have hrest : ∀ b, LogPath old.info ⟨old.stepCount, b, old.stepCount⟩ ([(.postEvaluate pop fs improved, v)] ++ [(.postStep, w)])
          ⟨old.stepCount + 1, false, old.stepCount + 1⟩ := fun b =>
        .cons (.postEvaluate _ _ _ _ _ _ hv.2.1 hv.2.2.2.2.2.1 hv.2.2.2.2.2.2) (.one (.postStep _ _ hw.1 hw.2.1 hw.2.2.1))
      cases hi : improved
      · rw [if_neg (by simp [hi])] at ha
        rw [List.map_eq_nil_iff.1 ha]; rw [hi] at hrest; exact hrest _
      · rw [if_pos hi] at ha
        obtain ⟨u, rfl⟩ := map_fst_one ha
        have hu : Seen old (.newBest best f, u) := hs _ (by simp)
        obtain ⟨-, -, u3, u4, -, u5, u6, u7⟩ := hu
        rw [hi] at hrest
        exact .append (.one (.newBest _ _ _ _ u5 u6 u7 u3 u4)) (hrest _)
    · rw [if_pos hf] at h3
      rw [List.map_eq_nil_iff.1 h3]; exact .nil _
  · have : ∀ n, LogPath old.info ⟨n, false, n⟩ l4 ⟨n, false, n⟩ := by
      intro n
      cases stop with
      | none => rw [List.map_eq_nil_iff.1 (show l4.map Prod.fst = [] from h4)]; exact .nil _
      | some k =>
        obtain ⟨v, rfl⟩ := map_fst_one (show l4.map Prod.fst = [.stop k] from h4)
        exact .one (.stop _ _ _)
    cases failed
    · exact this _
    · exact this _

/-- The callbacks of a part `h` of a history. -/
theorem log_path (E : OptEnv) (info : ObjInfo) (m : Int) (hd : info.dim ≠ 0) (h0 h : List Op) (hv : ∀ o ∈ h0 ++ h, o.Valid info) :
    let s := (Opt.new info m).after E h0
    let t := (Opt.new info m).after E (h0 ++ h)
    ∃ new, t.log = s.log ++ new ∧ LogPath info ⟨s.vis.stepCount, false, s.vis.stepCount⟩ new ⟨t.vis.stepCount, false, t.vis.stepCount⟩ := by
  intro s t
  induction h using List.reverseRecOn with
  | nil => exact ⟨[], by simp [t, s], by simp only [t, s, List.append_nil]; exact .nil _⟩
  | append_singleton h o ih =>
    have hv' : ∀ o ∈ h0 ++ h, o.Valid info := fun o ho => hv o (by rw [← List.append_assoc]; exact List.mem_append_left _ ho)
    have ho : o.Valid info := hv o (by simp)
    obtain ⟨new, e, hp⟩ := ih hv'
    obtain ⟨t0, ht0⟩ : ∃ t0, t0 = (Opt.new info m).after E (h0 ++ h) := ⟨_, rfl⟩
    rw [← ht0] at e hp
    have ht : t = o.apply E t0 := by rw [ht0]; simp [t, Opt.after, List.foldl_append]
    have hw := (history_facts E info m hd (h0 ++ h) hv').1
    have hinfo : t0.vis.info = info := by rw [ht0]; exact hw.1
    have hnostep : (∀ i, o ≠ .step i) → t.vis.stepCount = t0.vis.stepCount := by
      intro hn
      have := core_ext (apply_core E t0 o hd (by rw [ht0]; exact hw) ho)
      rw [ht, this.2.1]
      cases o with
      | step i => exact absurd rfl (hn i)
      | addCond c => simp only [Op.onVis]; split <;> rfl
      | _ => rfl
    by_cases hs : ∃ i, o = .step i
    · obtain ⟨i, rfl⟩ := hs
      obtain ⟨nw, f1, f2, stop, -, -, f5, -⟩ := C28_protocol E info m hd (h0 ++ h) i hv' ho
      rw [← ht0] at f1 f2 f5
      have hpp := path_protocol f2 f5
      rw [hinfo] at hpp
      refine ⟨new ++ nw, ?_, hp.append ?_⟩
      · rw [ht]; show (t0.step E (Opt.internal E i)).1.log = _; rw [f1, e, List.append_assoc]
      · have : t.vis.stepCount = if i.Failed m then t0.vis.stepCount else t0.vis.stepCount + 1 := by
          rw [ht]; show (t0.step E (Opt.internal E i)).1.vis.stepCount = _
          split
          · next hf =>
            have := (C22_failed_step E info m hd (h0 ++ h) i hv' ho hf).1
            rw [← ht0] at this
            exact (congrArg (fun v : Vis => v.stepCount) this :)
          · next hf => 
            have := C22_completed_step E info m hd (h0 ++ h) i hv' ho hf
            rw [← ht0] at this; exact this
        rw [this]
        convert hpp using 1
        by_cases hf : i.Failed m <;> simp [hf]
    · have hs' : ∀ i, o ≠ .step i := fun i hi => hs ⟨i, hi⟩
      rw [hnostep hs']
      rcases C28_only_steps E t0 o hs' with h1 | ⟨k, v, -, -, h1⟩
      · exact ⟨new, by rw [ht, h1, e], hp⟩
      · exact ⟨new ++ [(.stop k, v)], by rw [ht, h1, e, List.append_assoc], hp.append (.one (.stop _ _ _))⟩

/-! ### names -/

theorem decN_spec (w n : Nat) : digitsVal (decN w n) = n ∧ ∀ c ∈ decN w n, isDig c = true := by
  obtain ⟨h1, -, h3⟩ := digitsN_spec (max w (Nat.log 10 n + 1)) n
  refine ⟨?_, h3⟩
  unfold decN; rw [h1]
  refine Nat.mod_eq_of_lt (lt_of_lt_of_le (Nat.lt_pow_succ_log_self (by norm_num) n) (Nat.pow_le_pow_right (by norm_num) (by omega)))

/-- The step can be read from a name. -/
theorem decN_inj {w w' n n' : Nat} {t t' : Str} (h : decN w n ++ '_' :: t = decN w' n' ++ '_' :: t') : n = n' := by
  have key : ∀ (w n : Nat) (t : Str), (decN w n ++ '_' :: t).takeWhile isDig = decN w n := by
    intro w n t
    rw [List.takeWhile_append_of_pos (decN_spec w n).2]
    simp [show isDig '_' = false from by decide]
  have e := congrArg (List.takeWhile isDig) h
  rw [key, key] at e
  rw [← (decN_spec w n).1, ← (decN_spec w' n').1, e]

theorem parName_inj {c : FileCfg} {v v' : Vis} (h : c.parName v = c.parName v') : v.stepCount = v'.stepCount := decN_inj h

theorem putIndividuals_spec (c : FileCfg) (v : Vis) (i : Nat) (ps : List Pt) (fs : Str → Option Str) (name : Str) :
    putIndividuals c v i ps fs name = fs name ∨
      (∃ t, name = decN 4 v.stepCount ++ '_' :: t) ∧ putIndividuals c v i ps fs name ≠ none := by
  induction ps generalizing i fs with
  | nil => exact .inl rfl
  | cons p ps ih =>
    unfold putIndividuals
    rcases ih (i + 1) (putFile fs (decN 4 v.stepCount ++ '_' :: ("individual".toList ++ decN 2 i ++ ".par".toList)) ((SearchPoint.mk v.info p).write c.fmt)) with h | h
    · rw [h]; unfold putFile
      split
      · next e => exact .inr ⟨⟨_, e⟩, by simp⟩
      · exact .inl rfl
    · exact .inr h

end Spot
