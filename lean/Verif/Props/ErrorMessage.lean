import Verif.Model.ErrorMessage
import Verif.Props.Control
import Mathlib.Data.String.Basic

/-! # The message of a failed step (C93) -/

namespace Spot

open Evaluators (Result)

theorem flatInsert_mem (x y : String) : ∀ l, y ∈ flatInsert x l ↔ y = x ∨ y ∈ l
  | [] => by simp [flatInsert]
  | z :: l => by
    unfold flatInsert
    split
    · simp
    · split
      · next h => subst h; simp
      · simp [flatInsert_mem x y l]; tauto

theorem flatInsert_sorted (x : String) : ∀ l : List String, l.Pairwise (· < ·) → (flatInsert x l).Pairwise (· < ·)
  | [], _ => by simp [flatInsert]
  | z :: l, h => by
    obtain ⟨h1, h2⟩ := List.pairwise_cons.1 h
    unfold flatInsert
    split
    · next hx => exact List.pairwise_cons.2 ⟨fun y hy => by
        rcases List.mem_cons.1 hy with rfl | hy
        · exact hx
        · exact lt_trans hx (h1 y hy), h⟩
    · next hx =>
      split
      · exact h
      · next hne =>
        refine List.pairwise_cons.2 ⟨fun y hy => ?_, flatInsert_sorted x l h2⟩
        rcases (flatInsert_mem x y l).1 hy with rfl | hy
        · exact lt_of_le_of_ne (not_lt.1 hx) (fun h => hne h.symm)
        · exact h1 y hy

theorem collect_spec (rs : List (Result Dbl)) : ∀ (ms : List String), ms.Pairwise (· < ·) →
    (rs.foldl collectOne ms).Pairwise (· < ·) ∧ ∀ x, x ∈ (rs.foldl collectOne ms) ↔ x ∈ ms ∨ .error x ∈ rs := by
  induction rs with
  | nil => intro ms h; exact ⟨h, by simp⟩
  | cons r rs ih =>
    intro ms h
    cases r with
    | ok v =>
      obtain ⟨h1, h2⟩ := ih ms h
      exact ⟨h1, fun x => by rw [List.foldl_cons]; show x ∈ rs.foldl collectOne ms ↔ _; rw [h2]; simp⟩
    | error e =>
      obtain ⟨h1, h2⟩ := ih (flatInsert e ms) (flatInsert_sorted e ms h)
      refine ⟨h1, fun x => ?_⟩
      rw [List.foldl_cons]; show x ∈ rs.foldl collectOne (flatInsert e ms) ↔ _; rw [h2, flatInsert_mem]
      simp only [List.mem_cons, Except.error.injEq]
      tauto

theorem countErrors (rs : List (Result Dbl)) : (rs.filter isError).length = failures (rs.map fun r => match r with | .ok v => some v | .error _ => none) := by
  unfold failures
  rw [List.countP_map, List.countP_eq_length_filter]
  congr 1
  refine List.filter_congr fun r _ => ?_
  cases r <;> simp [isError]

/-- How many failures are allowed: a negative setting `-k` means all but `k`. -/
def Spec.allowed (m : Int) (n : Nat) : Int := if 0 ≤ m then m else (n : Int) + m

/-- **C93.** The step fails if and only if too many evaluations fail, and then the message states how many evaluations failed, out of how many, and how many are allowed, followed by each
message of a failed evaluation once, in alphabetical order. Only if more successes are demanded than there are evaluations can a step fail without a failed evaluation: the message
then lists "Unknown error". -/
theorem C93_message (toStr : List String → String) (m : Int) (i : MsgIn) :
    (¬ i.toIn.Failed m → verifyResults toStr m i.res = none) ∧
    (i.toIn.Failed m → ∃ ms : List String, ms.Pairwise (· < ·) ∧
      ((∃ e, .error e ∈ i.res) → ∀ x, x ∈ ms ↔ .error x ∈ i.res) ∧
      ((∀ e, .error e ∉ i.res) → Spec.allowed m i.res.length < 0 ∧ ms = ["Unknown error"]) ∧
      verifyResults toStr m i.res = some ("Errors found in " ++ toString (failures i.toIn.res) ++ " of " ++ toString i.res.length ++ " evaluations (" ++
        toString (Spec.allowed m i.res.length) ++ " allowed):\n" ++ toStr ms)) := by
  have hc := countErrors i.res
  have hlen : i.toIn.res.length = i.res.length := by simp [MsgIn.toIn]
  have hfail : i.toIn.Failed m ↔ (((i.res.filter isError).length : Nat) : Int) > Spec.allowed m i.res.length := by
    rw [hc]; unfold In.Failed Spec.allowed; rw [hlen]; split <;> rfl
  have hal : (if m ≥ 0 then m else (i.res.length : Int) + m) = Spec.allowed m i.res.length := rfl
  constructor
  · intro h
    unfold verifyResults
    dsimp only
    rw [hal, if_neg (fun hh => h (hfail.2 hh))]
  · intro h
    obtain ⟨h1, h2⟩ := collect_spec i.res [] .nil
    have h2' : ∀ x, x ∈ collectErrors i.res ↔ .error x ∈ i.res := fun x => by simpa [collectErrors] using h2 x
    by_cases hne : collectErrors i.res = []
    · have hno : ∀ e, .error e ∉ i.res := fun e he => by have := (h2' e).2 he; rw [hne] at this; simp at this
      have h0 : (i.res.filter isError).length = 0 := by
        rw [List.length_eq_zero_iff, List.filter_eq_nil_iff]
        intro r hr
        cases r with
        | ok v => simp [isError]
        | error e => exact absurd hr (hno e)
      refine ⟨["Unknown error"], List.pairwise_singleton _ _, fun ⟨e, he⟩ => absurd he (hno e), fun _ => ⟨?_, rfl⟩, ?_⟩
      · have := hfail.1 h; rw [h0] at this; exact_mod_cast this
      · unfold verifyResults
        dsimp only
        rw [hal, if_pos (hfail.1 h), if_pos (by simp [hne]), hne, hc]
        rfl
    · refine ⟨collectErrors i.res, h1, fun _ => h2', fun hno => absurd ?_ hne, ?_⟩
      · rw [List.eq_nil_iff_forall_not_mem]
        exact fun x hx => hno x ((h2' x).1 hx)
      · unfold verifyResults
        dsimp only
        rw [hal, if_pos (hfail.1 h), if_neg (by simpa using hne), hc]
        rfl

/-- The messages of the failed steps of a history. -/
def Spec.failureMessages (toStr : List String → String) (m : Int) (h : List MsgOp) : List String := h.filterMap fun o => match o with
  | .step i => verifyResults toStr m i.res
  | .other _ => none

/-- **C93.** After every history of calls, the message of the error condition is that of the last step that failed, and the condition is set if and only if a step failed; the optimizer behaves
as without messages. -/
theorem C93_history (E : OptEnv) (toStr : List String → String) (info : ObjInfo) (hd : info.dim ≠ 0) (m : Int) (h : List MsgOp)
    (hv : ∀ o ∈ h, o.toOp.Valid info) (ho : ∀ o i, MsgOp.other o ∈ h → o ≠ .step i) :
    let s := (MsgOpt.mk (Opt.new info m) "").after E toStr h
    s.opt = (Opt.new info m).after E (h.map MsgOp.toOp) ∧ s.what = (Spec.failureMessages toStr m h).getLastD "" ∧
    s.opt.conds[1]? = some (.error (Spec.failureMessages toStr m h ≠ [])) := by
  induction h using List.reverseRecOn with
  | nil => exact ⟨rfl, rfl, rfl⟩
  | append_singleton h o ih =>
    have hv' : ∀ o ∈ h, o.toOp.Valid info := fun o ho => hv o (List.mem_append_left _ ho)
    obtain ⟨i1, i2, i3⟩ := ih hv' (fun o i hh => ho o i (List.mem_append_left _ hh))
    intro s
    have hs : s = o.apply E toStr ((MsgOpt.mk (Opt.new info m) "").after E toStr h) := by simp [s, MsgOpt.after, List.foldl_append]
    rw [hs]
    generalize (MsgOpt.mk (Opt.new info m) "").after E toStr h = t at *
    obtain ⟨⟨w1, w2, w3⟩, hc⟩ := history_facts E info m hd (h.map MsgOp.toOp) (fun o ho => by obtain ⟨p, hp, rfl⟩ := List.mem_map.1 ho; exact hv' p hp)
    rw [← i1] at w1 w2 w3 hc
    have happ : Spec.failureMessages toStr m (h ++ [o]) = Spec.failureMessages toStr m h ++ Spec.failureMessages toStr m [o] := List.filterMap_append ..
    have hopt : (Opt.new info m).after E ((h ++ [o]).map MsgOp.toOp) = o.toOp.apply E t.opt := by
      rw [i1]; simp [Opt.after, List.foldl_append]
    rw [happ, hopt]
    cases o with
    | other o =>
      rw [show Spec.failureMessages toStr m [MsgOp.other o] = [] from rfl, List.append_nil]
      refine ⟨rfl, i2, ?_⟩
      show (o.apply E t.opt).conds[1]? = _
      rw [← i3]
      cases o with
      | step i => exact absurd rfl (ho _ i (by simp))
      | addCond c =>
        obtain ⟨b, rest, h⟩ := hc
        simp [Op.apply, Opt.addCond, h]
      | test => show (t.opt.testStop E).1.conds[1]? = _; rw [testStop_conds]
      | _ => rfl
    | step i =>
      have hvi : i.toIn.Valid info := hv (.step i) (by simp)
      have hvi' : i.toIn.Valid t.opt.vis.info := by rw [w1]; exact hvi
      have hconds : (t.opt.step E (Opt.internal E i.toIn)).1.conds = if i.toIn.Failed m then setError t.opt.conds else t.opt.conds := by
        rw [step_preTest (by rw [w1]; exact hd) hvi' (by rw [w1]; exact w3), testStop_conds, (preTest_stopped hvi' (by rw [w1]; exact w3)).2, w2]
      refine ⟨rfl, ?_, ?_⟩
      · show (if t.opt.vis.info.dim = 0 then t.what else (verifyResults toStr t.opt.vis.maxErrors i.res).getD t.what) = _
        rw [if_neg (by rw [w1]; exact hd), w2, i2]
        show _ = (_ ++ (Option.toList (verifyResults toStr m i.res))).getLastD ""
        cases verifyResults toStr m i.res with
        | none => simp
        | some e => simp
      · show (t.opt.step E (Opt.internal E i.toIn)).1.conds[1]? = _
        rw [hconds]
        obtain ⟨b, rest, hbr⟩ := hc
        by_cases hf : i.toIn.Failed m
        · obtain ⟨ms, -, -, -, he⟩ := (C93_message toStr m i).2 hf
          rw [if_pos hf, hbr]
          have : Spec.failureMessages toStr m h ++ Spec.failureMessages toStr m [MsgOp.step i] ≠ [] := by
            rw [show Spec.failureMessages toStr m [MsgOp.step i] = (verifyResults toStr m i.res).toList from rfl, he]; simp
          simp [setError, this]
        · have he := (C93_message toStr m i).1 hf
          rw [if_neg hf, i3, show Spec.failureMessages toStr m [MsgOp.step i] = (verifyResults toStr m i.res).toList from rfl, he]
          simp

/-- Three evaluations, two of which fail with the same message: it is listed once. -/
example : verifyResults (fun l => toString l) 0 [.error "bad", .ok (.fin 1), .error "bad", .error "awful"] =
    some "Errors found in 3 of 4 evaluations (0 allowed):\n[awful, bad]" := by decide +kernel

/-- `max_errors = -1`: at least one evaluation has to succeed. -/
example : verifyResults (fun l => toString l) (-1) [.error "bad", .ok (.fin 1), .error "awful"] = none := by decide +kernel
example : verifyResults (fun l => toString l) (-1) [.error "bad", .error "awful"] =
    some "Errors found in 2 of 2 evaluations (1 allowed):\n[awful, bad]" := by decide +kernel

/-- More successes demanded than there are evaluations. -/
example : verifyResults (fun l => toString l) (-3) [.ok (.fin 1), .ok (.fin 1)] =
    some "Errors found in 0 of 2 evaluations (-1 allowed):\n[Unknown error]" := by decide +kernel

end Spot
