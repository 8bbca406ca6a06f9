import Verif.Model.Session
import Verif.Props.Best
import Verif.Props.Control
import Verif.Props.Feasible
import Verif.Props.Tracking

/-!
# C106: complete runs of MES, EVA and CMA

The theorems about `optimizer` (C20 - C32) are about any populations and results, those about the algorithms (C43 - C58, C72, C75) about their `internal_step`. Here both are put together.
-/

namespace Spot

variable [Libm] {S : Type} {E : OptEnv} {F : Pt → Option Dbl}

/-- What is used about a derived class, for an objective `F` with the info `info`; `nan` as in `EvaluatedWithin`. -/
structure Machine.Good (M : Machine S) (E : OptEnv) (F : Pt → Option Dbl) (info : ObjInfo) (nan : Prop) : Prop where
  get_put : ∀ s o, M.opt (M.put s o) = o
  eval : ∀ {s pop t}, M.internal F s pop t → ∃ b, (M.opt s).evaluateStep E pop (pop.map F) = (M.opt t, .ok b)
  pop : ∀ {s pop t}, M.internal F s pop t → pop ≠ [] ∧ ∀ x ∈ pop, EvaluatedWithin nan info x
  total : ∀ {s}, (M.opt s).vis.WF info 0 → ∃ pop t, M.internal F s pop t

variable {M : Machine S} {info : ObjInfo} {nan : Prop}

theorem opening_begun (s : Opt) : s.opening = s.begun := rfl

/-- `step` of the derived class is `step` of the base class. -/
theorem Machine.Good.base (hM : M.Good E F info nan) {s t : S} {i : In} {r : Res (Option Nat)} (h : M.Step E F s i t r) :
    (M.opt s).step E (Opt.internal E i) = (M.opt t, r) ∧ i.pop ≠ [] ∧ (∀ x ∈ i.pop, EvaluatedWithin nan info x) ∧ i.res = i.pop.map F := by
  cases h with
  | @mk u pop intr ok o _ hd hi he hc =>
    obtain ⟨b, hb⟩ := hM.eval hi
    rw [hM.get_put] at hb ⊢
    rw [hb] at he
    have hb' : b = ok := Res.ok.inj he
    subst hb'
    refine ⟨?_, (hM.pop hi).1, (hM.pop hi).2, rfl⟩
    have hint : Opt.internal E { pop := pop, res := pop.map F, interrupt := intr } (M.opt s).begun = (if intr then (M.opt u).interrupt else M.opt u, .ok b) := by
      unfold Opt.internal
      rw [← opening_begun]
      dsimp only
      rw [hb]
    cases b with
    | true => rw [step_true hd hint, ← hc]; rfl
    | false => rw [step_false hd hint, ← hc]; rfl

theorem EvaluatedWithin.length {x : Pt} (h : EvaluatedWithin nan info x) : x.length = info.dim := by
  obtain ⟨y, hy, rfl, -⟩ := h
  rw [List.length_map, hy]

theorem EvaluatedWithin.rounded {x : Pt} (h : EvaluatedWithin nan info x) : x.map rounded = x := by
  obtain ⟨y, hy, rfl, -⟩ := h
  rw [List.map_map]
  exact List.map_congr_left fun v _ => C15_idempotent v

theorem Machine.Good.session (hM : M.Good E F info nan) {s t : S} {l : List Op} (h : M.Session E F s l t) :
    M.opt t = (M.opt s).after E l ∧ ∀ i, Op.step i ∈ l → i.pop ≠ [] ∧ (∀ x ∈ i.pop, EvaluatedWithin nan info x) ∧ i.res = i.pop.map F := by
  induction h with
  | nil => exact ⟨rfl, by simp⟩
  | @step t t' l i r h st ih =>
    obtain ⟨h1, h2⟩ := hM.base st
    refine ⟨?_, fun j hj => ?_⟩
    · rw [after_append, ← ih.1]
      show _ = ((M.opt t).step E (Opt.internal E i)).1
      rw [h1]
    · rw [List.mem_append, List.mem_singleton] at hj
      rcases hj with hj | hj
      · exact ih.2 j hj
      · cases hj; exact h2
  | @call t l o h ho ih =>
    refine ⟨?_, fun j hj => ?_⟩
    · rw [after_append, ← ih.1, hM.get_put]; rfl
    · rw [List.mem_append, List.mem_singleton] at hj
      rcases hj with hj | hj
      · exact ih.2 j hj
      · exact absurd hj.symm (ho j)

theorem Machine.Good.valid (hM : M.Good E F info nan) {s t : S} {l : List Op} (h : M.Session E F s l t) : ∀ o ∈ l, o.Valid info := by
  intro o ho
  cases o with
  | step i =>
    obtain ⟨h1, h2, h3⟩ := (hM.session h).2 i ho
    exact ⟨h1, by rw [h3, List.length_map], fun p hp => (h2 p hp).length⟩
  | _ => trivial

/-- A newly constructed optimizer of the derived class. -/
def Fresh (info : ObjInfo) (o : Opt) : Prop := o = (Opt.init info).addCond (.flat (lit (1 / 10 ^ 9)))

theorem fresh_after {o : Opt} (h : Fresh info o) (l : List Op) : o.after E l = (Opt.new info 0).after E (.addCond (.flat (lit (1 / 10 ^ 9))) :: l) := by
  subst h; rfl

theorem evals_mem {m : Int} {l : List Op} {e : Pt × Dbl} : e ∈ evalsOf info m l ↔ ∃ i, Op.step i ∈ l ∧ e ∈ i.evals info m := by
  unfold evalsOf
  rw [List.mem_flatMap]
  constructor
  · rintro ⟨o, ho, he⟩
    cases o with
    | step i => exact ⟨i, ho, he⟩
    | _ => simp [Op.evals] at he
  · rintro ⟨i, hi, he⟩
    exact ⟨_, hi, he⟩

/-- The points of a completed step with their fitnesses. -/
theorem evals_spec {i : In} (h : i.res = i.pop.map F) {e : Pt × Dbl} :
    e ∈ i.evals info 0 ↔ (∀ x ∈ i.pop, F x ≠ none) ∧ e.1 ∈ i.pop ∧ F e.1 = some e.2 := by
  have hf : i.Failed 0 ↔ ∃ x ∈ i.pop, F x = none := by
    unfold In.Failed failures
    rw [if_pos le_rfl, h]
    rw [Int.natCast_pos, List.countP_pos_iff]
    simp
  unfold In.evals
  by_cases hx : i.Failed 0
  · rw [if_pos hx]
    obtain ⟨x, hx1, hx2⟩ := hf.1 hx
    simp only [List.not_mem_nil, false_iff]
    exact fun hh => hh.1 x hx1 hx2
  · rw [if_neg hx, h]
    have hall : ∀ x ∈ i.pop, F x ≠ none := fun x hx1 hx2 => hx (hf.2 ⟨x, hx1, hx2⟩)
    have hz : ∀ ps : List Pt, (∀ x ∈ ps, F x ≠ none) → (e ∈ ps.zip ((ps.map F).map (fitOf info)) ↔ e.1 ∈ ps ∧ F e.1 = some e.2) := by
      intro ps
      induction ps with
      | nil => simp
      | cons p ps ih =>
        intro hp
        have hp' := hp p (by simp)
        obtain ⟨f, hfp⟩ := Option.ne_none_iff_exists'.1 hp'
        simp only [List.map_cons, List.zip_cons_cons, List.mem_cons, ih fun x hx => hp x (by simp [hx]), hfp, fitOf]
        obtain ⟨a, b⟩ := e
        constructor
        · rintro (h | h)
          · cases h; exact ⟨.inl rfl, hfp⟩
          · exact ⟨.inr h.1, h.2⟩
        · rintro ⟨h | h, h'⟩
          · left
            dsimp only at h h'
            subst h
            rw [hfp] at h'
            cases h'; rfl
          · exact .inr ⟨h, h'⟩
    exact (hz _ hall).trans ⟨fun h => ⟨hall, h⟩, fun h => h.2⟩

/-- What an optimizer for the objective `F` shows after the calls `l`: no point of a completed step is better than its best fitness, and its best point was evaluated in a completed step,
is within the bounds (at 8 digits) and has the best fitness - if any point was better than the worst fitness there is. -/
def Solution (nan : Prop) (F : Pt → Option Dbl) (info : ObjInfo) (l : List Op) (v : Vis) : Prop :=
  (∀ i, Op.step i ∈ l → (∀ x ∈ i.pop, F x ≠ none) → ∀ x ∈ i.pop, ∀ f, F x = some f → info.isBetter f v.bestFitness = false) ∧
  (v.bestFitness = info.worstFitness ∧ v.bestPoint = (SearchPoint.ofInfo info).values ∨
    F v.bestPoint = some v.bestFitness ∧ EvaluatedWithin nan info v.bestPoint ∧ ∃ i, Op.step i ∈ l ∧ v.bestPoint ∈ i.pop ∧ ∀ x ∈ i.pop, F x ≠ none)

/-- The result of calls of the base class, if the populations and results are as in a derived class. -/
theorem solution_after (hd : info.dim ≠ 0) (hF : ∀ x, F x ≠ some .nan) {o : Opt} (h0 : Fresh info o) {l : List Op}
    (h2 : ∀ i, Op.step i ∈ l → i.pop ≠ [] ∧ (∀ x ∈ i.pop, EvaluatedWithin nan info x) ∧ i.res = i.pop.map F) : Solution nan F info l (o.after E l).vis := by
  have hv : ∀ o ∈ Op.addCond (.flat (lit (1 / 10 ^ 9))) :: l, o.Valid info := by
    intro o ho
    rcases List.mem_cons.1 ho with rfl | ho
    · trivial
    · cases o with
      | step i =>
        obtain ⟨h1, h2, h3⟩ := h2 i ho
        exact ⟨h1, by rw [h3, List.length_map], fun p hp => (h2 p hp).length⟩
      | _ => trivial
  have hn : NoNaN (Op.addCond (.flat (lit (1 / 10 ^ 9))) :: l) := by
    intro i hi f hf
    rcases List.mem_cons.1 hi with hi | hi
    · cases hi
    · rw [(h2 i hi).2.2, List.mem_map] at hf
      obtain ⟨x, -, hx⟩ := hf
      rintro rfl
      exact hF x hx
  have hb := best_history E info 0 hd _ hv hn
  rw [← fresh_after h0] at hb
  have hev : ∀ e, e ∈ evalsOf info 0 (Op.addCond (.flat (lit (1 / 10 ^ 9))) :: l) ↔ ∃ i, Op.step i ∈ l ∧ (∀ x ∈ i.pop, F x ≠ none) ∧ e.1 ∈ i.pop ∧ F e.1 = some e.2 := by
    intro e
    rw [evals_mem]
    constructor
    · rintro ⟨i, hi, he⟩
      rcases List.mem_cons.1 hi with hi | hi
      · cases hi
      · exact ⟨i, hi, (evals_spec (h2 i hi).2.2).1 he⟩
    · rintro ⟨i, hi, he⟩
      exact ⟨i, List.mem_cons_of_mem _ hi, (evals_spec (h2 i hi).2.2).2 he⟩
  obtain ⟨-, hbest⟩ := bestInv_not_better hb
  refine ⟨fun i hi hc x hx f hf => hbest (x, f) ((hev _).2 ⟨i, hi, hc, hx, hf⟩), ?_⟩
  rcases hb.1 with ⟨h3, h4, -⟩ | ⟨-, -, pre, pt, post, he, -, -, h3⟩
  · exact .inl ⟨h3, h4⟩
  · obtain ⟨i, hi, hc, hx, hf⟩ := (hev (pt, (o.after E l).vis.bestFitness)).1 (by rw [he]; simp)
    have hw := (h2 i hi).2.1 pt hx
    rw [h3, hw.rounded]
    exact .inr ⟨hf, hw, i, hi, hx, hc⟩

/-- The result of an optimization, for every derived class. -/
theorem Machine.Good.result (hM : M.Good E F info nan) (hd : info.dim ≠ 0) (hF : ∀ x, F x ≠ some .nan) {s t : S} (h0 : Fresh info (M.opt s)) {l : List Op} (h : M.Session E F s l t) :
    Solution nan F info l (M.opt t).vis := by
  obtain ⟨h1, h2⟩ := hM.session h
  rw [h1]
  exact solution_after hd hF h0 h2

/-! ## `run` -/

theorem fresh_WF {o : Opt} (h : Fresh info o) : o.vis.WF info 0 := by
  subst h
  exact ⟨by simp [Opt.init, Opt.addCond, Cond.minWindow], by simp [Opt.init, Opt.addCond, Cond.minWindow],
      by simp [Opt.init, Opt.addCond, Cond.minWindow, SearchPoint.ofInfo, ObjInfo.dim]⟩

theorem Machine.Good.WF (hM : M.Good E F info nan) (hd : info.dim ≠ 0) {s t : S} (h0 : (M.opt s).vis.WF info 0) {l : List Op} (h : M.Session E F s l t) :
    (M.opt t).vis.WF info 0 := by
  have := history_induction (E := E) hd h0 (fun _ _ => True) trivial (by simp) l (hM.valid h)
  rw [(hM.session h).1]
  exact this.1

/-- There is always a next step. -/
theorem Machine.Good.next (hM : M.Good E F info nan) (hd : info.dim ≠ 0) {s : S} (h0 : (M.opt s).vis.WF info 0) : ∃ i t r, M.Step E F s i t r := by
  have hw : (M.opt (M.put s (M.opt s).opening)).vis.WF info 0 := by rw [hM.get_put, opening_begun, begun_vis]; exact h0
  obtain ⟨pop, u, hi⟩ := hM.total hw
  obtain ⟨b, hb⟩ := hM.eval hi
  rw [hM.get_put] at hb
  exact ⟨_, _, _, .mk (intr := false) (by rw [h0.info_eq]; exact hd) hi (by rw [hb]) rfl⟩

theorem Machine.Good.loop (hM : M.Good E F info nan) (hd : info.dim ≠ 0) : ∀ (n : Nat) {s0 s : S} {l : List Op}, (M.opt s0).vis.WF info 0 → M.Session E F s0 l s →
    ∃ is t r, M.Loop E F n s is t r
  | 0, _, s, _, _, _ => ⟨[], s, _, .done⟩
  | n + 1, s0, s, l, h0, hs => by
    obtain ⟨i, t, r, st⟩ := hM.next hd (hM.WF hd h0 hs)
    by_cases hr : r = .ok none
    · subst hr
      obtain ⟨is, u, r, h⟩ := hM.loop hd n h0 (hs.step st)
      exact ⟨_, _, _, .next st h⟩
    · exact ⟨_, _, _, .stop st hr⟩

/-- A condition that uses the tracked fitnesses asks for a window. -/
def Cond.Windowed (c : Cond) : Prop := (∀ p, c ≠ .minProgress p 0) ∧ ∀ f a, c ≠ .predicted f a 0

theorem noShrink_of_no_window {E : OptEnv} : ∀ {l : List Op}, (∀ n, Op.window n ∉ l) → ∀ s : Opt, NoShrink E s l
  | [], _, _ => trivial
  | o :: l, h, s => ⟨fun n hn => absurd (by simp [hn]) (h n), noShrink_of_no_window (fun n hn => h n (List.mem_cons_of_mem _ hn)) _⟩

/-- What a step returns: the stop condition there was, or the first one that holds now. -/
theorem Machine.Good.returned (hM : M.Good E F info nan) (hd : info.dim ≠ 0) (hF : ∀ x, F x ≠ some .nan) {s0 s t : S} (h0 : Fresh info (M.opt s0)) {l : List Op}
    (hs : M.Session E F s0 l s) (hw : ∀ n, Op.window n ∉ l) (hc : ∀ c, Op.addCond c ∈ l → c.Windowed) {i : In} {r : Res (Option Nat)} (st : M.Step E F s i t r) :
    (∃ k, (M.opt s).stopped = some k ∧ (M.opt t).stopped = some k ∧ r = .ok (some k)) ∨
    (M.opt s).stopped = none ∧ ((M.opt t).stopped = none ∧ (∀ c ∈ (M.opt t).conds, ¬ c.Holds E (M.opt t).vis) ∧ r = .ok none ∨
      ∃ (j : Nat) (c : Cond), (M.opt t).stopped = some j ∧ (M.opt t).conds[j]? = some c ∧ c.Holds E (M.opt t).vis ∧
        (∀ (k : Nat) (d : Cond), k < j → (M.opt t).conds[k]? = some d → ¬ d.Holds E (M.opt t).vis) ∧ r = .ok (some j)) := by
  have hst := hM.session (hs.step st)
  have hv : ∀ o ∈ (.addCond (.flat (lit (1 / 10 ^ 9))) :: l) ++ [.step i], o.Valid info := by
    intro o ho
    rw [List.cons_append, List.mem_cons] at ho
    rcases ho with rfl | ho
    · trivial
    · exact hM.valid (hs.step st) o ho
  have hv' : ∀ o ∈ Op.addCond (.flat (lit (1 / 10 ^ 9))) :: l, o.Valid info := fun o ho => hv o (List.mem_append_left _ ho)
  have hi : i.Valid info := hv (.step i) (by simp)
  have hn : NoNaN ((.addCond (.flat (lit (1 / 10 ^ 9))) :: l) ++ [.step i]) := by
    intro j hj f hf
    rw [List.cons_append, List.mem_cons] at hj
    rcases hj with hj | hj
    · cases hj
    · rw [(hst.2 j hj).2.2, List.mem_map] at hf
      obtain ⟨x, -, hx⟩ := hf
      rintro rfl
      exact hF x hx
  have hw' : ∀ n, Op.window n ∉ Op.addCond (.flat (lit (1 / 10 ^ 9))) :: l := by intro n; simpa using hw n
  have hsh : NoShrink E (Opt.new info 0) (.addCond (.flat (lit (1 / 10 ^ 9))) :: l) := noShrink_of_no_window hw' _
  have e1 := hM.base st
  have e2 := (hM.session hs).1
  rw [fresh_after h0] at e2
  have e3 : (M.opt t, r) = ((Opt.new info 0).after E (.addCond (.flat (lit (1 / 10 ^ 9))) :: l)).step E (Opt.internal E i) := by rw [← e2, e1.1]
  have e4 : M.opt t = (Opt.new info 0).after E ((.addCond (.flat (lit (1 / 10 ^ 9))) :: l) ++ [.step i]) := by
    rw [hst.1, fresh_after h0]; rfl
  cases hss : (M.opt s).stopped with
  | some k =>
    refine .inl ⟨k, rfl, ?_⟩
    have p1 := C24_permanent E info 0 hd (.addCond (.flat (lit (1 / 10 ^ 9))) :: l) [.step i] hv k (by rw [← e2]; exact hss)
    have p2 := C24_permanent E info 0 hd (.addCond (.flat (lit (1 / 10 ^ 9))) :: l) [] (by simpa using hv') k (by rw [← e2]; exact hss)
    dsimp only at p1 p2
    rw [← e4] at p1
    rw [List.append_nil] at p2
    refine ⟨p1.1, ?_⟩
    have := p2.2.2 i hi
    rw [← e3] at this
    exact this
  | none =>
    refine .inr ⟨rfl, ?_⟩
    have q := C24_step E info 0 hd (.addCond (.flat (lit (1 / 10 ^ 9))) :: l) i hv hsh hn
    dsimp only at q
    rw [← e3, ← e2] at q
    have hth : ∀ c ∈ (M.opt t).conds, ¬ c.Throws (M.opt t).vis := by
      intro c hcm hT
      obtain ⟨b, hb, -⟩ := C24_conditions E info 0 hd _ hv
      have hadd := C32_added_conditions_do_not_throw E info 0 hd _ hv (by intro n; rw [List.mem_append]; simpa using hw n) c
      dsimp only at hadd
      rw [← e4] at hb hadd
      have hwin : c.minWindow = 0 := by
        by_contra h
        exact hadd hcm (Nat.pos_of_ne_zero h) hT
      rw [hb] at hcm
      have : c = .abort ∨ c = .error b ∨ c ∈ addedConds ((.addCond (.flat (lit (1 / 10 ^ 9))) :: l) ++ [.step i]) := by simpa using hcm
      rcases this with rfl | rfl | hm
      · exact hT
      · exact hT
      · unfold addedConds at hm
        rw [List.mem_filterMap] at hm
        obtain ⟨o, ho, ho'⟩ := hm
        cases o with
        | addCond d =>
          obtain rfl : d = c := by simpa using ho'
          have hmem : d = .flat (lit (1 / 10 ^ 9)) ∨ Op.addCond d ∈ l := by simpa using ho
          rcases hmem with rfl | hmem
          · exact hT
          · have := hc d hmem
            cases d with
            | minProgress p m => simp only [Cond.minWindow] at hwin; exact this.1 p (by rw [hwin])
            | predicted f a m => simp only [Cond.minWindow] at hwin; exact this.2 f a (by rw [hwin])
            | _ => exact hT
        | _ => simp at ho'
    have hret : ∀ k, r = .ok (some k) ↔ (M.opt t).stopped = some k := by
      intro k
      have := C24_returned E info 0 hd (.addCond (.flat (lit (1 / 10 ^ 9))) :: l) i hv' hi k
      dsimp only at this
      rw [← e3] at this
      exact this
    rcases q hss hth with ⟨g1, g2⟩ | ⟨j, c, g1, g2, g3, g4⟩
    · refine .inl ⟨?_, g1, g2⟩
      cases ho : (M.opt t).stopped with
      | none => rfl
      | some k => have := (hret k).2 ho; rw [show r = .ok none from g2] at this; simp at this
    · exact .inr ⟨j, c, (hret j).1 g4, g1, g2, g3, g4⟩

/-- What the loop of `run(n)` does between the states `s` and `t`, with the steps `is` and the returned `r`: it makes `n` steps and returns null, and then no stop condition holds;
or it returns the stop condition of the optimizer, after at most `n` steps: the one there was before, after one step, or the first that holds. -/
def RunSpec (E : OptEnv) (n : Nat) (s : Opt) (is : List In) (t : Opt) (r : Res (Option Nat)) : Prop :=
  is.length ≤ n ∧
  (r = .ok none ∧ is.length = n ∧ (0 < n → t.stopped = none ∧ ∀ c ∈ t.conds, ¬ c.Holds E t.vis) ∨
   ∃ k, r = .ok (some k) ∧ t.stopped = some k ∧ (s.stopped = some k ∧ is.length = 1 ∨
    s.stopped = none ∧ ∃ c, t.conds[k]? = some c ∧ c.Holds E t.vis ∧ ∀ (j : Nat) (d : Cond), j < k → t.conds[j]? = some d → ¬ d.Holds E t.vis))

/-- What any run does. -/
theorem Machine.Good.loop_spec (hM : M.Good E F info nan) (hd : info.dim ≠ 0) (hF : ∀ x, F x ≠ some .nan) {n : Nat} {s0 s t : S} {l : List Op} {is : List In} {r : Res (Option Nat)}
    (h0 : Fresh info (M.opt s0)) (hs : M.Session E F s0 l s) (hw : ∀ n, Op.window n ∉ l) (hc : ∀ c, Op.addCond c ∈ l → c.Windowed) (h : M.Loop E F n s is t r) :
    M.Session E F s0 (l ++ is.map Op.step) t ∧ RunSpec E n (M.opt s) is (M.opt t) r := by
  induction h generalizing l with
  | done => exact ⟨by simpa using hs, le_rfl, .inl ⟨rfl, rfl, by simp⟩⟩
  | @next n s t u i is r st h ih =>
    have hr := hM.returned hd hF h0 hs hw hc st
    obtain ⟨h1, h2, h3⟩ := ih (hs.step st) (by intro n; simpa using hw n) (by intro c h; exact hc c (by simpa using h))
    refine ⟨by simpa using h1, by simpa using h2, ?_⟩
    have hst : (M.opt s).stopped = none ∧ (M.opt t).stopped = none ∧ ∀ c ∈ (M.opt t).conds, ¬ c.Holds E (M.opt t).vis := by
      rcases hr with ⟨k, -, -, h⟩ | ⟨h, ⟨h', h'', -⟩ | ⟨j, c, -, -, -, -, h'⟩⟩
      · simp at h
      · exact ⟨h, h', h''⟩
      · simp at h'
    rcases h3 with ⟨g1, g2, g3⟩ | ⟨k, g1, g2, g3⟩
    · refine .inl ⟨g1, by simp [g2], fun _ => ?_⟩
      rcases Nat.eq_zero_or_pos n with rfl | hn
      · cases h; exact hst.2
      · exact g3 hn
    · refine .inr ⟨k, g1, g2, .inr ⟨hst.1, ?_⟩⟩
      rcases g3 with ⟨g3, -⟩ | ⟨-, g3⟩
      · rw [hst.2.1] at g3; simp at g3
      · exact g3
  | @stop n s t i r st hr =>
    refine ⟨hs.step st, by simp, .inr ?_⟩
    rcases hM.returned hd hF h0 hs hw hc st with ⟨k, h1, h2, h3⟩ | ⟨h, ⟨-, -, h'⟩ | ⟨j, c, g0, g1, g2, g3, g4⟩⟩
    · exact ⟨k, h3, h2, .inl ⟨h1, rfl⟩⟩
    · exact absurd h' hr
    · exact ⟨j, g4, g0, .inr ⟨h, c, g1, g2, g3⟩⟩

/-- With a `max_steps_condition` there is a bound on the number of steps, whether evaluations fail or not. -/
theorem Machine.Good.max_steps (hM : M.Good E F info nan) (hd : info.dim ≠ 0) (hF : ∀ x, F x ≠ some .nan) {n m : Nat} {s0 s t : S} {l : List Op} {is : List In} {r : Res (Option Nat)}
    (h0 : Fresh info (M.opt s0)) (hs : M.Session E F s0 l s) (hw : ∀ n, Op.window n ∉ l) (hc : ∀ c, Op.addCond c ∈ l → c.Windowed) (hm : Op.addCond (.maxSteps m) ∈ l)
    (h : M.Loop E F n s is t r) : is.length ≤ max 1 (m - (M.opt s).vis.stepCount) := by
  induction h generalizing l with
  | done => simp
  | @next n s t u i is r st h ih =>
    have ih := ih (hs.step st) (by intro n; simpa using hw n) (by intro c h; exact hc c (by simpa using h)) (by simpa using hm)
    have hst := hM.session (hs.step st)
    have hv : ∀ o ∈ (.addCond (.flat (lit (1 / 10 ^ 9))) :: l) ++ [.step i], o.Valid info := by
      intro o ho
      rw [List.cons_append, List.mem_cons] at ho
      rcases ho with rfl | ho
      · trivial
      · exact hM.valid (hs.step st) o ho
    have hno : ∀ c ∈ (M.opt t).conds, ¬ c.Holds E (M.opt t).vis := by
      rcases hM.returned hd hF h0 hs hw hc st with ⟨k, -, -, h⟩ | ⟨h, ⟨-, h'', -⟩ | ⟨j, c, -, -, -, -, h'⟩⟩
      · simp at h
      · exact h''
      · simp at h'
    have e2 := (hM.session hs).1
    rw [fresh_after h0] at e2
    have e4 : M.opt t = (Opt.new info 0).after E ((.addCond (.flat (lit (1 / 10 ^ 9))) :: l) ++ [.step i]) := by
      rw [hst.1, fresh_after h0]; rfl
    obtain ⟨b, hb, hb'⟩ := C24_conditions E info 0 hd _ hv
    rw [← e4] at hb
    have hf : ¬ i.Failed 0 := by
      intro hf
      exact hno (.error b) (by rw [hb]; simp) (hb'.2 ⟨i, by simp, hf⟩)
    have hcnt := C22_completed_step E info 0 hd (.addCond (.flat (lit (1 / 10 ^ 9))) :: l) i (fun o ho => hv o (List.mem_append_left _ ho)) (hv (.step i) (by simp)) hf
    dsimp only at hcnt
    rw [← e2, (hM.base st).1] at hcnt
    have hlt : ¬ m ≤ (M.opt t).vis.stepCount := by
      refine hno (.maxSteps m) ?_
      rw [hb]
      have : Cond.maxSteps m ∈ addedConds ((.addCond (.flat (lit (1 / 10 ^ 9))) :: l) ++ [.step i]) := by
        unfold addedConds
        exact List.mem_filterMap.2 ⟨.addCond (.maxSteps m), by simp [hm], rfl⟩
      exact List.mem_cons_of_mem _ (List.mem_cons_of_mem _ this)
    have hcnt' : (M.opt t).vis.stepCount = (M.opt s).vis.stepCount + 1 := hcnt
    simp only [List.length_cons]
    omega
  | @stop n s t i r st hr => simp

/-! ## The derived classes -/

theorem es_eval {R : Rng Dbl} {n : Nat} {c : EsCfg R n} {t t' : EsOpt R n} {pop : List Pt} (st : EsOpt.Internal E c F t pop t') :
    (∃ b, t.opt.evaluateStep E pop (pop.map F) = (t'.opt, .ok b)) ∧ ∃ e, samplePopulation R c.bounds c.alg.ofs.1 c.alg.ofs.2 c.lambda t.dist t.eng = (pop, e) := by
  cases st with
  | ok hp he _ _ => exact ⟨⟨_, he⟩, _, hp⟩
  | failed hp he => exact ⟨⟨_, he⟩, _, hp⟩

theorem es_good {R : Rng Dbl} (hR : R.NoNaN) (E : OptEnv) (info : ObjInfo) (hv : ∀ p ∈ info.pars, p.isValid = true) (c : EsCfg R info.dim) (hc : c.bounds = Bounds.ofInfo info)
    (hl : 1 ≤ c.lambda) (h0 : 0 ≤ c.mu) (h1 : c.mu ≤ c.lambda) (F : Pt → Option Dbl) : (esMachine E c).Good E F info False where
  get_put _ _ := rfl
  eval st := (es_eval st).1
  pop {s pop t} st := by
    refine ⟨?_, es_within hR E info hv c hc F st⟩
    rintro rfl
    obtain ⟨e, he⟩ := (es_eval st).2
    have := (C43_population R hR info hv c.alg.ofs.1 c.alg.ofs.2 c.lambda s.dist s.eng).1
    rw [← hc, he] at this
    simp at this
    omega
  total hw := by
    obtain ⟨pop, t', h, -⟩ := es_internal_total E info c hl h0 h1 F hw
    exact ⟨pop, t', h⟩

theorem cma_good {G : GaussSrc Dbl} (E : OptEnv) (info : ObjInfo) (hd : info.dim ≠ 0) (hv : ∀ p ∈ info.pars, p.isValid = true) (c : CmaCfg info.dim) (hc : c.bounds = Bounds.ofInfo info)
    (hl : 1 ≤ c.par.lambda) (F : Pt → Option Dbl) : (cmaMachine (G := G) E c).Good E F info True where
  get_put _ _ := rfl
  eval st := by
    cases st with
    | ok _ _ he _ => exact ⟨_, he⟩
    | failed _ _ he => exact ⟨_, he⟩
  pop {s pop t} st := by
    refine ⟨?_, C16_cma E info hv c hc F s (.snoc .nil st) pop (by simp)⟩
    rintro rfl
    obtain ⟨d, xs, hp, hx⟩ : ∃ d xs, s.cma.sample c.tr c.bounds c.eig c.par = (d, xs) ∧ [] = toPoints xs := by
      change CmaOpt.Internal E c F s [] t at st
      generalize hq : ([] : List Pt) = q at st
      cases st with
      | ok _ hp _ _ => exact ⟨_, _, hp, rfl⟩
      | failed _ hp _ => exact ⟨_, _, hp, rfl⟩
    have hxl : xs.length = c.par.lambda := by
      have := boundedLoop_length c.tr c.bounds (List.range c.par.lambda) (s.cma.samplePopulation c.eig c.par)
      rw [List.length_range] at this
      have h2 : xs = (s.cma.sample c.tr c.bounds c.eig c.par).2 := by rw [hp]
      rw [h2]; exact this
    have : xs = [] := by simpa [toPoints] using hx.symm
    rw [this] at hxl
    simp at hxl
    omega
  total hw := by
    obtain ⟨pop, t', h, -⟩ := cma_internal_total E info (Nat.pos_of_ne_zero hd) c hl F hw
    exact ⟨pop, t', h⟩

/-! ## The theorems -/

section es
variable {R : Rng Dbl} (hR : R.NoNaN) (E : OptEnv) (info : ObjInfo) (hd : info.dim ≠ 0) (hv : ∀ p ∈ info.pars, p.isValid = true) (c : EsCfg R info.dim)
  (hc : c.bounds = Bounds.ofInfo info) (hl : 1 ≤ c.lambda) (h0 : 0 ≤ c.mu) (h1 : c.mu ≤ c.lambda) (F : Pt → Option Dbl) (e : R.Eng)
include hR hv hc hl h0 h1

/-- **C106.** A MES or EVA optimizer is, in every state that any calls lead to, the base class after the same calls, where each `step` evaluates a population within the bounds: so
what holds for all histories of the base class (C20 - C32) holds for MES and EVA. -/
theorem C106_base_mes_eva {l : List Op} {t : EsOpt R info.dim} (h : (esMachine E c).Session E F (EsOpt.make info e) l t) :
    t.opt = (Opt.new info 0).after E (.addCond (.flat (lit (1 / 10 ^ 9))) :: l) ∧ (∀ o ∈ l, o.Valid info) ∧
    ∀ i, Op.step i ∈ l → i.pop ≠ [] ∧ (∀ x ∈ i.pop, EvaluatedWithin False info x) ∧ i.res = i.pop.map F :=
  have hM := es_good hR E info hv c hc hl h0 h1 F
  ⟨by rw [← fresh_after (E := E) (show Fresh info (EsOpt.make (R := R) info e).opt from rfl)]; exact (hM.session h).1, hM.valid h, (hM.session h).2⟩

include hd

/-- **C106.** The solution of MES and EVA. -/
theorem C106_solution_mes_eva (hF : ∀ x, F x ≠ some .nan) {l : List Op} {t : EsOpt R info.dim} (h : (esMachine E c).Session E F (EsOpt.make info e) l t) :
    Solution False F info l t.opt.vis :=
  (es_good hR E info hv c hc hl h0 h1 F).result hd hF (show Fresh info ((esMachine E c).opt (EsOpt.make info e)) from rfl) h

/-- **C106.** In every state that calls (other than setting the window) of a MES or EVA optimizer lead to, `run(n)` can be made, and every run does what `RunSpec` says; `run(0)` is
`run(2^64 - 1)`. After a `max_steps_condition(m)` has been added it makes at most as many steps as are missing to `m` (but at least one). -/
theorem C106_run_mes_eva (hF : ∀ x, F x ≠ some .nan) {l : List Op} {s : EsOpt R info.dim} (h : (esMachine E c).Session E F (EsOpt.make info e) l s)
    (hw : ∀ n, Op.window n ∉ l) (hcs : ∀ c, Op.addCond c ∈ l → c.Windowed) (n : Nat) :
    (∃ is t r, (esMachine E c).Run E F n s is t r) ∧ ∀ is t r, (esMachine E c).Run E F n s is t r →
      (esMachine E c).Session E F (EsOpt.make info e) (l ++ is.map Op.step) t ∧ RunSpec E (if n = 0 then 2 ^ 64 - 1 else n) s.opt is t.opt r ∧
      ∀ m, Op.addCond (.maxSteps m) ∈ l → is.length ≤ max 1 (m - s.opt.vis.stepCount) := by
  have hM := es_good hR E info hv c hc hl h0 h1 F
  have hfr : Fresh info ((esMachine E c).opt (EsOpt.make info e)) := rfl
  constructor
  · obtain ⟨is, t, r, hr⟩ := hM.loop hd (if n = 0 then 2 ^ 64 - 1 else n) (fresh_WF hfr) h
    exact ⟨is, t, r, by rw [(hM.WF hd (fresh_WF hfr) h).info_eq]; exact hd, hr⟩
  · rintro is t r ⟨-, hr⟩
    obtain ⟨g1, g2⟩ := hM.loop_spec hd hF hfr h hw hcs hr
    exact ⟨g1, g2, fun m hm => hM.max_steps hd hF hfr h hw hcs hm hr⟩

end es

section cma
variable {G : GaussSrc Dbl} (E : OptEnv) (info : ObjInfo) (hd : info.dim ≠ 0) (hv : ∀ p ∈ info.pars, p.isValid = true) (c : CmaCfg info.dim)
  (hc : c.bounds = Bounds.ofInfo info) (hl : 1 ≤ c.par.lambda) (F : Pt → Option Dbl) (opt : Int) (modulo : Dbl) (rng : G.St) (s0 : CmaOpt G info.dim)
  (hs0 : CmaOpt.make info opt modulo rng = .ok (c.par, s0))
include hd hv hc hl hs0

/-- **C106.** The same for CMA, with any boundary transformer and eigenvalue decomposition. -/
theorem C106_base_cma {l : List Op} {t : CmaOpt G info.dim} (h : (cmaMachine E c).Session E F s0 l t) :
    t.opt = (Opt.new info 0).after E (.addCond (.flat (lit (1 / 10 ^ 9))) :: l) ∧ (∀ o ∈ l, o.Valid info) ∧
    ∀ i, Op.step i ∈ l → i.pop ≠ [] ∧ (∀ x ∈ i.pop, EvaluatedWithin True info x) ∧ i.res = i.pop.map F :=
  have hM := cma_good (G := G) E info hd hv c hc hl F
  ⟨by rw [← fresh_after (E := E) (show Fresh info s0.opt from (make_ok hs0).1)]; exact (hM.session h).1, hM.valid h, (hM.session h).2⟩

/-- **C106.** The solution of CMA. -/
theorem C106_solution_cma (hF : ∀ x, F x ≠ some .nan) {l : List Op} {t : CmaOpt G info.dim} (h : (cmaMachine E c).Session E F s0 l t) :
    Solution True F info l t.opt.vis :=
  (cma_good (G := G) E info hd hv c hc hl F).result hd hF (make_ok hs0).1 h

/-- **C106.** `run(n)` of CMA. -/
theorem C106_run_cma (hF : ∀ x, F x ≠ some .nan) {l : List Op} {s : CmaOpt G info.dim} (h : (cmaMachine E c).Session E F s0 l s)
    (hw : ∀ n, Op.window n ∉ l) (hcs : ∀ c, Op.addCond c ∈ l → c.Windowed) (n : Nat) :
    (∃ is t r, (cmaMachine E c).Run E F n s is t r) ∧ ∀ is t r, (cmaMachine E c).Run E F n s is t r →
      (cmaMachine E c).Session E F s0 (l ++ is.map Op.step) t ∧ RunSpec E (if n = 0 then 2 ^ 64 - 1 else n) s.opt is t.opt r ∧
      ∀ m, Op.addCond (.maxSteps m) ∈ l → is.length ≤ max 1 (m - s.opt.vis.stepCount) := by
  have hM := cma_good (G := G) E info hd hv c hc hl F
  have hfr : Fresh info ((cmaMachine E c).opt s0) := (make_ok hs0).1
  constructor
  · obtain ⟨is, t, r, hr⟩ := hM.loop hd (if n = 0 then 2 ^ 64 - 1 else n) (fresh_WF hfr) h
    exact ⟨is, t, r, by rw [(hM.WF hd (fresh_WF hfr) h).info_eq]; exact hd, hr⟩
  · rintro is t r ⟨-, hr⟩
    obtain ⟨g1, g2⟩ := hM.loop_spec hd hF hfr h hw hcs hr
    exact ⟨g1, g2, fun m hm => hM.max_steps hd hF hfr h hw hcs hm hr⟩

end cma

/-- With MES or EVA and an objective that fails for some points: runs with a target and a limit of 7 steps; `run(0)` makes at most 7. -/
example {R : Rng Dbl} (hR : R.NoNaN) (E : OptEnv) (alg : EsAlg Dbl) (e : R.Eng) (F : Pt → Option Dbl) (hF : ∀ x, F x ≠ some .nan) :
    ∃ is t r, is.length ≤ 7 ∧ Solution False F boundsInfo ([.addCond (.target (.fin 3)), .addCond (.maxSteps 7)] ++ is.map Op.step) t.opt.vis ∧
      (esMachine E ⟨alg, .fin 0, 10, 5, Bounds.ofInfo boundsInfo⟩).Run E F 0
        { EsOpt.make (R := R) boundsInfo e with opt := ((EsOpt.make (R := R) boundsInfo e).opt.addCond (.target (.fin 3))).addCond (.maxSteps 7) } is t r := by
  have hs : (esMachine E ⟨alg, .fin 0, 10, 5, Bounds.ofInfo boundsInfo⟩).Session E F (EsOpt.make (R := R) boundsInfo e) [.addCond (.target (.fin 3)), .addCond (.maxSteps 7)]
      { EsOpt.make (R := R) boundsInfo e with opt := ((EsOpt.make (R := R) boundsInfo e).opt.addCond (.target (.fin 3))).addCond (.maxSteps 7) } :=
    .call (o := .addCond (.maxSteps 7)) (.call (o := .addCond (.target (.fin 3))) .nil (by simp)) (by simp)
  have hv : ∀ p ∈ boundsInfo.pars, p.isValid = true := by decide +kernel
  have hdim : boundsInfo.dim ≠ 0 := by decide
  obtain ⟨⟨is, t, r, hr⟩, hall⟩ := C106_run_mes_eva hR E boundsInfo hdim hv ⟨alg, .fin 0, 10, 5, Bounds.ofInfo boundsInfo⟩ rfl (by simp) (by simp) (by simp) F e hF hs
    (by simp) (by simp [Cond.Windowed]) 0
  obtain ⟨g1, -, g3⟩ := hall is t r hr
  exact ⟨is, t, r, g3 7 (by simp), C106_solution_mes_eva hR E boundsInfo hdim hv _ rfl (by simp) (by simp) (by simp) F e hF g1, hr⟩

end Spot
