import Verif.Model.ConsoleReporter
import Verif.Props.FileReporter

/-! # What the console reporter prints (C92) -/

namespace Spot

/-! ## The text of a step -/

/-- The calls `xs`, with their times, are those a reporter gets during the part `h` of a history; `h0` is what happened before it was added. -/
def Hears92 (E : OptEnv) (info : ObjInfo) (m : Int) (h0 h : List Op) (xs : List (Nat × Event × Vis)) : Prop :=
  ((Opt.new info m).after E (h0 ++ h)).log = ((Opt.new info m).after E h0).log ++ xs.map Prod.snd

/-- What is printed for the evaluated population of a step: step number, average, median and, for a new best, the best fitness. -/
def Spec.line (c : ConCfg) (step : Nat) (fs : List Dbl) (best : Option Dbl) : Str :=
  decN 4 step ++ ":  A=".toList ++ c.fix c.precision (c.average fs) ++ " M=".toList ++ c.fix c.precision (c.median fs) ++
    (match best with
     | some f => " B=".toList ++ c.fix c.precision f
     | none => [])

/-- What is printed when a stop condition (or none) is met, `ticks` after the optimization started. -/
def Spec.ending (c : ConCfg) (stop : Option Nat) (ticks : Nat) : Str := match stop with
  | some k => "\nOptimization finished in ".toList ++ c.secs ticks ++ "s: ".toList ++ c.what k ++ "\n".toList
  | none => []

theorem hline : ":  A=".toList = ": ".toList ++ " A=".toList := by decide

theorem ending_none (c : ConCfg) (n : Nat) : Spec.ending c none n = [] := rfl
theorem ending_some (c : ConCfg) (k n : Nat) : Spec.ending c (some k) n =
    "\nOptimization finished in ".toList ++ c.secs n ++ "s: ".toList ++ c.what k ++ "\n".toList := rfl
theorem conRun_cons (c : ConCfg) (r : ConRep) (n : Nat) (e : Event × Vis) (xs : List (Nat × Event × Vis)) :
    ConRep.run c r ((n, e) :: xs) = ConRep.run c (r.call c n e) xs := rfl
theorem conRun_nil (c : ConCfg) (r : ConRep) : ConRep.run c r [] = r := rfl
theorem call_stop (c : ConCfg) (r : ConRep) (n k : Nat) (v : Vis) : r.call c n (.stop k, v) =
    ⟨r.out ++ ("\nOptimization finished in ".toList ++ c.secs (n - r.started) ++ "s: ".toList ++ c.what k ++ "\n".toList), r.started⟩ := rfl
theorem call_start (c : ConCfg) (r : ConRep) (n : Nat) (v : Vis) : r.call c n (.start, v) =
    ⟨r.out ++ ("Starting optimization, dim=".toList ++ decN 1 v.info.dim ++ "\n".toList), n⟩ := rfl
theorem call_preStep (c : ConCfg) (r : ConRep) (n : Nat) (v : Vis) : r.call c n (.preStep, v) = ⟨r.out ++ (decN 4 v.stepCount ++ ": ".toList), r.started⟩ := rfl
theorem call_pre (c : ConCfg) (r : ConRep) (n : Nat) (pop : List Pt) (v : Vis) : r.call c n (.preEvaluate pop, v) = r := rfl
theorem call_post (c : ConCfg) (r : ConRep) (n : Nat) (v : Vis) : r.call c n (.postStep, v) = r := rfl
theorem call_newBest (c : ConCfg) (r : ConRep) (n : Nat) (p : Pt) (f : Dbl) (v : Vis) : r.call c n (.newBest p f, v) = r := rfl
theorem line_none (c : ConCfg) (step : Nat) (fs : List Dbl) : Spec.line c step fs none =
    decN 4 step ++ ":  A=".toList ++ c.fix c.precision (c.average fs) ++ " M=".toList ++ c.fix c.precision (c.median fs) ++ [] := rfl
theorem line_some (c : ConCfg) (step : Nat) (fs : List Dbl) (f : Dbl) : Spec.line c step fs (some f) =
    decN 4 step ++ ":  A=".toList ++ c.fix c.precision (c.average fs) ++ " M=".toList ++ c.fix c.precision (c.median fs) ++ (" B=".toList ++ c.fix c.precision f) := rfl
theorem call_evaluated (c : ConCfg) (r : ConRep) (n : Nat) (pop : List Pt) (fs : List Dbl) (nb : Bool) (v : Vis) : r.call c n (.postEvaluate pop fs nb, v) =
    ⟨r.out ++ (" A=".toList ++ c.fix c.precision (c.average fs) ++ " M=".toList ++ c.fix c.precision (c.median fs)) ++
      (if nb then " B=".toList ++ c.fix c.precision v.bestFitness else []) ++ (if nb && c.newlineBest then "\n".toList else "\r".toList), r.started⟩ := by
  show r.evaluated c v fs nb = _
  unfold ConRep.evaluated ConRep.put
  cases nb <;> cases c.newlineBest <;>
    simp only [List.append_nil, Bool.and_true, Bool.and_false, Bool.false_eq_true, if_true, if_false]

theorem conRun_append (c : ConCfg) : ∀ (xs ys : List (Nat × Event × Vis)) (r : ConRep), ConRep.run c r (xs ++ ys) = ConRep.run c (ConRep.run c r xs) ys
  | [], _, _ => rfl
  | (n, e) :: xs, ys, r => by
    show ConRep.run c (r.call c n e) (xs ++ ys) = ConRep.run c (ConRep.run c (r.call c n e) xs) ys
    exact conRun_append c xs ys _

theorem conCall_out (c : ConCfg) (r : ConRep) (n : Nat) (e : Event × Vis) : ∃ t, (r.call c n e).out = r.out ++ t := by
  obtain ⟨e, v⟩ := e
  cases e with
  | start => exact ⟨_, rfl⟩
  | preStep => exact ⟨_, rfl⟩
  | preEvaluate p => exact ⟨[], (List.append_nil _).symm⟩
  | newBest p f => exact ⟨[], (List.append_nil _).symm⟩
  | postEvaluate p fs nb => rw [call_evaluated]; exact ⟨_, by rw [List.append_assoc, List.append_assoc]⟩
  | postStep => exact ⟨[], (List.append_nil _).symm⟩
  | stop k => exact ⟨_, rfl⟩

theorem conRun_out (c : ConCfg) : ∀ (xs : List (Nat × Event × Vis)) (r : ConRep), ∃ t, (ConRep.run c r xs).out = r.out ++ t
  | [], r => ⟨[], (List.append_nil _).symm⟩
  | (n, e) :: xs, r => by
    obtain ⟨t1, h1⟩ := conCall_out c r n e
    obtain ⟨t2, h2⟩ := conRun_out c xs (r.call c n e)
    exact ⟨t1 ++ t2, by rw [conRun_cons, h2, h1, List.append_assoc]⟩

theorem map_one92 {xs : List (Nat × Event × Vis)} {e : Event} (h : (xs.map Prod.snd).map Prod.fst = [e]) : ∃ n v, xs = [(n, e, v)] := by
  cases xs with
  | nil => simp at h
  | cons a l =>
    simp only [List.map_cons, List.cons.injEq, List.map_eq_nil_iff] at h
    exact ⟨a.1, a.2.2, by rw [← h.1, h.2]⟩

theorem text_protocol (c : ConCfg) (r : ConRep) {old : Vis} {failed improved : Bool} {stop : Option Nat} {pop : List Pt} {fs : List Dbl} {best : Pt} {f : Dbl}
    {xs : List (Nat × Event × Vis)} (hs : ∀ x ∈ xs, Seen old x.2) (hb : ∀ n pop fs nb v, (n, .postEvaluate pop fs nb, v) ∈ xs → v.bestFitness = f)
    (hprot : (xs.map Prod.snd).map Prod.fst = protocol (old.stepCount = 0) failed improved stop pop fs best f) :
    (ConRep.run c r xs).out = r.out ++ (if old.stepCount = 0 then "Starting optimization, dim=".toList ++ decN 1 old.info.dim ++ "\n".toList else []) ++
      (if failed then decN 4 old.stepCount ++ ": ".toList
       else Spec.line c old.stepCount fs (if improved then some f else none) ++
        (if improved && c.newlineBest then "\n".toList else "\r".toList)) ++
      Spec.ending c stop ((xs.map Prod.fst).getLastD 0 - (if old.stepCount = 0 then (xs.map Prod.fst).headD 0 else r.started)) := by
  unfold protocol at hprot
  rw [List.map_map] at hprot
  obtain ⟨l123, l4, hl, h123, h4⟩ := List.map_eq_append_iff.1 hprot
  obtain ⟨l12, l3, rfl, h12, h3⟩ := List.map_eq_append_iff.1 h123
  obtain ⟨l1, l2, rfl, h1, h2⟩ := List.map_eq_append_iff.1 h12
  rw [← List.map_map] at h1 h2 h3 h4
  -- the number
  obtain ⟨la, lb, rfl, ha, hb'⟩ := List.map_eq_append_iff.1 (show l2.map (Prod.fst ∘ Prod.snd) = [.preStep] ++ [.preEvaluate pop] by rw [← List.map_map]; exact h2)
  obtain ⟨n2, v2, rfl⟩ := map_one92 (by rw [List.map_map]; exact ha)
  obtain ⟨n3, v3, rfl⟩ := map_one92 (by rw [List.map_map]; exact hb')
  have hv2 : old = v2 := (hs (n2, .preStep, v2) (by rw [hl]; simp)).symm
  subst hv2
  -- the header
  have hstart : ∃ st : Nat, (ConRep.run c r l1) = ⟨r.out ++ (if old.stepCount = 0 then "Starting optimization, dim=".toList ++ decN 1 old.info.dim ++ "\n".toList else []), st⟩ ∧
      st = (if old.stepCount = 0 then (xs.map Prod.fst).headD 0 else r.started) := by
    split at h1
    · next h0 =>
      obtain ⟨n, v, rfl⟩ := map_one92 h1
      have hv1 : old = v := (hs (n, .start, v) (by rw [hl]; simp)).symm
      subst hv1
      have h0' : old.stepCount = 0 := of_decide_eq_true h0
      refine ⟨n, ?_, ?_⟩
      · rw [if_pos h0']
        rw [conRun_cons, conRun_nil, call_start]
      · rw [if_pos h0']; simp [hl]
    · next h0 =>
      have h0' : ¬ old.stepCount = 0 := fun h => h0 (decide_eq_true h)
      have : l1 = [] := by simpa using h1
      subst this
      exact ⟨r.started, by rw [if_neg h0', List.append_nil]; rfl, by rw [if_neg h0']⟩
  obtain ⟨st, hr1, hst⟩ := hstart
  rw [← hst]
  -- the evaluation
  have heval : ConRep.run c (ConRep.run c r (l1 ++ ([(n2, .preStep, old)] ++ [(n3, .preEvaluate pop, v3)]))) l3 =
      ⟨r.out ++ (if old.stepCount = 0 then "Starting optimization, dim=".toList ++ decN 1 old.info.dim ++ "\n".toList else []) ++
        (if failed then decN 4 old.stepCount ++ ": ".toList
         else Spec.line c old.stepCount fs (if improved then some f else none) ++
          (if improved && c.newlineBest then "\n".toList else "\r".toList)), st⟩ := by
    rw [conRun_append, hr1]
    by_cases hf : failed = true
    · rw [if_pos hf] at h3
      have : l3 = [] := by simpa using h3
      subst this
      rw [if_pos hf]
      simp only [List.cons_append, List.nil_append, conRun_cons, conRun_nil, call_preStep, call_pre]
    · rw [if_neg hf] at h3
      rw [if_neg hf]
      rw [List.map_map] at h3
      obtain ⟨lc, ld, rfl, hc, hd'⟩ := List.map_eq_append_iff.1 h3
      obtain ⟨le, lf, rfl, he, hf'⟩ := List.map_eq_append_iff.1 (show ld.map (Prod.fst ∘ Prod.snd) = [.postEvaluate pop fs improved] ++ [.postStep] from hd')
      obtain ⟨n5, v5, rfl⟩ := map_one92 (by rw [List.map_map]; exact he)
      obtain ⟨n6, v6, rfl⟩ := map_one92 (by rw [List.map_map]; exact hf')
      have hv5 : v5.bestFitness = f := hb n5 pop fs improved v5 (by rw [hl]; simp)
      have hc' : ∀ q : ConRep, ConRep.run c q lc = q := by
        intro q
        rw [← List.map_map] at hc
        split at hc
        · obtain ⟨n, v, rfl⟩ := map_one92 hc
          rw [conRun_cons, conRun_nil, call_newBest]
        · have : lc = [] := by simpa using hc
          subst this; rfl
      rw [conRun_append, hc']
      simp only [List.cons_append, List.nil_append, conRun_cons, conRun_nil, call_preStep, call_pre, call_post, call_evaluated, hv5]
      cases improved
      · simp only [Bool.false_eq_true, if_false, Bool.false_and, List.append_nil, line_none, hline, List.append_assoc]
      · simp only [if_true, Bool.true_and, line_some, hline, List.append_assoc]
  cases stop with
  | none =>
    obtain rfl : l4 = [] := List.map_eq_nil_iff.1 (List.map_eq_nil_iff.1 h4)
    rw [show ConRep.run c r xs = _ by rw [hl, List.append_nil, conRun_append, heval]]
    rw [ending_none, List.append_nil]
  | some k =>
    obtain ⟨n, v, rfl⟩ := map_one92 h4
    have hlast : (xs.map Prod.fst).getLastD 0 = n := by
      rw [hl, List.map_append, List.getLastD_eq_getLast?, List.getLast?_append]
      simp
    rw [hlast, show ConRep.run c r xs = _ by rw [hl, conRun_append, conRun_append, heval]]
    rw [conRun_cons, conRun_nil, call_stop, ending_some]

/-- **C92.** What a step prints: a header if no step has been completed yet; the number of the step; if the step does not fail, average and median of the fitnesses and, if it
improves the best fitness, the best fitness, followed by a new line if the step improves and `newline_best` is set, and by a carriage return otherwise; and, if a stop condition is
met for the first time, its message with the time since the last header. -/
theorem C92_step_text (c : ConCfg) (E : OptEnv) (info : ObjInfo) (m : Int) (hd : info.dim ≠ 0) (h0 : List Op) (i : In) (hv : ∀ o ∈ h0, o.Valid info) (hi : i.Valid info)
    (xs : List (Nat × Event × Vis)) (hx : Hears92 E info m h0 [.step i] xs) (r : ConRep) :
    let s := (Opt.new info m).after E h0
    let t := (s.step E (Opt.internal E i)).1
    let improved := info.isBetter t.vis.bestFitness s.vis.bestFitness
    let times := xs.map Prod.fst
    (ConRep.run c r xs).out = r.out ++ (if s.vis.stepCount = 0 then "Starting optimization, dim=".toList ++ decN 1 info.dim ++ "\n".toList else []) ++
      (if i.Failed m then decN 4 s.vis.stepCount ++ ": ".toList
       else Spec.line c s.vis.stepCount (i.res.map (fitOf info)) (if improved then some t.vis.bestFitness else none) ++
        (if improved && c.newlineBest then "\n".toList else "\r".toList)) ++
      Spec.ending c (if s.stopped = none then t.stopped else none) (times.getLastD 0 - (if s.vis.stepCount = 0 then times.headD 0 else r.started)) := by
  obtain ⟨new, e1, hseen, stop, hst1, hst2, hprot, hbest⟩ := C28_protocol E info m hd h0 i hv hi
  have hinfo : ((Opt.new info m).after E h0).vis.info = info := (history_facts E info m hd h0 hv).1.1
  have hx' := hx
  unfold Hears92 at hx'
  rw [show (Opt.new info m).after E (h0 ++ [.step i]) = (((Opt.new info m).after E h0).step E (Opt.internal E i)).1 by simp only [Opt.after, List.foldl_append]; rfl] at hx'
  generalize hs : (Opt.new info m).after E h0 = s at *
  dsimp only at e1 hseen hst1 hst2 hprot hbest ⊢
  generalize ht : (s.step E (Opt.internal E i)).1 = t at *
  have hnew : xs.map Prod.snd = new := (List.append_cancel_left (e1.symm.trans hx')).symm
  subst hnew
  have hstop : (if s.stopped = none then t.stopped else none) = stop := by
    split
    · next hs => exact (hst1 hs).symm
    · next hs => exact (hst2 hs).symm
  have := text_protocol c r (fun x hx => hseen _ (List.mem_map_of_mem hx)) (fun n pop fs nb v hx => hbest pop fs nb v (List.mem_map.2 ⟨_, hx, rfl⟩)) hprot
  simp only [decide_eq_true_eq, hinfo] at this
  rw [← hstop] at this
  exact this

/-! ## What remains on the screen -/

/-- A terminal with lines of any length: the lines above the current one, the current line, and the column of the cursor. -/
structure Spec.Screen where
  above : List Str := []
  cur : Str := []
  col : Nat := 0

/-- A new line moves to the start of the next line, a carriage return to the start of this one, and other characters overwrite. -/
def Spec.Screen.put (s : Spec.Screen) (ch : Char) : Spec.Screen :=
  if ch = '\n' then ⟨s.above ++ [s.cur], [], 0⟩
  else if ch = '\r' then { s with col := 0 }
  else { s with cur := s.cur.take s.col ++ ch :: s.cur.drop (s.col + 1), col := s.col + 1 }

def Spec.Screen.print (s : Spec.Screen) (t : Str) : Spec.Screen := t.foldl Spec.Screen.put s

/-- No control characters. -/
def Spec.Plain (t : Str) : Prop := '\n' ∉ t ∧ '\r' ∉ t

theorem print_append (s : Spec.Screen) (t u : Str) : s.print (t ++ u) = (s.print t).print u := List.foldl_append ..

theorem print_plain : ∀ (t : Str) (s : Spec.Screen), Spec.Plain t → s.col ≤ s.cur.length →
    s.print t = ⟨s.above, s.cur.take s.col ++ t ++ s.cur.drop (s.col + t.length), s.col + t.length⟩
  | [], s, _, _ => by simp [Spec.Screen.print]
  | ch :: t, s, ⟨h1, h2⟩, hc => by
    simp only [List.mem_cons, not_or] at h1 h2
    show (s.put ch).print t = _
    have hp : s.put ch = { s with cur := s.cur.take s.col ++ ch :: s.cur.drop (s.col + 1), col := s.col + 1 } := by
      unfold Spec.Screen.put
      rw [if_neg (fun h => h1.1 h.symm), if_neg (fun h => h2.1 h.symm)]
    have hl : (s.cur.take s.col).length = s.col := by rw [List.length_take]; omega
    rw [hp, print_plain t _ ⟨h1.2, h2.2⟩ (by simp only [List.length_append, List.length_cons, hl]; omega)]
    simp only [List.length_cons]
    congr 1
    · rw [show s.cur.take s.col ++ ch :: s.cur.drop (s.col + 1) = (s.cur.take s.col ++ [ch]) ++ s.cur.drop (s.col + 1) by simp]
      rw [List.take_append_of_le_length (by simp [hl]), List.take_of_length_le (by simp [hl]), List.drop_append, List.drop_of_length_le (by simp [hl])]
      simp only [List.length_append, hl, List.length_cons, List.length_nil, List.drop_drop, List.append_assoc, List.nil_append, List.cons_append]
      congr 4; omega
    · omega

/-- Printing keeps what is above the current line, and the cursor within the line. -/
theorem print_keeps : ∀ (t : Str) (s : Spec.Screen), s.col ≤ s.cur.length → (s.print t).col ≤ (s.print t).cur.length ∧ ∃ l, (s.print t).above = s.above ++ l
  | [], s, hc => ⟨hc, [], by simp [Spec.Screen.print]⟩
  | ch :: t, s, hc => by
    have h1 : (s.put ch).col ≤ (s.put ch).cur.length ∧ ∃ l, (s.put ch).above = s.above ++ l := by
      unfold Spec.Screen.put
      split
      · exact ⟨by simp, _, rfl⟩
      · split
        · exact ⟨by simp, [], by simp⟩
        · refine ⟨?_, [], by simp⟩
          simp only [List.length_append, List.length_take, List.length_cons]; omega
    obtain ⟨h2, l1, e1⟩ := h1
    obtain ⟨h3, l2, e2⟩ := print_keeps t _ h2
    exact ⟨h3, l1 ++ l2, by show ((s.put ch).print t).above = _; rw [e2, e1, List.append_assoc]⟩

/-- A plain text followed by a new line: it can be read in the line that is completed. -/
theorem print_line (t : Str) (s : Spec.Screen) (ht : Spec.Plain t) (hc : s.col ≤ s.cur.length) :
    ∃ l, (s.print (t ++ "\n".toList)).above = s.above ++ [l] ∧ t <:+: l := by
  rw [print_append, print_plain t s ht hc]
  exact ⟨_, rfl, _, _, rfl⟩

/-- The text of an improvement: a completed evaluation with a new best. -/
def Spec.improvement (c : ConCfg) : Nat × Event × Vis → Option Str
  | (_, .postEvaluate _ fs true, v) => some (Spec.line c v.stepCount fs (some v.bestFitness))
  | _ => none

/-- All `texts` can be read in the lines `ls`, each in a line of its own and in order. -/
def Spec.Readable (texts ls : List Str) : Prop := ∃ l : List Str, l.Sublist ls ∧ List.Forall₂ (fun t x => t <:+: x) texts l

theorem Spec.Readable.append {a b x y : List Str} (h1 : Spec.Readable a x) (h2 : Spec.Readable b y) : Spec.Readable (a ++ b) (x ++ y) := by
  obtain ⟨l1, s1, f1⟩ := h1
  obtain ⟨l2, s2, f2⟩ := h2
  exact ⟨l1 ++ l2, s1.append s2, List.rel_append f1 f2⟩

theorem Spec.Readable.nil (x : List Str) : Spec.Readable [] x := ⟨[], List.nil_sublist _, .nil⟩

theorem Spec.Readable.one {t x : Str} (h : t <:+: x) : Spec.Readable [t] [x] := ⟨[x], .refl _, .cons h .nil⟩

theorem Spec.Readable.more {a x : List Str} (h : Spec.Readable a x) (y z : List Str) : Spec.Readable a (y ++ x ++ z) := by
  obtain ⟨l, s, f⟩ := h
  exact ⟨l, (s.trans (List.sublist_append_right y x)).trans (List.sublist_append_left _ z), f⟩

theorem Spec.Plain.append {a b : Str} (h1 : Spec.Plain a) (h2 : Spec.Plain b) : Spec.Plain (a ++ b) := by
  constructor
  · rw [List.mem_append, not_or]; exact ⟨h1.1, h2.1⟩
  · rw [List.mem_append, not_or]; exact ⟨h1.2, h2.2⟩

theorem decN_plain (w n : Nat) : Spec.Plain (decN w n) := by
  have h := (decN_spec w n).2
  exact ⟨fun hm => absurd (h _ hm) (by decide), fun hm => absurd (h _ hm) (by decide)⟩

theorem line_plain (c : ConCfg) (hf : ∀ p x, Spec.Plain (c.fix p x)) (n : Nat) (fs : List Dbl) (b : Option Dbl) : Spec.Plain (Spec.line c n fs b) := by
  have p1 : Spec.Plain ":  A=".toList := ⟨by decide, by decide⟩
  have p2 : Spec.Plain " M=".toList := ⟨by decide, by decide⟩
  have p3 : Spec.Plain " B=".toList := ⟨by decide, by decide⟩
  cases b with
  | none => rw [line_none]; exact Spec.Plain.append (((((decN_plain _ _).append p1).append (hf _ _)).append p2).append (hf _ _)) ⟨by simp, by simp⟩
  | some f => rw [line_some]; exact Spec.Plain.append (((((decN_plain _ _).append p1).append (hf _ _)).append p2).append (hf _ _)) (p3.append (hf _ _))

theorem improvements_protocol (c : ConCfg) {old : Vis} {failed improved : Bool} {stop : Option Nat} {pop : List Pt} {fs : List Dbl} {best : Pt} {f : Dbl}
    {xs : List (Nat × Event × Vis)} (hs : ∀ x ∈ xs, Seen old x.2) (hb : ∀ n pop fs nb v, (n, .postEvaluate pop fs nb, v) ∈ xs → v.bestFitness = f)
    (hprot : (xs.map Prod.snd).map Prod.fst = protocol (old.stepCount = 0) failed improved stop pop fs best f) :
    xs.filterMap (Spec.improvement c) = if failed then [] else if improved then [Spec.line c old.stepCount fs (some f)] else [] := by
  have hnone : ∀ l : List (Nat × Event × Vis), (∀ x ∈ l, ∀ p g b, x.2.1 ≠ .postEvaluate p g b) → l.filterMap (Spec.improvement c) = [] := by
    intro l hl
    rw [List.filterMap_eq_nil_iff]
    rintro ⟨n, e, v⟩ hx
    unfold Spec.improvement
    split
    · next h => cases h; exact absurd rfl (hl _ hx _ _ _)
    · rfl
  have hev : ∀ (l : List (Nat × Event × Vis)) (es : List Event), l.map (Prod.fst ∘ Prod.snd) = es → (∀ e ∈ es, ∀ p g b, e ≠ .postEvaluate p g b) →
      l.filterMap (Spec.improvement c) = [] := by
    intro l es hl he
    refine hnone l fun x hx => he _ ?_
    rw [← hl]; exact List.mem_map_of_mem (f := Prod.fst ∘ Prod.snd) hx
  unfold protocol at hprot
  rw [List.map_map] at hprot
  obtain ⟨l123, l4, rfl, h123, h4⟩ := List.map_eq_append_iff.1 hprot
  obtain ⟨l12, l3, rfl, h12, h3⟩ := List.map_eq_append_iff.1 h123
  rw [List.filterMap_append, List.filterMap_append, hev l12 _ h12 (by intro e he p g b; split at he <;> simp at he <;> rcases he with rfl | rfl | rfl <;> simp),
    hev l4 _ h4 (by intro e he p g b; cases stop <;> simp at he; subst he; simp), List.nil_append, List.append_nil]
  split at h3
  · next hf => rw [if_pos hf, hev l3 _ h3 (by simp)]
  · next hf =>
    rw [if_neg hf]
    obtain ⟨lc, ld, rfl, hc, hd'⟩ := List.map_eq_append_iff.1 h3
    obtain ⟨le, lf, rfl, he, hf'⟩ := List.map_eq_append_iff.1 (show ld.map (Prod.fst ∘ Prod.snd) = [.postEvaluate pop fs improved] ++ [.postStep] from hd')
    obtain ⟨n5, v5, rfl⟩ := map_one92 (by rw [List.map_map]; exact he)
    have h5 : v5.stepCount = old.stepCount := (hs (n5, .postEvaluate pop fs improved, v5) (by simp)).2.1
    have h6 : v5.bestFitness = f := hb n5 pop fs improved v5 (by simp)
    rw [List.filterMap_append, List.filterMap_append, hev lc _ hc (by intro e he p g b; split at he <;> simp at he; subst he; simp), hev lf _ hf' (by simp), List.nil_append, List.append_nil]
    cases improved
    · rfl
    · simp [Spec.improvement, h5, h6]

/-- **C92.** With `newline_best`, every improvement can be read on the terminal from then on, in a line of its own with its step, average, median and best fitness, and in order: for every
history in which the reporter is added after `h0`. Number formats are assumed to print no control characters. -/
theorem C92_improvements_visible (c : ConCfg) (hn : c.newlineBest = true) (hf : ∀ p x, Spec.Plain (c.fix p x)) (E : OptEnv) (info : ObjInfo) (m : Int) (hd : info.dim ≠ 0)
    (h0 h : List Op) (hv : ∀ o ∈ h0 ++ h, o.Valid info) (xs : List (Nat × Event × Vis)) (hx : Hears92 E info m h0 h xs) (r : ConRep) :
    Spec.Readable (xs.filterMap (Spec.improvement c)) (({} : Spec.Screen).print (ConRep.run c r xs).out).above := by
  suffices H : Spec.Readable (xs.filterMap (Spec.improvement c)) (({} : Spec.Screen).print (ConRep.run c r xs).out).above ∧
      (({} : Spec.Screen).print (ConRep.run c r xs).out).col ≤ (({} : Spec.Screen).print (ConRep.run c r xs).out).cur.length from H.1
  induction h using List.reverseRecOn generalizing xs with
  | nil =>
    have : xs = [] := by
      unfold Hears92 at hx
      rw [List.append_nil] at hx
      simpa using hx
    subst this
    exact ⟨.nil _, (print_keeps _ _ (by simp)).1⟩
  | append_singleton h o ih =>
    have hv' : ∀ o ∈ h0 ++ h, o.Valid info := fun o ho => hv o (by rw [← List.append_assoc]; exact List.mem_append_left _ ho)
    have ho : o.Valid info := hv o (by simp)
    obtain ⟨new1, e1, -⟩ := log_path E info m hd h0 h hv'
    obtain ⟨new2, e2, -⟩ := log_path E info m hd (h0 ++ h) [o] (by rwa [List.append_assoc])
    have hx' := hx
    unfold Hears92 at hx'
    rw [← List.append_assoc, e2, e1, List.append_assoc] at hx'
    obtain ⟨ys, zs, rfl, hy, hz⟩ := List.map_eq_append_iff.1 (List.append_cancel_left hx').symm
    obtain ⟨ih1, ih2⟩ := ih hv' ys (by unfold Hears92; rw [e1, hy])
    have hz' : Hears92 E info m (h0 ++ h) [o] zs := by unfold Hears92; rw [e2, hz]
    rw [List.filterMap_append, conRun_append]
    generalize ConRep.run c r ys = r1 at *
    by_cases hs : ∃ i, o = .step i
    · obtain ⟨i, rfl⟩ := hs
      have htext := C92_step_text c E info m hd (h0 ++ h) i hv' ho zs hz' r1
      dsimp only at htext
      have himp : zs.filterMap (Spec.improvement c) = if i.Failed m then [] else
          if info.isBetter (((Opt.new info m).after E (h0 ++ h)).step E (Opt.internal E i)).1.vis.bestFitness ((Opt.new info m).after E (h0 ++ h)).vis.bestFitness then
            [Spec.line c ((Opt.new info m).after E (h0 ++ h)).vis.stepCount (i.res.map (fitOf info))
              (some (((Opt.new info m).after E (h0 ++ h)).step E (Opt.internal E i)).1.vis.bestFitness)] else [] := by
        obtain ⟨new, f1, hseen, stop, -, -, hprot, hbest⟩ := C28_protocol E info m hd (h0 ++ h) i hv' ho
        have : zs.map Prod.snd = new := by
          have h2 := e2
          rw [show (Opt.new info m).after E (h0 ++ h ++ [.step i]) = (((Opt.new info m).after E (h0 ++ h)).step E (Opt.internal E i)).1 by simp only [Opt.after, List.foldl_append]; rfl] at h2
          rw [hz]
          exact (List.append_cancel_left (f1.symm.trans h2)).symm
        subst this
        have := improvements_protocol c (fun x hx => hseen _ (List.mem_map_of_mem hx)) (fun n pop fs nb v hx => hbest pop fs nb v (List.mem_map.2 ⟨_, hx, rfl⟩)) hprot
        simp only [decide_eq_true_eq] at this
        exact this
      rw [himp, htext]
      clear himp htext
      generalize ((Opt.new info m).after E (h0 ++ h)).step E (Opt.internal E i) = t
      generalize (Opt.new info m).after E (h0 ++ h) = s
      generalize (if s.vis.stepCount = 0 then "Starting optimization, dim=".toList ++ decN 1 info.dim ++ "\n".toList else []) = head
      generalize Spec.ending c _ _ = tail
      rw [print_append, print_append, print_append]
      generalize ({} : Spec.Screen).print r1.out = s1 at *
      obtain ⟨c2, l2, a2⟩ := print_keeps head s1 ih2
      generalize s1.print head = s2 at *
      rw [hn]
      split
      · rw [List.append_nil]
        obtain ⟨c3, l3, a3⟩ := print_keeps (decN 4 s.vis.stepCount ++ ": ".toList) s2 c2
        generalize s2.print (decN 4 s.vis.stepCount ++ ": ".toList) = s3 at *
        obtain ⟨c4, l4, a4⟩ := print_keeps tail s3 c3
        refine ⟨?_, c4⟩
        rw [a4, a3, a2]
        simpa using ih1.more [] (l2 ++ (l3 ++ l4))
      · cases hb : info.isBetter t.1.vis.bestFitness s.vis.bestFitness
        · simp only [Bool.false_eq_true, if_false, Bool.false_and, List.append_nil]
          obtain ⟨c3, l3, a3⟩ := print_keeps (Spec.line c s.vis.stepCount (i.res.map (fitOf info)) none ++ "\r".toList) s2 c2
          generalize s2.print _ = s3 at *
          obtain ⟨c4, l4, a4⟩ := print_keeps tail s3 c3
          refine ⟨?_, c4⟩
          rw [a4, a3, a2]
          simpa using ih1.more [] (l2 ++ (l3 ++ l4))
        · simp only [if_true, Bool.true_and]
          obtain ⟨l, a3, hl⟩ := print_line (Spec.line c s.vis.stepCount (i.res.map (fitOf info)) (some t.1.vis.bestFitness)) s2 (line_plain c hf _ _ _) c2
          obtain ⟨c3, -⟩ := print_keeps (Spec.line c s.vis.stepCount (i.res.map (fitOf info)) (some t.1.vis.bestFitness) ++ "\n".toList) s2 c2
          generalize s2.print _ = s3 at *
          obtain ⟨c4, l4, a4⟩ := print_keeps tail s3 c3
          refine ⟨?_, c4⟩
          rw [a4, a3, a2]
          have := (ih1.more [] l2).append ((Spec.Readable.one hl).more [] l4)
          simpa [List.append_assoc] using this
    · have hs' : ∀ i, o ≠ .step i := fun i hi => hs ⟨i, hi⟩
      have hnil : zs.filterMap (Spec.improvement c) = [] := by
        rcases C28_only_steps E ((Opt.new info m).after E (h0 ++ h)) o hs' with h1 | ⟨k, v, -, -, h1⟩
        · have : zs = [] := by
            have h2 : ((Opt.new info m).after E (h0 ++ h ++ [o])).log = _ := hz'
            rw [show (Opt.new info m).after E (h0 ++ h ++ [o]) = o.apply E ((Opt.new info m).after E (h0 ++ h)) by simp only [Opt.after, List.foldl_append]; rfl, h1] at h2
            simpa using h2
          subst this; rfl
        · have : zs.map Prod.snd = [(.stop k, v)] := by
            have h2 : ((Opt.new info m).after E (h0 ++ h ++ [o])).log = _ := hz'
            rw [show (Opt.new info m).after E (h0 ++ h ++ [o]) = o.apply E ((Opt.new info m).after E (h0 ++ h)) by simp only [Opt.after, List.foldl_append]; rfl, h1] at h2
            exact (List.append_cancel_left h2).symm
          obtain ⟨n, w, rfl⟩ := map_one92 (e := .stop k) (by rw [this]; rfl)
          rfl
      rw [hnil, List.append_nil]
      have : ∃ t, (ConRep.run c r1 zs).out = r1.out ++ t := conRun_out c zs r1
      obtain ⟨t, ht⟩ := this
      rw [ht, print_append]
      obtain ⟨c2, l2, a2⟩ := print_keeps t _ ih2
      refine ⟨?_, c2⟩
      rw [a2]
      simpa using ih1.more [] l2

theorem print_cr (q : Spec.Screen) : q.print "\r".toList = { q with col := 0 } := rfl

/-- **C92 (finding).** Without `newline_best`, the carriage return lets the next step overwrite the line of an improvement. If that step does not improve and its numbers have
the same width, what is shown is the line of that step followed by the best fitness of the step before, as if it had improved. -/
theorem C92_stale_best (c : ConCfg) (hn : c.newlineBest = false) (hf : ∀ p x, Spec.Plain (c.fix p x)) (r : ConRep) (hr : (({} : Spec.Screen).print r.out).cur = [])
    (v v' w w' : Vis) (pop pop' : List Pt) (fs fs' : List Dbl) (n1 n2 n3 n4 : Nat)
    (hl : (Spec.line c v.stepCount fs none).length = (Spec.line c w.stepCount fs' none).length) :
    (({} : Spec.Screen).print (ConRep.run c r [(n1, .preStep, v), (n2, .postEvaluate pop fs true, v'), (n3, .preStep, w), (n4, .postEvaluate pop' fs' false, w')]).out).cur =
      Spec.line c w.stepCount fs' (some v'.bestFitness) := by
  have hcol : (({} : Spec.Screen).print r.out).col = 0 := by
    have := (print_keeps r.out {} (by simp)).1
    rw [hr] at this; simpa using this
  have hsplit : ∀ (n : Nat) (fs : List Dbl) (f : Dbl), Spec.line c n fs (some f) = Spec.line c n fs none ++ (" B=".toList ++ c.fix c.precision f) := by
    intro n fs f; rw [line_some, line_none, List.append_nil]
  have hout : (ConRep.run c r [(n1, .preStep, v), (n2, .postEvaluate pop fs true, v'), (n3, .preStep, w), (n4, .postEvaluate pop' fs' false, w')]).out =
      r.out ++ Spec.line c v.stepCount fs (some v'.bestFitness) ++ "\r".toList ++ Spec.line c w.stepCount fs' none ++ "\r".toList := by
    simp only [conRun_cons, conRun_nil, call_preStep, call_evaluated, hn, Bool.and_false, Bool.false_eq_true, if_false, if_true, line_none, line_some, hline, List.append_assoc, List.append_nil]
  rw [hout, print_append, print_append, print_append, print_append]
  generalize ({} : Spec.Screen).print r.out = s at *
  rw [print_plain _ s (line_plain c hf _ _ _) (by omega)]
  rw [print_cr, print_cr]
  rw [print_plain _ _ (line_plain c hf _ _ _) (by simp)]
  simp only [hr, hcol, List.take_zero, List.nil_append, List.drop_nil, List.append_nil, Nat.zero_add]
  rw [hsplit v.stepCount, hsplit w.stepCount, List.drop_append, List.drop_of_length_le (by omega), hl, Nat.sub_self, List.drop_zero, List.nil_append]

/-! ## Examples -/

/-- Prints integers only; the average is the first fitness. -/
def conCfg : ConCfg := { fix := fun _ x => match x with | .fin q => decN 1 q.num.natAbs | _ => "nan".toList, average := fun l => l.headD .nan, median := fun l => l.headD .nan, secs := fun n => (toString n).toList, what := fun _ => "done".toList }
def conHist : List Op := [.addCond (.maxSteps 3)] ++ [9, 10, 7].map fun f : ℚ => .step { pop := [[.fin 1]], res := [some (.fin f)] }

/-- What is printed in a run of three steps. -/
example : String.ofList (ConRep.run conCfg {} (((Opt.new optInfo 0).after optEnv conHist).log.map fun e => (0, e))).out =
    "Starting optimization, dim=1\n0000:  A=9 M=9 B=9\n0001:  A=10 M=10\r0002:  A=7 M=7 B=7\n\nOptimization finished in 0s: done\n" := by decide +kernel

/-- And what is shown. -/
example : (({} : Spec.Screen).print (ConRep.run conCfg {} (((Opt.new optInfo 0).after optEnv conHist).log.map fun e => (0, e))).out).above.map String.ofList =
    ["Starting optimization, dim=1", "0000:  A=9 M=9 B=9", "0002:  A=7 M=7 B=7", "", "Optimization finished in 0s: done"] := by decide +kernel

/-- Without `newline_best`, the line of the second step shows the best fitness of the first one. -/
example : (({} : Spec.Screen).print (ConRep.run { conCfg with newlineBest := false } {} (((Opt.new optInfo 0).after optEnv
      ([8, 9].map fun f : ℚ => .step { pop := [[.fin 1]], res := [some (.fin f)] })).log.map fun e => (0, e))).out).cur = "0001:  A=9 M=9 B=8".toList := by decide +kernel

/-- The hypotheses of `C92_improvements_visible`. -/
example : Hears92 optEnv optInfo 0 [] conHist (((Opt.new optInfo 0).after optEnv conHist).log.map fun e => (0, e)) ∧ (∀ o ∈ conHist, o.Valid optInfo) ∧
    ∀ p x, Spec.Plain (conCfg.fix p x) := by
  refine ⟨?_, ?_, ?_⟩
  · unfold Hears92
    rw [List.map_map]
    exact (List.map_id _).symm.trans (List.nil_append _).symm
  · intro o ho
    rcases List.mem_append.1 ho with ho | ho
    · rw [List.mem_singleton] at ho; subst ho; trivial
    · obtain ⟨f, -, rfl⟩ := List.mem_map.1 ho
      exact ⟨by simp, rfl, by simp; rfl⟩
  · intro p x
    cases x with
    | fin q => exact decN_plain _ _
    | _ => exact (show Spec.Plain "nan".toList from ⟨by decide, by decide⟩)

end Spot
