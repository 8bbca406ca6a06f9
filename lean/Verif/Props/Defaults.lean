import Verif.Lemmas.Float
import Verif.Props.Files
import Verif.Props.Selection
import Verif.Props.PoolRun
import Verif.Props.PoolSelect
import Verif.Props.Similarity
import Verif.Props.FileReporter
import Verif.Props.ConsoleReporter

/-!
# What is done if nothing is configured

The values that options have by default (spot/mes_optimizer.h:10-19, spot/eva_optimizer.h:10-19, spot/optimizer_pool.cpp:24-29, spot/par_options.h:23-35, spot/stop_condition.h:91-92,
spot/file_reporter.h:21-25, spot/console_reporter.h:10), by their effects.
-/

namespace Spot

open Notation ObjInfo

/-- **C46.** MES and EVA without options: 4 + ⌊3 log m⌋ individuals, of which half (rounded down) are selected. -/
theorem C46_defaults (m : Nat) (hm : 1 ≤ m) (hf : 3 * Real.log m ≤ 2147483647) :
    (esLambda ℝ (MesOpts.default : MesOpts ℝ).lambda m = .ok (4 + ⌊3 * Real.log m⌋) ∧ esMu (MesOpts.default : MesOpts ℝ).mu (4 + ⌊3 * Real.log m⌋) = (4 + ⌊3 * Real.log m⌋) / 2) ∧
    (esLambda ℝ (EvaOpts.default : EvaOpts ℝ).lambda m = .ok (4 + ⌊3 * Real.log m⌋) ∧ esMu (EvaOpts.default : EvaOpts ℝ).mu (4 + ⌊3 * Real.log m⌋) = (4 + ⌊3 * Real.log m⌋) / 2) := by
  obtain ⟨l, h1, rfl, -⟩ := C46_default_sizes m hm hf
  have e1 : (MesOpts.default : MesOpts ℝ).lambda = 0 ∧ (MesOpts.default : MesOpts ℝ).mu = 0 := ⟨rfl, rfl⟩
  have e2 : (EvaOpts.default : EvaOpts ℝ).lambda = 0 ∧ (EvaOpts.default : EvaOpts ℝ).mu = 0 := ⟨rfl, rfl⟩
  rw [e1.1, e1.2, e2.1, e2.2]
  have h0 := h1 0 (by norm_num)
  exact ⟨⟨h0, rfl⟩, h0, rfl⟩

variable [Libm] {E : OptEnv}

/-- **C41.** A pool without options steps at most three members at once and never the same one twice. -/
theorem C41_defaults (info : ObjInfo) {P : Opt → Prop} {ls : List (List Nat × List Nat)} {p : Pool} (h : Pool.Hist E P (Pool.init {} info) ls p) :
    ∀ l ∈ ls, l.2.Nodup ∧ l.2.length ≤ 3 := fun l hl => ((C41_selected_and_stepped {} info h).2 l hl).2

/-- **C41.** The priorities of the members of a pool without options: of the members that have not stopped the first six count; the best fitness possible is assumed for those that have made fewer than
100 steps, and for the others what is predicted for 100 steps later. -/
theorem C41_default_priorities (info : ObjInfo) {ms ms' : List Opt} {preds : List Dbl} (h : predictLoop E {} info 0 ms = (ms', .ok preds)) {i : Nat} {m : Opt} {x : Dbl} (hm : ms[i]? = some m)
    (hx : preds[i]? = some x) :
    if m.Going E ∧ ((ms.take i).filter (fun m => decide (m.Going E))).length < 6 then
      (if 100 ≤ m.vis.stepCount then (m.vis.predictedFitness E 100).2 = .ok x else x = info.bestFitness)
    else x = info.worstFitness := by
  have := (predictLoop_priorities E _ info ms 0 ms' preds h).2 i m x hm hx
  simpa using this

/-- **C41.** A pool without options lets a member keep the fitness of at least 100 steps, and does not stop it because of a prediction: its stop conditions stay as they are. -/
theorem C41_default_member (info : ObjInfo) (m : Opt) :
    ∃ m', ((Pool.init {} info).push m).members = [m'] ∧ m'.vis = m.vis.setWindow 100 ∧ m'.conds = m.conds :=
  ⟨_, rfl, rfl, rfl⟩

omit [Libm] in
/-- **C12.** Importing a file without further settings gives a free parameter mean and standard deviation of its last record (unless that has the standard deviation 0, which locks the parameter). -/
theorem C12_defaults (R : Reader) (i : ObjInfo) (hi : NamesUnique i) (text : Str) (rs : List Rec) (rest : Str) (ht : FileText R text rs rest) (hr : Blank rest) (r : Rec) (hlast : rs.getLast? = some r)
    {mean std : ℚ} (hm : r.mean = .fin mean) (hs : r.std = .fin std) (dm : IsDouble mean) (ds : IsDouble std) (h0 : std ≠ 0) (hfree : ∀ r' ∈ rs, r'.std ≠ .fin 0) {p : ParInfo} (hp : p ∈ i.pars)
    (hn : p.name = r.name) :
    ∃ j c, i.importMeanStd R (some text) {} = (j, .ok c) ∧ { p with mean := .fin mean, std := .fin std } ∈ j.pars := by
  obtain ⟨j, a, b, h1, h2, -⟩ := C12_import_mean_std R i hi text rs rest ht hr {}
  refine ⟨j, _, h1, ?_⟩
  have h3 := h2 p.name (.free p) ⟨hp, rfl⟩
  obtain ⟨pre, rfl⟩ : ∃ pre, rs = pre ++ [r] := by
    rw [List.getLast?_eq_some_iff] at hlast; exact hlast
  have key : ∀ (l : List Rec) (w : View), (∀ r' ∈ l, r'.std ≠ .fin 0) → (∃ q, w = .free q ∧ q.name = p.name ∧ q.min = p.min ∧ q.max = p.max) →
      ∃ q, l.foldl (importView {}) w = .free q ∧ q.name = p.name ∧ q.min = p.min ∧ q.max = p.max := by
    intro l
    induction l with
    | nil => exact fun w _ h => h
    | cons a l ih =>
      rintro w hl ⟨q, rfl, h⟩
      have e : ∃ q', importView {} (.free q) a = .free q' ∧ q'.name = p.name ∧ q'.min = p.min ∧ q'.max = p.max := by
        simp only [importView, if_neg (hl a List.mem_cons_self)]
        exact ⟨_, rfl, h⟩
      exact ih _ (fun r' h => hl r' (List.mem_cons_of_mem _ h)) e
  unfold importViews at h3
  rw [List.filter_append, List.foldl_append] at h3
  obtain ⟨q, hq, q1, q2, q3⟩ := key (pre.filter _) (.free p) (fun r' h => hfree r' (List.mem_append_left _ (List.mem_of_mem_filter h))) ⟨p, rfl, rfl, rfl, rfl⟩
  rw [hq] at h3
  have hpass : decide (Passes ({} : ImportSettings).incl ({} : ImportSettings).excl r.name ∧ r.name = p.name) = true := by
    rw [decide_eq_true_iff]
    exact ⟨by simp [Passes], hn.symm⟩
  rw [List.filter_cons, hpass] at h3
  simp only [if_true, List.filter_nil, List.foldl_cons, List.foldl_nil] at h3
  simp only [importView, if_neg (hfree r (by simp))] at h3
  rw [hm, hs] at h3
  have e1 : Dbl.add (.fin 0) (Dbl.mul (.fin 1) (.fin mean)) = .fin mean := by
    simp only [Dbl.mul, one_mul, Dbl.ofQ_double dm, Dbl.add, zero_add]
  have e2 : Dbl.add (.fin 0) (Dbl.mul (.fin 1) (.fin std)) = .fin std := by
    simp only [Dbl.mul, one_mul, Dbl.ofQ_double ds, Dbl.add, zero_add]
  simp only [ViewOf, Bool.false_eq_true, if_false, if_true, e1, e2] at h3
  convert h3.1 using 1
  rw [q1, q2, q3]

omit [Libm] in
/-- **C59.** A file reporter without options counts an improvement of less than 5% as small, **C60** leaves no more than 1000 steps without a file, and **C80** writes the history of the fitness but not
that of the parameters. -/
theorem C59_defaults (fmt num f3 : Dbl → Str) (median : List Dbl → Dbl) :
    let c : FileCfg := { fmt, num, f3, median }
    (∀ info x y, small c info x y ↔ Dbl.lt (improvement info.minimize x.vis.curFitness y.vis.curFitness) (Dbl.ofQ (5 / 100)) = true) ∧
    c.maxSteps = 1000 ∧ c.fitHistory = true ∧ c.parHistory = false := by
  refine ⟨fun info x y => ?_, rfl, rfl, rfl⟩
  rw [show (5 / 100 : ℚ) = 1 / 20 by norm_num]
  exact Iff.rfl

/-- **C60.** With a file reporter without options, each completed step has a par file that was written less than 1000 steps before, unless fewer than 1000 steps were completed at all. -/
theorem C60_defaults (fmt num f3 : Dbl → Str) (median : List Dbl → Dbl) (E : OptEnv) (info : ObjInfo) (m : Int) (hd : info.dim ≠ 0) (h0 h : List Op) (hv : ∀ o ∈ h0 ++ h, o.Valid info)
    (xs : List Call) (hx : Receives E info m h0 h xs) (hu : ∀ x ∈ xs, x.upd.dim = info.dim) (fs : Str → Option Str) (hn : ((Opt.new info m).after E (h0 ++ h)).vis.stepCount < 2 ^ 64) :
    ∃ r, FileRep.run { fmt, num, f3, median } E { files := fs } xs = .ok r ∧
      ∀ s, ((Opt.new info m).after E h0).vis.stepCount ≤ s → s < ((Opt.new info m).after E (h0 ++ h)).vis.stepCount →
        s + 1 < 1000 ∨ ∃ t name, (t, name) ∈ r.written ∧ t ≤ s ∧ s < t + 1000 :=
  C60_regular_output _ E info m hd h0 h hv (show 1 ≤ 1000 by decide) xs hx hu fs hn

/-- **C80.** A file reporter without options writes a history: one line per completed step, with the number of the step, the best and the median fitness and, with a tracking window, predicted fitness and
progress, but without parameters. -/
theorem C80_defaults (fmt num f3 : Dbl → Str) (median : List Dbl → Dbl) (E : OptEnv) (info : ObjInfo) (m : Int) (hd : info.dim ≠ 0) (h0 h : List Op) (hv : ∀ o ∈ h0 ++ h, o.Valid info)
    (xs : List Call) (hx : Receives E info m h0 h xs) (hu : ∀ x ∈ xs, x.upd.dim = info.dim) (fs : Str → Option Str) (hnum : ∀ v, '\t' ∉ num v) :
    ∃ r, FileRep.run { fmt, num, f3, median } E { files := fs } xs = .ok r ∧
      r.history = (starts xs).getLast?.map (fun x => FileCfg.header { fmt, num, f3, median } x :: (posts xs).map (FileCfg.histLine { fmt, num, f3, median } E)) ∧
      ∀ x, ∀ a b, (0 < x.vis.capacity → (x.vis.predictedFitness E x.vis.capacity).2 = .ok a ∧ (x.vis.progress E).2 = .ok b) →
        (FileCfg.histLine { fmt, num, f3, median } E x).splitOn '\t' = [decN 1 x.vis.stepCount, num x.vis.curFitness, num (median x.vis.curFitnesses)] ++
          (if 0 < x.vis.capacity then [num a, num b] else []) := by
  obtain ⟨r, h1, h2, -⟩ := C80_history { fmt, num, f3, median } E info m hd h0 h hv (show 1 ≤ 1000 by decide) rfl xs hx hu fs
  refine ⟨r, h1, h2, fun x a b hab => ?_⟩
  have h3 := (C80_split { fmt, num, f3, median } E x).2 hnum a b hab
  rw [h3]
  exact List.append_nil _

/-- **C92.** A console reporter without options shows every improvement in a line of its own, with two decimals. -/
theorem C92_defaults (fix : Int → Dbl → Str) (average median : List Dbl → Dbl) (secs : Nat → Str) (what : Nat → Str) (hf : ∀ p x, Spec.Plain (fix p x)) (E : OptEnv) (info : ObjInfo) (m : Int) (hd : info.dim ≠ 0)
    (h0 h : List Op) (hv : ∀ o ∈ h0 ++ h, o.Valid info) (xs : List (Nat × Event × Vis)) (hx : Hears92 E info m h0 h xs) (r : ConRep) :
    Spec.Readable (xs.filterMap (Spec.improvement { fix, average, median, secs, what })) (({} : Spec.Screen).print (ConRep.run { fix, average, median, secs, what } r xs).out).above ∧
    ∀ n fs b, Spec.line { fix, average, median, secs, what } n fs (some b) =
      decN 4 n ++ ":  A=".toList ++ fix 2 (average fs) ++ " M=".toList ++ fix 2 (median fs) ++ (" B=".toList ++ fix 2 b) :=
  ⟨C92_improvements_visible _ rfl hf E info m hd h0 h hv xs hx r, fun _ _ _ => rfl⟩

/-- **C89.** A similarity condition for which only points were given: it is not met in the first ten steps, and afterwards it is met if and only if one of the points is closer than 1 to the best point of
the last step. -/
theorem C89_defaults (points : List Pt) (steps : Nat) (point std : Pt) (hs : point.length = std.length) (hp : ∀ q ∈ points, q.length = point.length) :
    ∃ c' b, Similarity.test { points } true steps point std = (c', .ok b) ∧ (b = true ↔ 10 ≤ steps ∧ ∃ q ∈ points, Dbl.lt (simDist point std q) (.fin 1) = true) := by
  obtain ⟨c', b, h1, -, -, -, h2, -⟩ := C89_fires { points } steps point std hs hp (show (0 : Int) ≤ 10 by decide)
  refine ⟨c', b, h1, ?_⟩
  rw [h2]
  show (10 : Int) ≤ steps ∧ _ ↔ _
  rw [show (10 : Int) = ((10 : Nat) : Int) from rfl, Int.ofNat_le]

end Spot
