import Verif.Model.PoolInfo
import Verif.Props.PoolAnnounce
import Verif.Props.Reproduce

/-!
# C110: the distribution of a pool, pools in pools, and the files of a pool
-/

namespace Spot
open Notation ObjInfo

variable {E : OptEnv}

/-- **C110.** `make_updated_objective_info` of a pool is that of one of the members that have been stepped; that member has the best fitness of the pool, and no member that has been stepped
has a better one. Before any member has been stepped it fails an assertion. -/
theorem C110_updated_info (cfg : PoolCfg) (info : ObjInfo) {ls : List (List Nat × List Nat)} {p : Pool}
    (h : Pool.Hist E (Opt.Fits info.minimize) (Pool.init cfg info) ls p) (upd : Nat → ObjInfo) :
    (steppedOf ls = [] → p.updatedInfo upd = .ub) ∧
    (steppedOf ls ≠ [] → ∃ k ∈ steppedOf ls, ∃ m, p.members[k]? = some m ∧ p.updatedInfo upd = .ok (upd k) ∧ p.bestFitness = .ok m.vis.bestFitness ∧
      p.bestPoint = .ok m.vis.bestPoint ∧ ∀ i ∈ steppedOf ls, ∃ x, p.members[i]? = some x ∧ info.isBetter x.vis.bestFitness m.vis.bestFitness = false) := by
  have h' : Pool.Hist E (Opt.Fits (Pool.init cfg info).own.info.minimize) (Pool.init cfg info) ls p := by rw [init_own]; exact h
  obtain ⟨I, hi⟩ := hist_best h' (init_best cfg info)
  rw [init_own] at hi
  rw [List.nil_append] at I
  constructor
  · intro hs
    cases hb : p.bestIdx with
    | none => unfold Pool.updatedInfo; rw [hb]
    | some k =>
      have := (I.isBest k hb).1
      rw [hs] at this
      cases this
  · intro hs
    cases hb : p.bestIdx with
    | none =>
      obtain ⟨i, hi⟩ := List.exists_mem_of_ne_nil _ hs
      have := I.noneYet hb i hi
      simp at this
    | some k =>
      obtain ⟨h1, h2, m, hm, h3⟩ := I.isBest k hb
      have h3 : m.vis.bestFitness = p.best := by simpa using h3
      have hbm : p.bestMember = .ok m := by unfold Pool.bestMember; rw [hb]; dsimp only; rw [hm]
      refine ⟨k, h1, m, hm, ?_, ?_, ?_, ?_⟩
      · unfold Pool.updatedInfo
        rw [hb]
        exact if_pos (List.getElem?_eq_some_iff.1 hm).1
      · unfold Pool.bestFitness; rw [hbm]; rfl
      · unfold Pool.bestPoint; rw [hbm]; rfl
      · intro i hi'
        obtain ⟨x, hx, h4⟩ := I.low i hi' (by simp)
        exact ⟨x, hx, by rw [h3, ← hi]; exact h4⟩

/-! ## pools in pools -/

/-- A pool none of whose members has been stepped. -/
def Member.Fresh (E : OptEnv) : Member → Prop
  | .single _ => False
  | .pool p => ∃ cfg info ls, Pool.Hist E (Opt.Fits info.minimize) (Pool.init cfg info) ls p ∧ steppedOf ls = []

/-- An optimizer, or a pool some member of which has been stepped; `f` is the best fitness. -/
def Member.Used (E : OptEnv) (f : Dbl) : Member → Prop
  | .single m => f = m.vis.bestFitness
  | .pool p => ∃ cfg info ls, Pool.Hist E (Opt.Fits info.minimize) (Pool.init cfg info) ls p ∧ steppedOf ls ≠ [] ∧ p.bestFitness = .ok f

theorem fresh_best {m : Member} (h : m.Fresh E) : m.bestFitness = .ub := by
  cases m with
  | single m => exact h.elim
  | pool p =>
    obtain ⟨cfg, info, ls, h, hs⟩ := h
    have := (C110_updated_info cfg info h fun _ => info).1 hs
    unfold Pool.updatedInfo at this
    have hb : p.bestMember = .ub := by
      unfold Pool.bestMember
      cases hb : p.bestIdx with
      | none => rfl
      | some k =>
        rw [hb] at this
        dsimp only at this ⊢
        split at this
        · cases this
        · rename_i hk
          rw [List.getElem?_eq_none (by omega)]
    show p.bestMember >>= _ = _
    rw [hb]
    rfl

theorem used_best {m : Member} {f : Dbl} (h : m.Used E f) : m.bestFitness = .ok f := by
  cases m with
  | single m => exact congrArg Res.ok h.symm
  | pool p => obtain ⟨_, _, _, -, -, h⟩ := h; exact h

/-- **C110.** A pool in which a member is itself a pool that has not been stepped can not be stepped: the text composed when the queue is filled asks every member for its best fitness, and
that fails an assertion (the members before it have been stepped, or are optimizers). -/
theorem C110_nested_fresh (ms : List Member) (before after : List Member) (m : Member) (he : ms = before ++ m :: after) (hm : m.Fresh E)
    (hb : ∀ x ∈ before, ∃ f, x.Used E f) : composeText ms = .ub := by
  subst he
  induction before with
  | nil => show m.bestFitness >>= _ = _; rw [fresh_best hm]; rfl
  | cons x before ih =>
    obtain ⟨f, hf⟩ := hb x (by simp)
    rw [List.cons_append]
    show x.bestFitness >>= _ = _
    rw [used_best hf, ih fun y hy => hb y (by simp [hy])]
    rfl

/-- **C110.** Members that are optimizers or pools that have been stepped are asked for their best fitness without failure. -/
theorem C110_nested_used (ms : List Member) (fs : List Dbl) (h : List.Forall₂ (fun m f => m.Used E f) ms fs) : composeText ms = .ok fs := by
  induction h with
  | nil => rfl
  | cons h _ ih =>
    show Member.bestFitness _ >>= _ = _
    rw [used_best h, ih]
    rfl

/-! ## the files of a pool -/

theorem bests_announcements (xs : List Call) : (bests xs).map (fun x => newBestOf (x.event, x.vis)) = (announcements (xs.map Call.event)).map some := by
  induction xs with
  | nil => rfl
  | cons x xs ih =>
    have e : bests (x :: xs) = bests [x] ++ bests xs := by unfold bests; rw [← List.filter_append]; rfl
    rw [e, List.map_append, ih]
    obtain ⟨ev, v, a, b, d⟩ := x
    cases ev <;> rfl

theorem unused_fits {info : ObjInfo} (hd : info.dim ≠ 0) {m : Opt} (h : m.Unused E info) : Opt.Fits info.minimize m := by
  obtain ⟨h1, h2⟩ := unused_mem hd h
  refine ⟨?_, congrArg ObjInfo.minimize h1.1⟩
  rw [h2]
  unfold ObjInfo.worstFitness
  split <;> simp

theorem hist_mono {P Q : Opt → Prop} (hPQ : ∀ m, P m → Q m) {p q : Pool} {ls : List (List Nat × List Nat)} (h : Pool.Hist E P p ls q) : Pool.Hist E Q p ls q := by
  induction h with
  | nil => exact .nil
  | step _ st ih => exact ih.step st
  | push _ hm ih => exact ih.push (hPQ _ hm)
  | addCond _ ih => exact ih.addCond
  | interrupt _ ih => exact ih.interrupt
  | test _ ih => exact ih.test

/-- **C109.** The par files of a pool: if the pool has a best fitness that is not the worst value, the file of the last new best gives the best point of the pool to every reader (the names
of the files of different bests must differ, which they do if members are stepped one at a time, see C105). -/
theorem C109_pool_best (info : ObjInfo) (hd : info.dim ≠ 0) (hu : NamesUnique info) (hn : ∀ p ∈ info.pars, FileName p.name) (cfg : PoolCfg)
    {ls : List (List Nat × List Nat)} {xs : List Call} {p : Pool} (h : Pool.Hears E (Opt.Unused E info) (Pool.init cfg info) ls xs p) (c : FileCfg) (hm : 1 ≤ c.maxSteps) (hf : c.fmt = fmt8)
    (hup : ∀ x ∈ xs, Continues info x.upd) (hq : ∀ x ∈ xs, ∀ v ∈ x.vis.curPoint, ∀ q : ℚ, v = .fin q → |q| ≤ Dbl.maxQ) (fs : Str → Option Str)
    (hnames : ((bests xs).map fun x => c.parName x.vis).Nodup) {f : Dbl} (hb : p.bestFitness = .ok f) (hw : f ≠ info.worstFitness) :
    ∃ r x best text, FileRep.run c E { files := fs } xs = .ok r ∧ (bests xs).getLast? = some x ∧ p.bestPoint = .ok best ∧ x.event = .newBest best f ∧
      r.files (c.parName x.vis) = some text ∧ Reproduces text info x.upd best := by
  obtain ⟨r, h1, h2⟩ := C109_pool_file info hd hu hn cfg h c hm hf hup hq fs hnames
  have ha := C40_announced_values cfg info (hist_mono (fun m => unused_fits hd) h.hist)
  have hl := h.log
  have e := congrArg List.getLast? (bests_announcements xs)
  rw [List.getLast?_map, List.getLast?_map] at e
  have hlog : announcements p.log = announcements (xs.map Call.event) := by
    rw [hl]
    simp [Pool.init]
  rw [hlog] at ha
  cases hx : (announcements (xs.map Call.event)).getLast? with
  | none =>
    rw [hx] at ha
    dsimp only at ha
    rw [ha.2] at hb
    cases hb
  | some y =>
    obtain ⟨pt, g⟩ := y
    rw [hx] at ha e
    dsimp only at ha
    have hg : g = f := by rw [ha.2] at hb; cases hb; rfl
    subst hg
    cases hz : (bests xs).getLast? with
    | none => rw [hz] at e; cases e
    | some x =>
      rw [hz] at e
      have e' : newBestOf (x.event, x.vis) = some (pt, g) := by simpa using e
      have he : x.event = .newBest pt g := by
        unfold newBestOf at e'
        split at e'
        · rename_i heq
          simp only [Prod.mk.injEq, Option.some.injEq] at heq e'
          rw [heq.1, e'.1, e'.2]
        · cases e'
      obtain ⟨text, h3, h4⟩ := h2 x hz pt g he hw
      exact ⟨r, x, pt, text, h1, rfl, ha.1, he, h3, h4⟩

/-! ## concrete cases -/

/-- Three members in two steps: the distribution is that of member 1, which has the best fitness 2. -/
example : ∃ ls p, Pool.Hist optEnv (Opt.Fits optInfo.minimize) (Pool.init {} optInfo) ls p ∧ (steppedOf ls = [0, 1, 2, 0, 1, 2] ∧
    p.bestFitness = .ok (.fin 2) ∧ p.updatedInfo (fun k => { optInfo with target := .fin k }) = .ok { optInfo with target := .fin 1 }) :=
  exists_hist (n := 3) (w := [(fitIns (fun i => some (5 - i)), [0, 1, 2]), (fitIns (fun i => some (i * i - 2 * i + 3)), [0, 1, 2])])
    (by decide +kernel)

/-- An optimizer and a pool with three members that has not been stepped, in a pool. -/
example : composeText [.single (Opt.new optInfo 0), .pool (newPool {} 3)] = .ub :=
  C110_nested_fresh (E := optEnv) _ [.single (Opt.new optInfo 0)] [] (.pool (newPool {} 3)) rfl
    ⟨{}, optInfo, [], hist_mono (fun _ => unused_fits (by decide)) (newPool_hears {} 3).hist, rfl⟩ (by
      intro x hx
      rw [List.mem_singleton.1 hx]
      exact ⟨_, rfl⟩)

/-- An optimizer and a pool whose members have been stepped. -/
example : ∃ ls p, Pool.Hist optEnv (Opt.Fits optInfo.minimize) (Pool.init {} optInfo) ls p ∧
    (steppedOf ls ≠ [] ∧ composeText [.single (Opt.new optInfo 0), .pool p] = .ok [optInfo.worstFitness, .fin 3]) :=
  exists_hist (n := 3) (w := [(fitIns (fun i => some (5 - i)), [0, 1, 2])]) (by decide +kernel)

/-- The hypotheses of `C109_pool_best`: three members in two steps; the best fitness is 3. -/
example : ∃ ls xs p, Pool.Hears optEnv (Opt.Unused optEnv optInfo) (Pool.init {} optInfo) ls xs p ∧ (∀ x ∈ xs, Continues optInfo x.upd) ∧
    (∀ x ∈ xs, ∀ v ∈ x.vis.curPoint, ∀ q : ℚ, v = .fin q → |q| ≤ Dbl.maxQ) ∧ ((bests xs).map fun x => poolCfg.parName x.vis).Nodup ∧ (bests xs).length = 3 := by
  obtain ⟨ls, xs, p, h, h1, h2, h3, h4⟩ := exists_hears (E := optEnv) (cfg := {}) (n := 3)
    (w := [(fun i => some (33 / 8 + i), [0, 1, 2]), (fun i => some (5 - i), [0, 1, 2])])
    (P := fun xs => (∀ x ∈ xs, x.upd = optInfo) ∧ (∀ x ∈ xs, x.vis.curPoint = [.fin 1] ∨ x.vis.curPoint = [.fin 0]) ∧ ((bests xs).map fun x => poolCfg.parName x.vis).Nodup ∧
      (bests xs).length = 3) (by decide +kernel)
  refine ⟨ls, xs, p, h, fun x hx => ?_, fun x hx v hv q hq => ?_, h3, h4⟩
  · rw [h1 x hx]
    refine ⟨rfl, fun p hp => ?_⟩
    rw [List.mem_singleton.1 hp]
    exact ⟨0, 1, rfl, rfl, by decide +kernel, by decide +kernel, by decide⟩
  · rcases h2 x hx with h | h <;> (rw [h, List.mem_singleton, hq] at hv; cases hv; decide +kernel)

end Spot
