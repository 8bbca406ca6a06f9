import Verif.Lemmas.Nested
import Verif.Props.PoolCases

/-! # Pools of pools (C117) -/

namespace Spot

variable {E : OptEnv}

/-! ## specification -/

/-- What `f` gives for the members whose step has ended and has been looked at. -/
def PoolG.gather {M : Type} (f : M → List Opt) (p : PoolG M) : List Opt := p.done.flatMap fun i => p.members[i]?.toList.flatMap f

/-- An optimizer; of a pool, the optimizers at any depth that it has stepped: those of the members it has stepped. -/
def Nest.reached : (n : Nat) → Nest n → List Opt
  | 0 => fun m => [m]
  | n + 1 => Sum.elim (fun m => [m]) (PoolG.gather (Nest.reached n))

/-- All optimizers at any depth, stepped or not. -/
def Nest.leaves : (n : Nat) → Nest n → List Opt
  | 0 => fun m => [m]
  | n + 1 => Sum.elim (fun m => [m]) fun p => p.members.flatMap (Nest.leaves n)

/-- An optimizer with the direction `min` and without NaN as best fitness, or a pool with this direction with any history of calls; its members were such optimizers or pools
when they were added. -/
def Nest.Built (E : OptEnv) (min : Bool) : (n : Nat) → Nest n → Prop
  | 0 => Opt.Fits min
  | n + 1 => Sum.elim (Opt.Fits min) fun p => ∃ cfg info, info.minimize = min ∧ PoolG.Hist (Nest.iface E n) E (Nest.Built E min n) (PoolG.init cfg info) p

/-! ## lemmas -/

section
variable {M : Type} {I : Iface M} {info : ObjInfo} {Ok : M → Prop}

theorem initG_own (cfg : PoolCfg) (info : ObjInfo) : (PoolG.init cfg info : PoolG M).own.info = info := by
  simp [PoolG.init, Opt.init, Opt.addCond, Cond.minWindow]

theorem initG_best (cfg : PoolCfg) {i : ObjInfo} (hi : i.minimize = info.minimize) : GBest I info Ok [] (PoolG.init cfg i : PoolG M) :=
  ⟨by rw [initG_own]; exact hi, by simp [PoolG.init], fun _ => rfl, by simp [PoolG.init], by simp [PoolG.init]⟩

/-- Any history of a pool, as an invariant. -/
def PoolG.Any (I : Iface M) (E : OptEnv) (Ok : M → Prop) (min : Bool) (p : PoolG M) : Prop :=
  ∃ cfg info, info.minimize = min ∧ PoolG.Hist I E Ok (PoolG.init cfg info) p

theorem any_best (L : I.Lawful info Ok) {p : PoolG M} (h : PoolG.Any I E Ok info.minimize p) : GBest I info Ok [] p := by
  obtain ⟨cfg, i, hi, h⟩ := h
  exact (histG L h (initG_best cfg hi)).1

theorem any_lawful (L : I.Lawful info Ok) : (PoolG.iface I E).Lawful info (PoolG.Any I E Ok info.minimize) := by
  have P := PoolG.lawful L E
  refine ⟨fun h => P.num (any_best L h), fun p => ⟨?_, (P.testStop p).2⟩, fun n p => ⟨?_, (P.predicted n p).2⟩, fun n p => ⟨?_, (P.setWindow n p).2⟩,
    fun c p => ⟨?_, (P.addCond c p).2⟩, fun f p p' h => ⟨?_, (P.setTarget f p p' h).2⟩, fun p => ⟨?_, (P.interrupt p).2⟩, ?_, fun h => P.step (any_best L h)⟩
  · rintro ⟨c, i, hi, h⟩; exact ⟨c, i, hi, h.test⟩
  · rintro ⟨c, i, hi, h⟩; exact ⟨c, i, hi, h.predicted⟩
  · rintro ⟨c, i, hi, h⟩; exact ⟨c, i, hi, h.setWindow⟩
  · rintro ⟨c', i, hi, h⟩; exact ⟨c', i, hi, h.addCond⟩
  · rintro ⟨c, i, hi, hh⟩
    obtain ⟨cs, h1, rfl⟩ := Option.map_eq_some_iff.1 (h : (setTargetP f p.conds).map (fun cs => { p with conds := cs }) = some p')
    exact ⟨c, i, hi, hh.setTarget h1⟩
  · rintro ⟨c, i, hi, h⟩; exact ⟨c, i, hi, h.interrupt⟩
  · rintro p p' ⟨c, i, hi, h⟩ ⟨r, st⟩; exact ⟨c, i, hi, h.step st⟩

end

theorem nest_lawful (E : OptEnv) (info : ObjInfo) : ∀ n, (Nest.iface E n).Lawful info (Nest.Built E info.minimize n)
  | 0 => opt_lawful E info
  | n + 1 => sum_lawful (opt_lawful E info) (any_lawful (nest_lawful E info n))

/-- Best fitness and best point are those of an optimizer that was reached, and none of these is better. -/
def IsBestOf (info : ObjInfo) (os : List Opt) (b : Dbl × Pt) : Prop :=
  (∃ o ∈ os, b = (o.vis.bestFitness, o.vis.bestPoint)) ∧ ∀ o ∈ os, o.vis.bestFitness ≠ .nan ∧ info.isBetter o.vis.bestFitness b.1 = false

theorem gather_best {M : Type} {I : Iface M} {info : ObjInfo} {Ok : M → Prop} {f : M → List Opt} (L : I.Lawful info Ok)
    (hf : ∀ m b, Ok m → bestsOf (I.view m) = .ok b → IsBestOf info (f m) b) (p : PoolG M) (b : Dbl × Pt) (G : GBest I info Ok [] p) (hb : bestsOf (p.view I) = .ok b) :
    IsBestOf info (p.gather f) b := by
  obtain ⟨k, m, hk, hm, hbm⟩ := view_some hb
  obtain ⟨m', b', e1, e2, e3, e4⟩ := G.view_ok hk
  rw [hm] at e1; cases e1
  rw [hbm] at e2; obtain rfl := Res.ok.inj e2
  have hnb := L.num (G.mem m (List.mem_of_getElem? hm)) hbm
  refine ⟨?_, fun o ho => ?_⟩
  · obtain ⟨⟨o, ho, hbo⟩, -⟩ := hf m b (G.mem m (List.mem_of_getElem? hm)) hbm
    exact ⟨o, List.mem_flatMap.2 ⟨k, (G.isBest k hk).1, by rw [hm]; simpa using ho⟩, hbo⟩
  · obtain ⟨i, hi, ho⟩ := List.mem_flatMap.1 ho
    obtain ⟨x, c, hx, hc, hlow⟩ := G.low i hi (by simp)
    rw [hx] at ho
    have ho : o ∈ f x := by simpa using ho
    have hokx := G.mem x (List.mem_of_getElem? hx)
    obtain ⟨h1, h2⟩ := (hf x c hokx hc).2 o ho
    refine ⟨h1, ?_⟩
    rw [e3] at hnb ⊢
    exact not_better_trans h1 (L.num hokx hc) hnb h2 hlow

theorem nest_best (E : OptEnv) (info : ObjInfo) : ∀ (n : Nat) (m : Nest n) (b : Dbl × Pt), Nest.Built E info.minimize n m → bestsOf ((Nest.iface E n).view m) = .ok b →
    IsBestOf info (Nest.reached n m) b
  | 0, m, b, hm, hb => by
    obtain rfl := Res.ok.inj (hb : Res.ok (m.vis.bestFitness, m.vis.bestPoint) = _)
    refine ⟨⟨m, List.mem_singleton.2 rfl, rfl⟩, fun o ho => ?_⟩
    obtain rfl := List.mem_singleton.1 ho
    exact ⟨hm.1, better_irrefl _ _⟩
  | n + 1, .inl m, b, hm, hb => by
    obtain rfl := Res.ok.inj (hb : Res.ok (m.vis.bestFitness, m.vis.bestPoint) = _)
    refine ⟨⟨m, List.mem_singleton.2 rfl, rfl⟩, fun o ho => ?_⟩
    obtain rfl := List.mem_singleton.1 ho
    exact ⟨hm.1, better_irrefl _ _⟩
  | n + 1, .inr p, b, hp, hb => gather_best (nest_lawful E info n) (nest_best E info n) p b (any_best (nest_lawful E info n) hp) hb

/-! ## C117 -/

/-- **C117.** A pool of optimizers and pools of optimizers and pools ... to any depth, after any history of calls (of it and, before they were added, of its members) with any schedule
of the threads in which a step of a member has ended: `best_fitness()` and `best_point()` are those of one optimizer at some depth that was stepped by its pool (and this pool by the
pool it is in, and so on), and no such optimizer has a better best fitness. -/
theorem C117_best (n : Nat) (cfg : PoolCfg) (info : ObjInfo) {p : PoolG (Nest n)}
    (h : PoolG.Hist (Nest.iface E n) E (Nest.Built E info.minimize n) (PoolG.init cfg info) p) (hd : p.done ≠ []) :
    ∃ v, p.view (Nest.iface E n) = .ok v ∧ (∃ o ∈ p.gather (Nest.reached n), v.bestFitness = o.vis.bestFitness ∧ v.bestPoint = o.vis.bestPoint) ∧
      ∀ o ∈ p.gather (Nest.reached n), info.isBetter o.vis.bestFitness v.bestFitness = false := by
  have L := nest_lawful E info n
  have G := any_best L ⟨cfg, info, rfl, h⟩
  cases hk : p.bestIdx with
  | none => exact absurd (G.noneYet hk) hd
  | some k =>
    obtain ⟨m, b, -, -, -, hb⟩ := G.view_ok hk
    obtain ⟨⟨o, ho, hbo⟩, h2⟩ := gather_best L (nest_best E info n) p b G hb
    obtain ⟨v, hv, h3, h4⟩ := bestsOf_ok.1 hb
    refine ⟨v, hv, ⟨o, ho, by rw [h3, hbo], by rw [h4, hbo]⟩, fun o ho => ?_⟩
    rw [h3]
    exact (h2 o ho).2

/-- **C117.** Before that the getters of the pool fail an assertion. -/
theorem C117_no_best_yet (n : Nat) (cfg : PoolCfg) (info : ObjInfo) {p : PoolG (Nest n)}
    (h : PoolG.Hist (Nest.iface E n) E (Nest.Built E info.minimize n) (PoolG.init cfg info) p) (hd : p.done = []) : p.view (Nest.iface E n) = .ub := by
  have G := any_best (nest_lawful E info n) ⟨cfg, info, rfl, h⟩
  unfold PoolG.view PoolG.bestMember
  cases hk : p.bestIdx with
  | none => rfl
  | some k =>
    have := (G.isBest k hk).1
    rw [hd] at this
    cases this

/-- **C117.** As long as a pool is used, at whatever depth, its best never gets worse: it stays as it is, point and fitness, or the fitness gets better. -/
theorem C117_monotone (n : Nat) (cfg : PoolCfg) (info : ObjInfo) {p q : PoolG (Nest n)}
    (h : PoolG.Hist (Nest.iface E n) E (Nest.Built E info.minimize n) (PoolG.init cfg info) p)
    (h' : PoolG.Hist (Nest.iface E n) E (Nest.Built E info.minimize n) p q) {v : Vis} (hv : p.view (Nest.iface E n) = .ok v) :
    ∃ w, q.view (Nest.iface E n) = .ok w ∧ (w.bestFitness = v.bestFitness ∧ w.bestPoint = v.bestPoint ∨ info.isBetter w.bestFitness v.bestFitness = true) := by
  have L := nest_lawful E info n
  have G := any_best L ⟨cfg, info, rfl, h⟩
  have hb : bestsOf (p.view (Nest.iface E n)) = .ok (v.bestFitness, v.bestPoint) := bestsOf_ok.2 ⟨v, hv, rfl, rfl⟩
  obtain ⟨k, m, hk, hm, hbm⟩ := view_some hb
  obtain ⟨m', b', e1, e2, e3, -⟩ := G.view_ok hk
  rw [hm] at e1; cases e1
  rw [hbm] at e2; obtain rfl := Res.ok.inj e2
  obtain ⟨-, k', x, c, h2, h3, h4, h5⟩ := (histG L h' G).2 _ ⟨.inl e3.symm, k, m, _, hk, hm, hbm, .inl rfl⟩
  have hq : bestsOf (q.view (Nest.iface E n)) = .ok c := by
    rw [view_bestsOf, bestMember_ok.2 ⟨k', h2, h3⟩]; exact h4
  obtain ⟨w, hw, w1, w2⟩ := bestsOf_ok.1 hq
  refine ⟨w, hw, ?_⟩
  rcases h5 with rfl | h5
  · exact .inl ⟨w1, w2⟩
  · exact .inr (by rw [w1]; exact h5)

/-- **C117.** `interrupt()` of a pool requests every optimizer at every depth, stepped or not, to stop. -/
theorem C117_interrupt (E : OptEnv) : ∀ (n : Nat) (m : Nest n), ∀ o ∈ Nest.leaves n ((Nest.iface E n).interrupt m), o.vis.stopRequested = true
  | 0, m, o, ho => by
    obtain rfl := List.mem_singleton.1 ho
    rfl
  | n + 1, .inl m, o, ho => by
    obtain rfl := List.mem_singleton.1 ho
    rfl
  | n + 1, .inr p, o, ho => by
    obtain ⟨m, hm, ho⟩ := List.mem_flatMap.1 (ho : o ∈ (p.members.map (Nest.iface E n).interrupt).flatMap (Nest.leaves n))
    obtain ⟨m0, -, rfl⟩ := List.mem_map.1 hm
    exact C117_interrupt E n m0 o ho

end Spot
