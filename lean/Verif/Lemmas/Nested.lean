import Verif.Lemmas.PoolBest
import Verif.Model.Nested

/-! # Facts about pools of pools -/

namespace Spot

/-- Best fitness and best point. -/
def bestsOf (r : Res Vis) : Res (Dbl × Pt) := r >>= fun v => .ok (v.bestFitness, v.bestPoint)

theorem bestsOf_ok {r : Res Vis} {b : Dbl × Pt} : bestsOf r = .ok b ↔ ∃ v, r = .ok v ∧ v.bestFitness = b.1 ∧ v.bestPoint = b.2 := by
  unfold bestsOf
  constructor
  · intro h
    obtain ⟨v, h1, h2⟩ := Res.bind_eq_ok.1 h
    obtain rfl := Res.ok.inj h2
    exact ⟨v, h1, rfl, rfl⟩
  · rintro ⟨v, rfl, h1, h2⟩
    show Res.ok (_, _) = _
    rw [h1, h2]

section
variable {M : Type} (I : Iface M) (info : ObjInfo) (Ok : M → Prop)

/-- Nothing that matters for the best fitness has changed. -/
def Iface.Like (m' m : M) : Prop := (Ok m → Ok m') ∧ bestsOf (I.view m') = bestsOf (I.view m)

/-- What is needed of members for the best fitness of a pool; `Ok` is an invariant of theirs. -/
structure Iface.Lawful : Prop where
  num : ∀ {m b}, Ok m → bestsOf (I.view m) = .ok b → b.1 ≠ .nan
  testStop : ∀ m, I.Like Ok (I.testStop m).1 m
  predicted : ∀ n m, I.Like Ok (I.predicted n m).1 m
  setWindow : ∀ n m, I.Like Ok (I.setWindow n m) m
  addCond : ∀ c m, I.Like Ok (I.addCond c m) m
  setTarget : ∀ f m m', I.setTarget f m = some m' → I.Like Ok m' m
  interrupt : ∀ m, I.Like Ok (I.interrupt m) m
  stepOk : ∀ {m m'}, Ok m → I.Step m m' → Ok m'
  step : ∀ {m m' b}, Ok m → I.Step m m' → bestsOf (I.view m) = .ok b → ∃ b', bestsOf (I.view m') = .ok b' ∧ (b' = b ∨ info.isBetter b'.1 b.1 = true)

variable {I info Ok}

theorem Like.refl (m : M) : I.Like Ok m m := ⟨id, rfl⟩

theorem Like.trans {a b c : M} (h : I.Like Ok a b) (h' : I.Like Ok b c) : I.Like Ok a c := ⟨fun x => h.1 (h'.1 x), h.2.trans h'.2⟩

/-- The same for all members. -/
def LikeAll (I : Iface M) (Ok : M → Prop) (ms' ms : List M) : Prop := List.Forall₂ (I.Like Ok) ms' ms

theorem LikeAll.refl : ∀ ms : List M, LikeAll I Ok ms ms
  | [] => .nil
  | m :: ms => .cons (Like.refl m) (LikeAll.refl ms)

theorem LikeAll.trans : ∀ {a b c : List M}, LikeAll I Ok a b → LikeAll I Ok b c → LikeAll I Ok a c
  | _, _, _, .nil, .nil => .nil
  | _, _, _, .cons h t, .cons h' t' => .cons (Like.trans h h') (LikeAll.trans t t')

theorem LikeAll.get : ∀ {a b : List M}, LikeAll I Ok a b → ∀ {k : Nat} {m : M}, b[k]? = some m → ∃ m', a[k]? = some m' ∧ I.Like Ok m' m
  | _, _, .cons h t, 0, _, hm => by
    cases hm
    exact ⟨_, rfl, h⟩
  | _, _, .cons h t, k + 1, _, hm => LikeAll.get t hm

theorem LikeAll.back : ∀ {a b : List M}, LikeAll I Ok a b → ∀ {k : Nat} {m : M}, a[k]? = some m → ∃ m', b[k]? = some m' ∧ I.Like Ok m m'
  | _, _, .cons h t, 0, _, hm => by
    cases hm
    exact ⟨_, rfl, h⟩
  | _, _, .cons h t, k + 1, _, hm => LikeAll.back t hm

theorem LikeAll.set : ∀ {ms : List M} {i : Nat} {m m' : M}, ms[i]? = some m → I.Like Ok m' m → LikeAll I Ok (ms.set i m') ms
  | _ :: ms, 0, _, _, h, hl => by
    cases h
    exact .cons hl (LikeAll.refl ms)
  | x :: _, _ + 1, _, _, h, hl => .cons (Like.refl x) (LikeAll.set h hl)

variable (L : I.Lawful info Ok)
include L

theorem testAll_like : ∀ ms : List M, LikeAll I Ok (testAllG I ms).1 ms
  | [] => .nil
  | m :: ms => by
    have h1 := L.testStop m
    have h2 := testAll_like ms
    unfold testAllG
    split
    · rename_i heq
      rw [heq] at h1
      split
      · rename_i heq2; rw [heq2] at h2; exact .cons h1 h2
      · rename_i ms' r' _ heq2
        generalize testAllG I ms = y at h2 heq2
        subst heq2
        exact .cons h1 h2
    · rename_i heq; rw [heq] at h1; exact .cons h1 (LikeAll.refl ms)
    · rename_i heq; rw [heq] at h1; exact .cons h1 (LikeAll.refl ms)

theorem predictLoop_like (cfg : PoolCfg) (inf : ObjInfo) : ∀ (ms : List M) (n : Nat), LikeAll I Ok (predictLoopG I cfg inf n ms).1 ms
  | [], _ => .nil
  | m :: ms, n => by
    have h1 := L.testStop m
    unfold predictLoopG
    split
    · split
      · rename_i m' heq
        rw [heq] at h1
        dsimp only at h1 ⊢
        have h2 : I.Like Ok (if I.steps m' ≥ cfg.start then I.predicted cfg.lookAhead m' else (m', .ok inf.bestFitness)).1 m := by
          split
          · exact Like.trans (L.predicted _ _) h1
          · exact h1
        generalize (if I.steps m' ≥ cfg.start then I.predicted cfg.lookAhead m' else (m', Res.ok inf.bestFitness)) = y at h2
        obtain ⟨m'', x⟩ := y
        cases x with
        | ok x => exact .cons h2 (predictLoop_like cfg inf ms (n + 1))
        | err => exact .cons h2 (LikeAll.refl ms)
        | ub => exact .cons h2 (LikeAll.refl ms)
      · rename_i heq; rw [heq] at h1; exact .cons h1 (predictLoop_like cfg inf ms n)
      · rename_i heq; rw [heq] at h1; exact .cons h1 (LikeAll.refl ms)
      · rename_i heq; rw [heq] at h1; exact .cons h1 (LikeAll.refl ms)
    · exact .cons (Like.refl m) (predictLoop_like cfg inf ms n)

theorem fillLoop_like (c : Nat) (preds : List Dbl) : ∀ (is q : List Nat) (ms : List M), LikeAll I Ok (fillLoopG I c preds is q ms).1 ms
  | [], _, ms => LikeAll.refl ms
  | i :: is, q, ms => by
    unfold fillLoopG
    split
    · exact LikeAll.refl ms
    · rename_i m hm
      have h1 := L.testStop m
      split
      · rename_i heq; rw [heq] at h1; exact LikeAll.set hm h1
      · rename_i heq; rw [heq] at h1
        dsimp only
        split
        · exact LikeAll.set hm h1
        · exact (fillLoop_like c preds is _ _).trans (LikeAll.set hm h1)
      · rename_i heq; rw [heq] at h1; exact LikeAll.set hm h1
      · rename_i heq; rw [heq] at h1; exact LikeAll.set hm h1

theorem setTargets_like (f : Dbl) : ∀ ms : List M, LikeAll I Ok (setTargetsG I f ms).1 ms
  | [] => .nil
  | m :: ms => by
    unfold setTargetsG
    split
    · rename_i heq; exact .cons (L.setTarget _ _ _ heq) (setTargets_like f ms)
    · exact LikeAll.refl _

theorem interrupt_like : ∀ ms : List M, LikeAll I Ok (ms.map I.interrupt) ms
  | [] => .nil
  | m :: ms => .cons (L.interrupt m) (interrupt_like ms)

omit L

/-! ## the best member -/

variable (I info Ok)

/-- The state of a pool when the futures of `o` have not been looked at. -/
structure GBest (o : List Nat) (p : PoolG M) : Prop where
  dir : p.own.info.minimize = info.minimize
  mem : ∀ m ∈ p.members, Ok m
  noneYet : p.bestIdx = none → p.done = []
  isBest : ∀ k, p.bestIdx = some k → k ∈ p.done ∧ ∃ m b, p.members[k]? = some m ∧ bestsOf (I.view m) = .ok b ∧
    (b.1 = p.best ∨ (k ∈ o ∧ info.isBetter b.1 p.best = true))
  low : ∀ i ∈ p.done, i ∉ o → ∃ m b, p.members[i]? = some m ∧ bestsOf (I.view m) = .ok b ∧ info.isBetter b.1 p.best = false

variable {I info Ok}

theorem GBest.congr {o : List Nat} {p p' : PoolG M} (G : GBest I info Ok o p) (hl : LikeAll I Ok p'.members p.members) (hi : p'.own.info.minimize = p.own.info.minimize)
    (hb : p'.best = p.best) (hx : p'.bestIdx = p.bestIdx) (hd : p'.done = p.done) : GBest I info Ok o p' := by
  refine ⟨hi.trans G.dir, fun m hm => ?_, by rw [hx, hd]; exact G.noneYet, fun k hk => ?_, fun i h1 h2 => ?_⟩
  · obtain ⟨k, hk⟩ := List.getElem?_of_mem hm
    obtain ⟨x, hx, hlx⟩ := hl.back hk
    exact hlx.1 (G.mem x (List.mem_of_getElem? hx))
  · rw [hx] at hk
    obtain ⟨h1, m, b, h2, h3, h4⟩ := G.isBest k hk
    obtain ⟨m', hm', hlm⟩ := hl.get h2
    exact ⟨hd ▸ h1, m', b, hm', hlm.2.trans h3, hb ▸ h4⟩
  · rw [hd] at h1
    obtain ⟨m, b, h2, h3, h4⟩ := G.low i h1 h2
    obtain ⟨m', hm', hlm⟩ := hl.get h2
    exact ⟨m', b, hm', hlm.2.trans h3, hb ▸ h4⟩

/-- What the getters of the pool return. -/
theorem view_bestsOf {p : PoolG M} : bestsOf (p.view I) = p.bestMember >>= fun m => bestsOf (I.view m) := by
  unfold bestsOf PoolG.view
  cases p.bestMember with
  | ok m =>
    show ((I.view m >>= _) >>= _) = (I.view m >>= _)
    cases I.view m <;> rfl
  | err => rfl
  | ub => rfl

theorem bestMember_ok {p : PoolG M} {m : M} : p.bestMember = .ok m ↔ ∃ k, p.bestIdx = some k ∧ p.members[k]? = some m := by
  unfold PoolG.bestMember
  cases hb : p.bestIdx with
  | none => constructor
            · intro h; cases h
            · rintro ⟨_, h, _⟩; cases h
  | some k =>
    dsimp only
    cases hm : p.members[k]? with
    | none =>
      constructor
      · intro h; cases h
      · rintro ⟨j, h, h'⟩; cases h; rw [hm] at h'; cases h'
    | some x =>
      constructor
      · intro h; obtain rfl := Res.ok.inj h; exact ⟨k, rfl, hm⟩
      · rintro ⟨j, h, h'⟩; cases h; rw [hm] at h'; cases h'; rfl

theorem GBest.view_ok {p : PoolG M} (G : GBest I info Ok [] p) {k : Nat} (hk : p.bestIdx = some k) :
    ∃ m b, p.members[k]? = some m ∧ bestsOf (I.view m) = .ok b ∧ b.1 = p.best ∧ bestsOf (p.view I) = .ok b := by
  obtain ⟨h1, m, b, h2, h3, h4⟩ := G.isBest k hk
  have h4 : b.1 = p.best := by simpa using h4
  refine ⟨m, b, h2, h3, h4, ?_⟩
  rw [view_bestsOf, bestMember_ok.2 ⟨k, hk, h2⟩]
  exact h3

theorem view_some {p : PoolG M} {b : Dbl × Pt} (h : bestsOf (p.view I) = .ok b) : ∃ k m, p.bestIdx = some k ∧ p.members[k]? = some m ∧ bestsOf (I.view m) = .ok b := by
  rw [view_bestsOf] at h
  obtain ⟨m, h1, h2⟩ := Res.bind_eq_ok.1 h
  obtain ⟨k, hk, hm⟩ := bestMember_ok.1 h1
  exact ⟨k, m, hk, hm, h2⟩

include L

/-- A member that has not been looked at is stepped. -/
theorem GBest.finish {o : List Nat} {p : PoolG M} (G : GBest I info Ok o p) {i : Nat} (hi : i ∈ o) {m m' : M} (hm : p.members[i]? = some m) (hs : I.Step m m') :
    GBest I info Ok o { p with members := p.members.set i m' } := by
  have hl : i < p.members.length := (List.getElem?_eq_some_iff.1 hm).1
  have hok := G.mem m (List.mem_of_getElem? hm)
  refine ⟨G.dir, fun x hx => ?_, G.noneYet, fun k hk => ?_, fun j hj hjo => ?_⟩
  · rcases List.mem_or_eq_of_mem_set hx with hx | rfl
    · exact G.mem x hx
    · exact L.stepOk hok hs
  · obtain ⟨h1, x, b, h2, h3, h4⟩ := G.isBest k hk
    refine ⟨h1, ?_⟩
    by_cases hik : i = k
    · subst hik
      rw [hm] at h2; cases h2
      obtain ⟨b', e1, e2⟩ := L.step hok hs h3
      refine ⟨m', b', by simp [hl], e1, ?_⟩
      rcases e2 with rfl | e2
      · exact h4
      · rcases h4 with h4 | ⟨_, h4⟩
        · exact .inr ⟨hi, h4 ▸ e2⟩
        · exact .inr ⟨hi, better_trans e2 h4⟩
    · exact ⟨x, b, by simp only [List.getElem?_set_ne hik, h2], h3, h4⟩
  · obtain ⟨x, b, h2, h3, h4⟩ := G.low j hj hjo
    have hij : i ≠ j := by rintro rfl; exact hjo hi
    exact ⟨x, b, by simp only [List.getElem?_set_ne hij, h2], h3, h4⟩

omit L in
/-- Another member of the same kind at a place where there is one. -/
theorem LikeAll.length {a b : List M} (h : LikeAll I Ok a b) : a.length = b.length := List.Forall₂.length_eq h

theorem collectG_spec {p p' : PoolG M} {i : Nat} (h : p.collect I i = (p', .ok ())) : ∃ m b, p.members[i]? = some m ∧ bestsOf (I.view m) = .ok b ∧
    LikeAll I Ok p'.members p.members ∧ p'.own = p.own ∧ p'.cfg = p.cfg ∧ p'.conds = p.conds ∧ p'.done = p.done ++ [i] ∧
    if p.bestIdx = none ∨ p.own.info.isBetter b.1 p.best = true then p'.bestIdx = some i ∧ p'.best = b.1 else p'.bestIdx = p.bestIdx ∧ p'.best = p.best := by
  unfold PoolG.collect at h
  split at h
  · cases h
  · rename_i m hm
    split at h
    · rename_i v hv
      refine ⟨m, (v.bestFitness, v.bestPoint), hm, bestsOf_ok.2 ⟨v, hv, rfl, rfl⟩, ?_⟩
      have hc : (p.bestIdx.isNone || p.own.info.isBetter v.bestFitness p.best) = true ↔
          p.bestIdx = none ∨ p.own.info.isBetter v.bestFitness p.best = true := by
        simp
      rw [if_congr hc.symm rfl rfl]
      dsimp only at h ⊢
      generalize (p.bestIdx.isNone || p.own.info.isBetter v.bestFitness p.best) = nb at h
      cases nb with
      | false =>
        simp only [Bool.false_eq_true, if_false, Bool.false_and, if_true] at h ⊢
        split at h
        · cases h
          exact ⟨LikeAll.refl _, rfl, rfl, rfl, rfl, rfl, rfl⟩
        · cases h
      | true =>
        simp only [if_true, Bool.true_and] at h ⊢
        cases hu : p.cfg.usePredicted with
        | false =>
          rw [hu] at h
          simp only [Bool.false_eq_true, if_false, if_true] at h
          split at h
          · cases h
            exact ⟨LikeAll.refl _, rfl, rfl, rfl, rfl, rfl, rfl⟩
          · cases h
        | true =>
          rw [hu] at h
          simp only [if_true] at h
          split at h
          · split at h
            · cases h
              exact ⟨setTargets_like L _ _, rfl, rfl, rfl, rfl, rfl, rfl⟩
            · cases h
          · cases h
    · cases h

/-- A future is looked at. -/
theorem GBest.collect {is : List Nat} {i : Nat} {p p' : PoolG M} (G : GBest I info Ok (i :: is) p) (h : p.collect I i = (p', .ok ())) : GBest I info Ok is p' := by
  obtain ⟨m, b, hm, hb, hl, ho, -, -, hd, hr⟩ := collectG_spec L h
  have hmem : ∀ m ∈ p'.members, Ok m := by
    intro x hx
    obtain ⟨k, hk⟩ := List.getElem?_of_mem hx
    obtain ⟨y, hy, hly⟩ := hl.back hk
    exact hly.1 (G.mem y (List.mem_of_getElem? hy))
  obtain ⟨m', hm', hlm⟩ := hl.get hm
  rw [isBetter_minimize G.dir] at hr
  have hdir : p'.own.info.minimize = info.minimize := by rw [ho]; exact G.dir
  split at hr
  · rename_i hc
    obtain ⟨h1, h2⟩ := hr
    refine ⟨hdir, hmem, by simp [h1], fun k hk => ?_, fun j hj hji => ?_⟩
    · rw [h1] at hk; cases hk
      exact ⟨by rw [hd]; simp, m', b, hm', hlm.2.trans hb, .inl h2.symm⟩
    · by_cases hij : j = i
      · subst hij
        exact ⟨m', b, hm', hlm.2.trans hb, by rw [h2]; exact better_irrefl _ _⟩
      · have hj : j ∈ p.done := by
          rw [hd] at hj
          simpa [hij] using hj
        obtain ⟨x, c, hx, hcx, h3⟩ := G.low j hj (by simp [hij, hji])
        obtain ⟨x', hx', hlx⟩ := hl.get hx
        refine ⟨x', c, hx', hlx.2.trans hcx, ?_⟩
        rw [h2]
        rcases hc with hc | hc
        · rw [G.noneYet hc] at hj; cases hj
        · by_contra hcon
          rw [Bool.not_eq_false] at hcon
          rw [better_trans hcon hc] at h3
          cases h3
  · rename_i hc
    obtain ⟨h1, h2⟩ := hr
    push Not at hc
    obtain ⟨hc1, hc2⟩ := hc
    refine ⟨hdir, hmem, fun hn => absurd (h1 ▸ hn) hc1, fun k hk => ?_, fun j hj hji => ?_⟩
    · rw [h1] at hk
      obtain ⟨a, x, c, hx, hcx, h3⟩ := G.isBest k hk
      obtain ⟨x', hx', hlx⟩ := hl.get hx
      refine ⟨by rw [hd]; simp [a], x', c, hx', hlx.2.trans hcx, ?_⟩
      rw [h2]
      rcases h3 with h3 | ⟨h3, h4⟩
      · exact .inl h3
      · by_cases hki : k = i
        · subst hki
          rw [hm] at hx; cases hx
          rw [hb] at hcx
          obtain rfl := Res.ok.inj hcx
          exact absurd h4 hc2
        · exact .inr ⟨by simpa [hki] using h3, h4⟩
    · by_cases hij : j = i
      · subst hij
        exact ⟨m', b, hm', hlm.2.trans hb, by rw [h2]; simpa using hc2⟩
      · have hj : j ∈ p.done := by
          rw [hd] at hj
          simpa [hij] using hj
        obtain ⟨x, c, hx, hcx, h3⟩ := G.low j hj (by simp [hij, hji])
        obtain ⟨x', hx', hlx⟩ := hl.get hx
        exact ⟨x', c, hx', hlx.2.trans hcx, by rw [h2]; exact h3⟩

/-- The best of the pool has not become worse than `b₀`. -/
def Since (I : Iface M) (info : ObjInfo) (b₀ : Dbl × Pt) (p : PoolG M) : Prop :=
  (p.best = b₀.1 ∨ info.isBetter p.best b₀.1 = true) ∧
  ∃ k m b, p.bestIdx = some k ∧ p.members[k]? = some m ∧ bestsOf (I.view m) = .ok b ∧ (b = b₀ ∨ info.isBetter b.1 b₀.1 = true)

omit L in
theorem Since.congr {b₀ : Dbl × Pt} {p p' : PoolG M} (S : Since I info b₀ p) (hl : LikeAll I Ok p'.members p.members) (hb : p'.best = p.best) (hx : p'.bestIdx = p.bestIdx) :
    Since I info b₀ p' := by
  obtain ⟨h1, k, m, b, h2, h3, h4, h5⟩ := S
  obtain ⟨m', hm', hlm⟩ := hl.get h3
  exact ⟨hb ▸ h1, k, m', b, hx ▸ h2, hm', hlm.2.trans h4, h5⟩

/-- During a step of the pool. -/
structure GRun (I : Iface M) (info : ObjInfo) (Ok : M → Prop) (r : RunStG M) : Prop where
  inv : GBest I info Ok r.futs r.pool
  sub : ∀ i ∈ r.running, i ∈ r.futs

theorem GRun.step {r r' : RunStG M} (G : GRun I info Ok r) (st : RunStepG I r r') :
    GRun I info Ok r' ∧ ∀ b₀, Since I info b₀ r.pool → Since I info b₀ r'.pool := by
  cases st with
  | @finish i m m' h hm hs =>
    refine ⟨⟨G.inv.finish L (G.sub i h) hm hs, fun j hj => G.sub j (List.mem_of_mem_erase hj)⟩, ?_⟩
    rintro b₀ ⟨h1, k, x, b, h2, h3, h4, h5⟩
    refine ⟨h1, k, ?_⟩
    by_cases hik : i = k
    · subst hik
      rw [hm] at h3; cases h3
      obtain ⟨b', e1, e2⟩ := L.step (G.inv.mem m (List.mem_of_getElem? hm)) hs h4
      refine ⟨m', b', h2, by simp [(List.getElem?_eq_some_iff.1 hm).1], e1, ?_⟩
      rcases e2 with rfl | e2
      · exact h5
      · rcases h5 with rfl | h5
        · exact .inr e2
        · exact .inr (better_trans e2 h5)
    · exact ⟨x, b, h2, by simp only [List.getElem?_set_ne hik, h3], h4, h5⟩
  | @collect i is p h hr hc =>
    have G0 := G.inv
    rw [h] at G0
    refine ⟨⟨G0.collect L hc, fun j hj => ?_⟩, ?_⟩
    · have := G.sub j hj
      rw [h] at this
      rcases List.mem_cons.1 this with rfl | h'
      · exact absurd hj hr
      · exact h'
    · intro b₀ S
      obtain ⟨m, b, hm, hb, hl, ho, -, -, hd, hx⟩ := collectG_spec L hc
      rw [isBetter_minimize G0.dir] at hx
      split at hx
      · rename_i hcond
        obtain ⟨h1, k, x, c, h2, h3, h4, h5⟩ := S
        obtain ⟨m', hm', hlm⟩ := hl.get hm
        have hbet : info.isBetter b.1 r.pool.best = true := by
          rcases hcond with hcond | hcond
          · rw [hcond] at h2; cases h2
          · exact hcond
        have hbet' : info.isBetter b.1 b₀.1 = true := by
          rcases h1 with h1 | h1
          · rw [← h1]; exact hbet
          · exact better_trans hbet h1
        exact ⟨.inr (by show info.isBetter p.best _ = true; rw [hx.2]; exact hbet'), i, m', b, hx.1, hm', hlm.2.trans hb, .inr hbet'⟩
      · exact S.congr hl hx.2 hx.1
  | interrupt => exact ⟨⟨G.inv.congr (interrupt_like L _) rfl rfl rfl rfl, G.sub⟩, fun b₀ S => S.congr (interrupt_like L _) rfl rfl⟩

theorem GRun.exec {r r' : RunStG M} (h : RunExecG I r r') (G : GRun I info Ok r) : GRun I info Ok r' ∧ ∀ b₀, Since I info b₀ r.pool → Since I info b₀ r'.pool := by
  induction h with
  | nil => exact ⟨G, fun _ h => h⟩
  | snoc _ st ih =>
    obtain ⟨h1, h2⟩ := GRun.step L ih.1 st
    exact ⟨h1, fun b₀ S => h2 b₀ (ih.2 b₀ S)⟩

/-- Which parts of a pool a test of its stop conditions leaves alone. -/
theorem testCondG_fields (E : OptEnv) (p : PoolG M) (c : PCond) : LikeAll I Ok (p.testCond I E c).1.members p.members ∧ (p.testCond I E c).1.own.core = p.own.core ∧
    (p.testCond I E c).1.conds = p.conds ∧ (p.testCond I E c).1.best = p.best ∧ (p.testCond I E c).1.bestIdx = p.bestIdx ∧ (p.testCond I E c).1.done = p.done := by
  cases c with
  | allStopped => exact ⟨testAll_like L _, rfl, rfl, rfl, rfl, rfl⟩
  | own c =>
    simp only [PoolG.testCond]
    split
    · exact ⟨LikeAll.refl _, rfl, rfl, rfl, rfl, rfl⟩
    · exact ⟨LikeAll.refl _, rfl, rfl, rfl, rfl, rfl⟩
    · exact ⟨LikeAll.refl _, test_core E c p.own, rfl, rfl, rfl, rfl⟩

theorem testLoopG_fields (E : OptEnv) : ∀ (cs : List PCond) (k : Nat) (p : PoolG M), LikeAll I Ok (PoolG.testLoop I E k cs p).1.members p.members ∧
    (PoolG.testLoop I E k cs p).1.own.core = p.own.core ∧ (PoolG.testLoop I E k cs p).1.conds = p.conds ∧
    (PoolG.testLoop I E k cs p).1.best = p.best ∧ (PoolG.testLoop I E k cs p).1.bestIdx = p.bestIdx ∧ (PoolG.testLoop I E k cs p).1.done = p.done
  | [], _, p => ⟨LikeAll.refl _, rfl, rfl, rfl, rfl, rfl⟩
  | c :: cs, k, p => by
    have h := testCondG_fields L E p c
    unfold PoolG.testLoop
    split
    · rename_i heq; rw [heq] at h; exact h
    · rename_i p' heq; rw [heq] at h
      obtain ⟨a1, a2, a3, a4, a5, a6⟩ := h
      obtain ⟨b1, b2, b3, b4, b5, b6⟩ := testLoopG_fields E cs (k + 1) p'
      exact ⟨b1.trans a1, b2.trans a2, b3.trans a3, b4.trans a4, b5.trans a5, b6.trans a6⟩
    · rename_i heq; rw [heq] at h; exact h
    · rename_i heq; rw [heq] at h; exact h

theorem testStopG_fields (E : OptEnv) (p : PoolG M) : LikeAll I Ok (p.testStop I E).1.members p.members ∧ (p.testStop I E).1.own.core = p.own.core ∧
    (p.testStop I E).1.conds = p.conds ∧ (p.testStop I E).1.best = p.best ∧ (p.testStop I E).1.bestIdx = p.bestIdx ∧ (p.testStop I E).1.done = p.done := by
  have h := testLoopG_fields L E p.conds 0 p
  unfold PoolG.testStop
  split
  · exact ⟨LikeAll.refl _, rfl, rfl, rfl, rfl, rfl⟩
  · split
    · rename_i heq; rw [heq] at h; exact h
    · rename_i heq; rw [heq] at h; exact h

theorem refillG_fields {p p' : PoolG M} {sel : List Nat} (h : RefillG I p sel p') : LikeAll I Ok p'.members p.members ∧ p'.own = p.own ∧ p'.conds = p.conds ∧ p'.best = p.best ∧
    p'.bestIdx = p.bestIdx ∧ p'.done = p.done := by
  cases h with
  | keep h => exact ⟨LikeAll.refl _, rfl, rfl, rfl, rfl, rfl⟩
  | @fill ms ms' preds ord q h hp ho hf hb ht =>
    have h1 := predictLoop_like L p.cfg p.own.info p.members 0
    have h2 := fillLoop_like L p.cfg.concurrent preds ord [] ms
    rw [hp] at h1; rw [hf] at h2
    exact ⟨h2.trans h1, rfl, rfl, rfl, rfl, rfl⟩

/-- A step of a pool. -/
theorem poolStepG {E : OptEnv} {p p' : PoolG M} {r : Option Nat} (G : GBest I info Ok [] p) (st : PoolG.Step I E p p' r) :
    GBest I info Ok [] p' ∧ ∀ b₀, Since I info b₀ p → Since I info b₀ p' := by
  cases st with
  | @mk p₁ p₂ _ t sel _ hd hne h1 h2 h3 hend h4 =>
    have e1 : p₁.members = p.members ∧ p₁.own = p.own ∧ p₁.best = p.best ∧ p₁.bestIdx = p.bestIdx ∧ p₁.done = p.done := by
      rw [h1]; split <;> exact ⟨rfl, rfl, rfl, rfl, rfl⟩
    have G1 : GBest I info Ok [] p₁ := G.congr (by rw [e1.1]; exact LikeAll.refl _) (by rw [e1.2.1]) e1.2.2.1 e1.2.2.2.1 e1.2.2.2.2
    obtain ⟨f1, f2, f3, f4, f5, f6⟩ := refillG_fields (Ok := Ok) L h2
    have G2 : GBest I info Ok [] p₂ := G1.congr f1 (by rw [f2]) f4 f5 f6
    have R0 : GRun I info Ok p₂.launch := by
      refine ⟨⟨G2.dir, G2.mem, G2.noneYet, fun k hk => ?_, fun i hi _ => G2.low i hi (by simp)⟩, fun i hi => hi⟩
      obtain ⟨a, m, b, hm, hb, h⟩ := G2.isBest k hk
      have h : b.1 = p₂.best := by simpa using h
      exact ⟨a, m, b, hm, hb, .inl h⟩
    obtain ⟨R, hS⟩ := GRun.exec L h3 R0
    have G3 := R.inv
    rw [hend.2] at G3
    have hf := testStopG_fields (Ok := Ok) L E { t.pool.signal .postStep with own := { t.pool.own with stepCount := t.pool.own.stepCount + 1 } }
    rw [h4] at hf
    have hci := (core_ext hf.2.1).1
    refine ⟨G3.congr hf.1 (congrArg _ hci) hf.2.2.2.1 hf.2.2.2.2.1 hf.2.2.2.2.2, fun b₀ S => ?_⟩
    have S1 : Since I info b₀ p₁ := S.congr (Ok := Ok) (by rw [e1.1]; exact LikeAll.refl _) e1.2.2.1 e1.2.2.2.1
    have S2 : Since I info b₀ p₂ := S1.congr f1 f4 f5
    exact (hS b₀ S2).congr hf.1 hf.2.2.2.1 hf.2.2.2.2.1

theorem pushG (G : GBest I info Ok [] p) {m : M} (hm : Ok m) : GBest I info Ok [] (p.push I m) := by
  have hnew : Ok (if p.cfg.usePredicted then I.addCond (.predicted p.own.info.worstFitness p.cfg.lookAhead p.cfg.start) (I.setWindow p.cfg.window m) else I.setWindow p.cfg.window m) := by
    split
    · exact (L.addCond _ _).1 ((L.setWindow _ _).1 hm)
    · exact (L.setWindow _ _).1 hm
  have hget : ∀ {k : Nat} {x : M}, p.members[k]? = some x → (p.push I m).members[k]? = some x := fun h =>
    (List.getElem?_append_left (List.getElem?_eq_some_iff.1 h).1).trans h
  refine ⟨G.dir, fun x hx => ?_, G.noneYet, fun k hk => ?_, fun i h1 h2 => ?_⟩
  · rcases List.mem_append.1 hx with hx | hx
    · exact G.mem x hx
    · rw [List.mem_singleton.1 hx]; exact hnew
  · obtain ⟨a, x, b, hx, hb, h⟩ := G.isBest k hk
    exact ⟨a, x, b, hget hx, hb, h⟩
  · obtain ⟨x, b, hx, h⟩ := G.low i h1 h2
    exact ⟨x, b, hget hx, h⟩

/-- A history of calls of a pool. -/
theorem histG {E : OptEnv} {p p' : PoolG M} (h : PoolG.Hist I E Ok p p') (G : GBest I info Ok [] p) :
    GBest I info Ok [] p' ∧ ∀ b₀, Since I info b₀ p → Since I info b₀ p' := by
  induction h with
  | nil => exact ⟨G, fun _ h => h⟩
  | step h st ih =>
    obtain ⟨h1, h2⟩ := poolStepG L ih.1 st
    exact ⟨h1, fun b₀ S => h2 b₀ (ih.2 b₀ S)⟩
  | @push q m h hm ih =>
    refine ⟨pushG L ih.1 hm, fun b₀ S => ?_⟩
    obtain ⟨h1, k, x, b, h2, h3, h4⟩ := ih.2 b₀ S
    exact ⟨h1, k, x, b, h2, (List.getElem?_append_left (List.getElem?_eq_some_iff.1 h3).1).trans h3, h4⟩
  | @addCond q c h ih =>
    have hi : (q.addCond c).own.info.minimize = q.own.info.minimize := by unfold PoolG.addCond; dsimp only; split <;> rfl
    exact ⟨ih.1.congr (LikeAll.refl _) hi rfl rfl rfl, fun b₀ S => (ih.2 b₀ S).congr (Ok := Ok) (LikeAll.refl _) rfl rfl⟩
  | @predicted q n h ih =>
    exact ⟨ih.1.congr (LikeAll.refl _) (congrArg _ (core_ext (predicted_core E q.own n)).1) rfl rfl rfl, fun b₀ S => (ih.2 b₀ S).congr (Ok := Ok) (LikeAll.refl _) rfl rfl⟩
  | @setTarget q f cs h hc ih => exact ⟨ih.1.congr (LikeAll.refl _) rfl rfl rfl rfl, fun b₀ S => (ih.2 b₀ S).congr (Ok := Ok) (LikeAll.refl _) rfl rfl⟩
  | @setWindow q n h ih => exact ⟨ih.1.congr (LikeAll.refl _) rfl rfl rfl rfl, fun b₀ S => (ih.2 b₀ S).congr (Ok := Ok) (LikeAll.refl _) rfl rfl⟩
  | @interrupt q h ih => exact ⟨ih.1.congr (interrupt_like L _) rfl rfl rfl rfl, fun b₀ S => (ih.2 b₀ S).congr (interrupt_like L _) rfl rfl⟩
  | @test q h ih =>
    have hf := testStopG_fields (Ok := Ok) L E q
    exact ⟨ih.1.congr hf.1 (congrArg _ (core_ext hf.2.1).1) hf.2.2.2.1 hf.2.2.2.2.1 hf.2.2.2.2.2, fun b₀ S => (ih.2 b₀ S).congr hf.1 hf.2.2.2.1 hf.2.2.2.2.1⟩

/-- A pool whose members obey the laws obeys them itself. -/
theorem PoolG.lawful (E : OptEnv) : (PoolG.iface I E).Lawful info (GBest I info Ok []) := by
  have like : ∀ {p p' : PoolG M}, LikeAll I Ok p'.members p.members → p'.own.info.minimize = p.own.info.minimize → p'.best = p.best → p'.bestIdx = p.bestIdx → p'.done = p.done →
      (PoolG.iface I E).Like (GBest I info Ok []) p' p := by
    intro p p' hl hi hb hx hd
    refine ⟨fun G => G.congr hl hi hb hx hd, ?_⟩
    show bestsOf (p'.view I) = bestsOf (p.view I)
    rw [view_bestsOf, view_bestsOf]
    unfold PoolG.bestMember
    rw [hx]
    cases p.bestIdx with
    | none => rfl
    | some k =>
      dsimp only
      cases hm : p.members[k]? with
      | none =>
        have : p'.members[k]? = none := by
          rw [List.getElem?_eq_none_iff, hl.length]; exact List.getElem?_eq_none_iff.1 hm
        rw [this]
      | some m =>
        obtain ⟨m', hm', hlm⟩ := hl.get hm
        rw [hm']
        exact hlm.2
  refine ⟨?_, ?_, ?_, ?_, ?_, ?_, ?_, ?_, ?_⟩
  · intro p b G hb
    obtain ⟨k, m, hk, hm, hb'⟩ := view_some hb
    exact L.num (G.mem m (List.mem_of_getElem? hm)) hb'
  · intro p
    have hf := testStopG_fields (Ok := Ok) L E p
    exact like hf.1 (congrArg _ (core_ext hf.2.1).1) hf.2.2.2.1 hf.2.2.2.2.1 hf.2.2.2.2.2
  · intro n p
    exact like (LikeAll.refl _) (congrArg _ (core_ext (predicted_core E p.own n)).1) rfl rfl rfl
  · intro n p
    exact like (LikeAll.refl _) rfl rfl rfl rfl
  · intro c p
    exact like (LikeAll.refl _) (by show (p.addCond c).own.info.minimize = _; unfold PoolG.addCond; dsimp only; split <;> rfl) rfl rfl rfl
  · intro f p p' h
    simp only [PoolG.iface, Option.map_eq_some_iff] at h
    obtain ⟨cs, -, rfl⟩ := h
    exact like (LikeAll.refl _) rfl rfl rfl rfl
  · intro p
    exact like (interrupt_like L _) rfl rfl rfl rfl
  · rintro p p' G ⟨r, st⟩
    exact (poolStepG L G st).1
  · rintro p p' b G ⟨r, st⟩ hb
    obtain ⟨k, m, hk, hm, hb'⟩ := view_some hb
    obtain ⟨m', b', e1, e2, e3, e4⟩ := G.view_ok hk
    rw [hm] at e1; cases e1
    rw [hb'] at e2
    obtain rfl := Res.ok.inj e2
    obtain ⟨G', hS⟩ := poolStepG L G st
    obtain ⟨-, k', x, c, h2, h3, h4, h5⟩ := hS b ⟨.inl e3.symm, k, m, b, hk, hm, hb', .inl rfl⟩
    refine ⟨c, ?_, h5⟩
    show bestsOf (p'.view I) = _
    rw [view_bestsOf, bestMember_ok.2 ⟨k', h2, h3⟩]
    exact h4

end

/-- A single optimizer. -/
theorem opt_lawful (E : OptEnv) (info : ObjInfo) : (Opt.iface E).Lawful info (Opt.Fits info.minimize) := by
  have like : ∀ {m m' : Opt}, m'.sig = m.sig → (Opt.iface E).Like (Opt.Fits info.minimize) m' m := by
    intro m m' h
    unfold Opt.sig at h
    simp only [Prod.mk.injEq] at h
    obtain ⟨h1, h2, h3⟩ := h
    refine ⟨fun hf => ?_, ?_⟩
    · unfold Opt.Fits at *
      rw [h1, h3]; exact hf
    · show Res.ok (m'.vis.bestFitness, m'.vis.bestPoint) = Res.ok (m.vis.bestFitness, m.vis.bestPoint)
      rw [h1, h2]
  refine ⟨?_, ?_, ?_, ?_, ?_, ?_, ?_, ?_, ?_⟩
  · intro m b hf hb
    obtain rfl := Res.ok.inj (hb : Res.ok (m.vis.bestFitness, m.vis.bestPoint) = _)
    exact hf.1
  · exact fun m => like (testStop_sig E m)
  · exact fun n m => like (sig_eq (predicted_core E m.vis n))
  · exact fun n m => like rfl
  · exact fun c m => like (by show (m.addCond c).sig = _; unfold Opt.addCond Opt.sig; dsimp only; split <;> rfl)
  · intro f m m' h
    simp only [Opt.iface, Option.map_eq_some_iff] at h
    obtain ⟨cs, -, rfl⟩ := h
    exact like rfl
  · exact fun m => like rfl
  · rintro m m' hf ⟨i, x, hs⟩
    obtain ⟨h1, h2⟩ := step_best E m i
    rw [hs] at h1 h2
    dsimp only at h1 h2
    unfold Opt.Fits
    rw [h1]
    refine ⟨?_, hf.2⟩
    rcases h2 with h2 | h2
    · rw [h2]; exact hf.1
    · exact (better_ne_nan h2).1
  · rintro m m' b hf ⟨i, x, hs⟩ hb
    obtain rfl := Res.ok.inj (hb : Res.ok (m.vis.bestFitness, m.vis.bestPoint) = _)
    have h2 := step_bestPoint E m i
    rw [hs, isBetter_minimize hf.2] at h2
    refine ⟨(m'.vis.bestFitness, m'.vis.bestPoint), rfl, ?_⟩
    rcases h2 with ⟨h2, h3⟩ | h2
    · exact .inl (Prod.ext h2 h3)
    · exact .inr h2

/-- Either kind. -/
theorem sum_lawful {A B : Type} {I : Iface A} {J : Iface B} {info : ObjInfo} {P : A → Prop} {Q : B → Prop} (h : I.Lawful info P) (h' : J.Lawful info Q) :
    (I.sum J).Lawful info (Sum.elim P Q) := by
  refine ⟨?_, ?_, ?_, ?_, ?_, ?_, ?_, ?_, ?_⟩
  · rintro (m | m) b; exacts [h.num, h'.num]
  · rintro (m | m); exacts [h.testStop m, h'.testStop m]
  · rintro n (m | m); exacts [h.predicted n m, h'.predicted n m]
  · rintro n (m | m); exacts [h.setWindow n m, h'.setWindow n m]
  · rintro c (m | m); exacts [h.addCond c m, h'.addCond c m]
  · rintro f (m | m) m' hm
    · obtain ⟨x, hx, rfl⟩ := Option.map_eq_some_iff.1 (hm : (I.setTarget f m).map .inl = some m')
      exact h.setTarget f m x hx
    · obtain ⟨x, hx, rfl⟩ := Option.map_eq_some_iff.1 (hm : (J.setTarget f m).map .inr = some m')
      exact h'.setTarget f m x hx
  · rintro (m | m); exacts [h.interrupt m, h'.interrupt m]
  · rintro m m' hm hs
    cases hs with
    | inl hs => exact h.stepOk hm hs
    | inr hs => exact h'.stepOk hm hs
  · rintro m m' b hm hs hb
    cases hs with
    | inl hs => exact h.step hm hs hb
    | inr hs => exact h'.step hm hs hb

end Spot
