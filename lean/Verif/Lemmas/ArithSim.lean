import Verif.Model.EsSearch

/-! # The same computation in two arithmetics -/

namespace Spot

variable {K K' : Type} [Arith K] [Arith K'] {n : Nat}

/-- A relation between the numbers of two arithmetics that the operations respect; division only by what is not zero. -/
structure Arith.Sim (r : K → K' → Prop) : Prop where
  lit : ∀ q, r (lit q) (lit q)
  add : ∀ {a a' b b'}, r a a' → r b b' → r (a + b) (a' + b')
  sub : ∀ {a a' b b'}, r a a' → r b b' → r (a - b) (a' - b')
  mul : ∀ {a a' b b'}, r a a' → r b b' → r (a * b) (a' * b')
  div : ∀ {a a' b b'}, r a a' → r b b' → Arith.eq b (Arith.lit 0 : K) = false → r (a / b) (a' / b')
  lt : ∀ {a a' b b'}, r a a' → r b b' → Arith.lt a b = Arith.lt a' b'
  le : ∀ {a a' b b'}, r a a' → r b b' → Arith.le a b = Arith.le a' b'
  sqrt : ∀ {a a'}, r a a' → r (Arith.sqrt a) (Arith.sqrt a')
  round8 : ∀ {a a'}, r a a' → r (Arith.round8 a) (Arith.round8 a')

/-- Random numbers that are related. -/
structure Rng.Sim (r : K → K' → Prop) (R : Rng K) (R' : Rng K') (re : R.Eng → R'.Eng → Prop) (rd : R.Dist → R'.Dist → Prop) : Prop where
  normal : ∀ {m m' s s'}, r m m' → r s s' → rd (R.normal m s) (R'.normal m' s')
  draw : ∀ {d d' e e'}, rd d d' → re e e' → r (R.draw d e).1 (R'.draw d' e').1 ∧ rd (R.draw d e).2.1 (R'.draw d' e').2.1 ∧ re (R.draw d e).2.2 (R'.draw d' e').2.2

/-- Vectors. -/
def VRel (r : K → K' → Prop) (x : Fin n → K) (y : Fin n → K') : Prop := ∀ i, r (x i) (y i)

/-- Distributions. -/
structure Es.Rel (r : K → K' → Prop) (s : Es K n) (s' : Es K' n) : Prop where
  mean : VRel r s.mean s'.mean
  var : VRel r s.var s'.var
  mom : VRel r s.mom s'.mom

/-- Options. -/
inductive EsAlg.Rel (r : K → K' → Prop) : EsAlg K → EsAlg K' → Prop
  | mes {o : MesOpts K} {o' : MesOpts K'} (h1 : r o.meanSigma o'.meanSigma) (h2 : r o.varSigma o'.varSigma) (h3 : r o.momSigma o'.momSigma) (h4 : r o.momOffset o'.momOffset)
      (h5 : r o.momOffsetStd o'.momOffsetStd) : EsAlg.Rel r (.mes o) (.mes o')
  | eva {o : EvaOpts K} {o' : EvaOpts K'} (h1 : r o.stepSize o'.stepSize) (h2 : r o.varUpdate o'.varUpdate) (h3 : r o.evUpdate o'.evUpdate) (h4 : r o.evOffset o'.evOffset)
      (h5 : r o.evStdev o'.evStdev) : EsAlg.Rel r (.eva o) (.eva o')

variable {r : K → K' → Prop} (A : Arith.Sim r)
include A

theorem sim_upd {v w a : K} {v' w' a' : K'} (h1 : r v v') (h2 : r w w') (h3 : r a a') : r (upd v w a) (upd v' w' a') :=
  A.add (A.mul (A.sub (A.lit 1) h3) h1) (A.mul h3 h2)

theorem sim_squared {v : K} {v' : K'} (h : r v v') : r (squared v) (squared v') := A.mul h h

omit A in
theorem sim_foldl {α β : Type} {R : α → β → Prop} {f : K → α → K} {g : K' → β → K'} (hf : ∀ a a' x y, r a a' → R x y → r (f a x) (g a' y)) :
    ∀ {l : List α} {l' : List β}, List.Forall₂ R l l' → ∀ {a a'}, r a a' → r (l.foldl f a) (l'.foldl g a')
  | _, _, .nil, _, _, h => h
  | _, _, .cons hx t, _, _, h => sim_foldl hf t (hf _ _ _ _ h hx)

omit A in
theorem forall₂_refl {α : Type} {R : α → α → Prop} (h : ∀ x, R x x) : ∀ l : List α, List.Forall₂ R l l
  | [] => .nil
  | x :: l => .cons (h x) (forall₂_refl h l)

theorem sim_sumFin {f : Fin n → K} {g : Fin n → K'} (h : VRel r f g) : r (sumFin f) (sumFin g) :=
  sim_foldl (R := fun i j => i = j) (fun _ _ _ _ ha hi => by subst hi; exact A.add ha (h _)) (forall₂_refl (fun _ => rfl) _) (A.lit 0)

theorem sim_dot {a b : Fin n → K} {a' b' : Fin n → K'} (h1 : VRel r a a') (h2 : VRel r b b') : r (dotProduct a b) (dotProduct a' b') :=
  sim_sumFin A fun i => A.mul (h1 i) (h2 i)

theorem sim_projected {eps : K} {eps' : K'} (he : r eps eps') (hpos : ∀ x : K, Arith.lt eps x = true → Arith.eq x (lit 0 : K) = false) {a ab p : Fin n → K} {a' ab' p' : Fin n → K'}
    (h1 : VRel r a a') (h2 : VRel r ab ab') (h3 : VRel r p p') : VRel r (projected eps a ab p) (projected eps' a' ab' p') := by
  unfold projected
  rw [← A.lt he (sim_dot A h2 h2)]
  split
  · rename_i h
    exact fun i => A.add (h1 i) (A.mul (h2 i) (A.div (sim_dot A (fun i => A.sub (h3 i) (h1 i)) h2) (sim_dot A h2 h2) (hpos _ h)))
  · exact h1

theorem sim_clamped {v lo hi : K} {v' lo' hi' : K'} (h1 : r v v') (h2 : r lo lo') (h3 : r hi hi') : r (clamped v lo hi) (clamped v' lo' hi') := by
  unfold clamped
  rw [← A.lt h1 h2, ← A.lt h3 h1]
  split
  · exact h2
  · split
    · exact h3
    · exact h1

section
variable {R : Rng K} {R' : Rng K'} {re : R.Eng → R'.Eng → Prop} {rd : R.Dist → R'.Dist → Prop} (S : R.Sim r R' re rd)
include S

theorem sim_sampleLoop {lo hi : K} {lo' hi' : K'} (h1 : r lo lo') (h2 : r hi hi') : ∀ (k : Nat) {d : R.Dist} {d' : R'.Dist} {e : R.Eng} {e' : R'.Eng}, rd d d' → re e e' →
    r (sampleLoop R lo hi k d e).1 (sampleLoop R' lo' hi' k d' e').1 ∧ re (sampleLoop R lo hi k d e).2 (sampleLoop R' lo' hi' k d' e').2
  | 0, d, d', e, e', hd, he => by
    obtain ⟨a, -, c⟩ := S.draw hd he
    exact ⟨sim_clamped A a h1 h2, c⟩
  | k + 1, d, d', e, e', hd, he => by
    obtain ⟨a, b, c⟩ := S.draw hd he
    simp only [sampleLoop]
    rw [← A.le h1 a, ← A.le a h2]
    split
    · exact ⟨a, c⟩
    · exact sim_sampleLoop h1 h2 k b c

theorem sim_sampleParameter {m s lo hi : K} {m' s' lo' hi' : K'} (hm : r m m') (hs : r s s') (h1 : r lo lo') (h2 : r hi hi') {e : R.Eng} {e' : R'.Eng} (he : re e e') :
    r (sampleParameter R m s lo hi e).1 (sampleParameter R' m' s' lo' hi' e').1 ∧ re (sampleParameter R m s lo hi e).2 (sampleParameter R' m' s' lo' hi' e').2 := by
  unfold sampleParameter
  exact sim_sampleLoop A S h1 h2 100 (S.normal hm hs) he

theorem sim_sampleVec {b : Bounds K n} {b' : Bounds K' n} (hlo : VRel r b.lo b'.lo) (hhi : VRel r b.hi b'.hi) {m s : Fin n → K} {m' s' : Fin n → K'} (hm : VRel r m m')
    (hs : VRel r s s') : ∀ (is : List (Fin n)) {e : R.Eng} {e' : R'.Eng}, re e e' →
    List.Forall₂ r (sampleVec R b m s is e).1 (sampleVec R' b' m' s' is e').1 ∧ re (sampleVec R b m s is e).2 (sampleVec R' b' m' s' is e').2
  | [], e, e', he => ⟨.nil, he⟩
  | i :: is, e, e', he => by
    obtain ⟨a, c⟩ := sim_sampleParameter A S (hm i) (hs i) (hlo i) (hhi i) he
    simp only [sampleVec]
    generalize sampleParameter R (m i) (s i) (b.lo i) (b.hi i) e = y at a c ⊢
    generalize sampleParameter R' (m' i) (s' i) (b'.lo i) (b'.hi i) e' = y' at a c ⊢
    obtain ⟨a', c'⟩ := sim_sampleVec hlo hhi hm hs is c
    exact ⟨.cons a a', c'⟩

theorem sim_individual {b : Bounds K n} {b' : Bounds K' n} (hlo : VRel r b.lo b'.lo) (hhi : VRel r b.hi b'.hi) {s : Es K n} {s' : Es K' n} (hs : s.Rel r s') {d : R.Dist}
    {d' : R'.Dist} {e : R.Eng} {e' : R'.Eng} (hd : rd d d') (he : re e e') :
    List.Forall₂ r (sampleIndividual R b s d e).1 (sampleIndividual R' b' s' d' e').1 ∧ rd (sampleIndividual R b s d e).2.1 (sampleIndividual R' b' s' d' e').2.1 ∧
    re (sampleIndividual R b s d e).2.2 (sampleIndividual R' b' s' d' e').2.2 := by
  obtain ⟨a, h1, h2⟩ := S.draw hd he
  obtain ⟨h3, h4⟩ := sim_sampleVec A S hlo hhi (m := fun i => s.mean i + (R.draw d e).1 * s.mom i) (m' := fun i => s'.mean i + (R'.draw d' e').1 * s'.mom i)
    (fun i => A.add (hs.mean i) (A.mul a (hs.mom i))) (fun i => A.sqrt (A.add (hs.var i) (sim_squared A (hs.mom i)))) (List.finRange n) h2
  exact ⟨h3, h1, h4⟩

omit A S in
theorem forall₂_map' {α β γ δ : Type} {P : α → β → Prop} {Q : γ → δ → Prop} {f : α → γ} {g : β → δ} (h : ∀ x y, P x y → Q (f x) (g y)) :
    ∀ {l : List α} {l' : List β}, List.Forall₂ P l l' → List.Forall₂ Q (l.map f) (l'.map g)
  | _, _, .nil => .nil
  | _, _, .cons hx t => .cons (h _ _ hx) (forall₂_map' h t)

theorem sim_pop {b : Bounds K n} {b' : Bounds K' n} (hlo : VRel r b.lo b'.lo) (hhi : VRel r b.hi b'.hi) {s : Es K n} {s' : Es K' n} (hs : s.Rel r s') :
    ∀ (k : Nat) {d : R.Dist} {d' : R'.Dist} {e : R.Eng} {e' : R'.Eng}, rd d d' → re e e' →
    List.Forall₂ (List.Forall₂ r) (sampleLoopPop R b s k d e).1 (sampleLoopPop R' b' s' k d' e').1 ∧ re (sampleLoopPop R b s k d e).2 (sampleLoopPop R' b' s' k d' e').2
  | 0, d, d', e, e', hd, he => ⟨.nil, he⟩
  | k + 1, d, d', e, e', hd, he => by
    obtain ⟨h1, h2, h3⟩ := sim_individual A S hlo hhi hs hd he
    obtain ⟨h4, h5⟩ := sim_pop hlo hhi hs k h2 h3
    exact ⟨.cons (forall₂_map' (fun _ _ h => A.round8 h) h1) h4, h5⟩

end

theorem sim_vecOf {l : List K} {l' : List K'} (h : List.Forall₂ r l l') : VRel r (vecOf n l) (vecOf n l') := by
  intro i
  unfold vecOf
  generalize (i : Nat) = k
  induction h generalizing k with
  | nil => exact A.lit 0
  | cons hx _ ih =>
    cases k with
    | zero => exact hx
    | succ k => exact ih k

omit A in
theorem sim_gather {α β : Type} {P : α → β → Prop} {pop : List α} {pop' : List β} (h : List.Forall₂ P pop pop') :
    ∀ (is : List Nat) {sel : List α}, gather pop is = .ok sel → ∃ sel', gather pop' is = .ok sel' ∧ List.Forall₂ P sel sel'
  | [], sel, hs => by obtain rfl := Res.ok.inj hs; exact ⟨[], rfl, .nil⟩
  | i :: is, sel, hs => by
    simp only [gather] at hs ⊢
    cases hx : pop[i]? with
    | none => rw [hx] at hs; cases hs
    | some x =>
      rw [hx] at hs
      obtain ⟨xs, h1, h2⟩ := Res.bind_eq_ok.1 hs
      obtain rfl := Res.ok.inj h2
      obtain ⟨ys, h3, h4⟩ := sim_gather h is h1
      have : ∃ y, pop'[i]? = some y ∧ P x y := by
        clear hs h1 h2 h3
        induction h generalizing i with
        | nil => cases hx
        | cons hab _ ih =>
          cases i with
          | zero => cases hx; exact ⟨_, rfl, hab⟩
          | succ i => exact ih i hx
      obtain ⟨y, hy, hxy⟩ := this
      exact ⟨y :: ys, by rw [hy, h3]; rfl, .cons hxy h4⟩

omit A in
theorem sim_selected {α β : Type} {P : α → β → Prop} {pop : List α} {pop' : List β} (h : List.Forall₂ P pop pop') (mu : Int) (order : List Nat) {sel : List α}
    (hs : selected mu order pop = .ok sel) : ∃ sel', selected mu order pop' = .ok sel' ∧ List.Forall₂ P sel sel' := by
  unfold selected at hs ⊢
  split at hs
  · cases hs
  · rename_i hmu
    rw [if_neg hmu]
    split at hs
    · rename_i hl; rw [if_pos hl]; exact sim_gather h _ hs
    · cases hs

theorem sim_update {eps : K} {eps' : K'} (he : r eps eps') (hpos : ∀ x : K, Arith.lt eps x = true → Arith.eq x (lit 0 : K) = false) {mu : Int}
    (hmu : Arith.eq (lit (mu : ℚ)) (lit 0 : K) = false) {alg : EsAlg K} {alg' : EsAlg K'} (ha : EsAlg.Rel r alg alg') {s : Es K n} {s' : Es K' n} (hs : s.Rel r s')
    {sel : List (Fin n → K)} {sel' : List (Fin n → K')} (hl : List.Forall₂ (VRel r) sel sel') : (alg.updateWith eps mu s sel).Rel r (alg'.updateWith eps' mu s' sel') := by
  have hm : ∀ j, r (selMean sel mu j) (selMean sel' mu j) := fun j =>
    A.div (sim_foldl (R := VRel r) (fun _ _ _ _ h hx => A.add h (hx j)) hl (A.lit 0)) (A.lit _) hmu
  have hv : ∀ j, r (selVar eps s sel mu j) (selVar eps' s' sel' mu j) := fun j =>
    A.div (sim_foldl (R := VRel r) (fun _ _ _ _ h hx => A.add h (sim_squared A (A.sub (hx j) (sim_projected A he hpos hs.mean hs.mom hx j)))) hl (A.lit 0)) (A.lit _) hmu
  cases ha with
  | mes h1 h2 h3 h4 h5 =>
    simp only [EsAlg.updateWith, mesUpdateWith]
    rw [← A.lt (A.lit 0) h3]
    split
    · have hmom : ∀ j, r _ _ := fun j => sim_upd A (hs.mom j) (A.sub (hm j) (hs.mean j)) h3
      exact ⟨fun j => A.add (hs.mean j) (A.mul h1 (hmom j)), fun j => sim_upd A (hs.var j) (hv j) h2, hmom⟩
    · exact ⟨fun j => sim_upd A (hs.mean j) (hm j) h1, fun j => sim_upd A (hs.var j) (hv j) h2, hs.mom⟩
  | eva h1 h2 h3 h4 h5 =>
    have hd : ∀ j, r _ _ := fun j => A.sub (hm j) (hs.mean j)
    exact ⟨fun j => A.add (hs.mean j) (A.mul h1 (hd j)), fun j => sim_upd A (hs.var j) (hv j) h2, fun j => sim_upd A (hs.mom j) (hd j) h3⟩

/-- Searches in the two arithmetics. -/
theorem sim_search {R : Rng K} {R' : Rng K'} {re : R.Eng → R'.Eng → Prop} {rd : R.Dist → R'.Dist → Prop} (S : R.Sim r R' re rd) {b : Bounds K n} {b' : Bounds K' n}
    (hlo : VRel r b.lo b'.lo) (hhi : VRel r b.hi b'.hi) {eps : K} {eps' : K'} (he : r eps eps') (hpos : ∀ x : K, Arith.lt eps x = true → Arith.eq x (lit 0 : K) = false) {mu : Int}
    (hmu : Arith.eq (lit (mu : ℚ)) (lit 0 : K) = false) {alg : EsAlg K} {alg' : EsAlg K'} (ha : EsAlg.Rel r alg alg') (lambda : Nat) (info : ObjInfo) {f : (Fin n → K) → Dbl}
    {f' : (Fin n → K') → Dbl} (hf : ∀ {x y}, VRel r x y → f x = f' y) {s : Es K n} {s' : Es K' n} (hs : s.Rel r s') {e : R.Eng} {e' : R'.Eng} (hee : re e e') {ps t d}
    (h : Es.Search R b alg eps lambda mu info f s e ps t d) :
    ∃ ps' t' d', Es.Search R' b' alg' eps' lambda mu info f' s' e' ps' t' d' ∧ List.Forall₂ (List.Forall₂ (VRel r)) ps ps' ∧ t.Rel r t' ∧ re d d' := by
  induction h with
  | nil => exact ⟨[], s', e', .nil, .nil, hs, hee⟩
  | @snoc ps t d pop d₂ order t₂ h hp ho hu ih =>
    obtain ⟨ps', t', d', h1, h2, h3, h4⟩ := ih
    have hofs : r alg.ofs.1 alg'.ofs.1 ∧ r alg.ofs.2 alg'.ofs.2 := by cases ha <;> exact ⟨by assumption, by assumption⟩
    obtain ⟨g1, g2⟩ := sim_pop A S hlo hhi h3 lambda (S.normal hofs.1 hofs.2) h4
    unfold samplePopulation at hp
    rw [hp] at g1 g2
    dsimp only at g1 g2
    have gv : List.Forall₂ (VRel (n := n) r) (pop.map (vecOf n)) ((sampleLoopPop R' b' t' lambda (R'.normal alg'.ofs.1 alg'.ofs.2) d').1.map (vecOf n)) :=
      forall₂_map' (fun _ _ hx => sim_vecOf A hx) g1
    unfold updateDistribution at hu
    obtain ⟨sel, u1, u2⟩ := Res.bind_eq_ok.1 hu
    obtain rfl := Res.ok.inj u2
    obtain ⟨sel', v1, v2⟩ := sim_selected gv mu order u1
    have hfit : (sampleLoopPop R' b' t' lambda (R'.normal alg'.ofs.1 alg'.ofs.2) d').1.map (fun x => f' (vecOf n x)) = pop.map fun x => f (vecOf n x) := by
      symm
      clear hp ho hu u1 v1 gv h h1
      generalize (sampleLoopPop R' b' t' lambda (R'.normal alg'.ofs.1 alg'.ofs.2) d').1 = pop' at g1
      induction g1 with
      | nil => rfl
      | cons hx _ ih => simp only [List.map_cons, ih, hf (sim_vecOf A hx)]
    refine ⟨_, _, _, h1.snoc (pop := (sampleLoopPop R' b' t' lambda (R'.normal alg'.ofs.1 alg'.ofs.2) d').1) (order := order) (Prod.ext rfl rfl) (by rw [hfit]; exact ho) ?_, ?_,
      sim_update A he hpos hmu ha h3 v2, g2⟩
    · unfold updateDistribution
      rw [v1]; rfl
    · exact List.rel_append (R := List.Forall₂ (VRel r)) h2 (.cons gv .nil)


end Spot
