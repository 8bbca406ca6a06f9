import Verif.Lemmas.Cma

/-! # The populations of CMA-ES (C56) -/

namespace Spot

section
variable {K : Type} [Arith K] {n : Nat} {G : GaussSrc K}

/-- The state of the random numbers after `q` draws. -/
def drawn (G : GaussSrc K) (q : Nat) (e : G.St) : G.St := (fun e => (G.next e).2)^[q] e

theorem drawn_add (q r : Nat) (e : G.St) : drawn G r (drawn G q e) = drawn G (q + r) e := by
  unfold drawn
  rw [Nat.add_comm, Function.iterate_add_apply]

theorem drawN_rng : ∀ (k : Nat) (e : G.St), (drawN G k e).2 = drawn G k e ∧ (drawN G k e).1.length = k
  | 0, _ => ⟨rfl, rfl⟩
  | k + 1, e => by
    obtain ⟨h1, h2⟩ := drawN_rng k (G.next e).2
    refine ⟨?_, by rw [drawN, List.length_cons, h2]⟩
    rw [drawN, h1]
    rfl

theorem sampleLoop_rng (s : Cma G n) (d : Bool) : ∀ (k : Nat) (e : G.St), (s.sampleLoop d k e).2 = drawn G (k * n) e
  | 0, e => by simp [Cma.sampleLoop, drawn]
  | k + 1, e => by
    rw [Cma.sampleLoop, sampleLoop_rng s d k, (drawN_rng n e).1, drawn_add]
    congr 1
    ring

/-- The attempts for one individual. -/
theorem attempts_spec (tr : (Fin n → K) → Fin n → K) (b : Bounds K n) (k : Nat) : ∀ (m : Nat) (s : Cma G n), k < s.pop.length →
    ∃ q ≤ m * n, (Cma.attempts tr b k m s (s.pop.getD k fun _ => lit 0)).1.rng = drawn G q s.rng ∧
    (∀ j, j ≠ k → (Cma.attempts tr b k m s (s.pop.getD k fun _ => lit 0)).1.pop[j]? = s.pop[j]?) ∧
    (∀ t x, Cma.attempts tr b k m s (s.pop.getD k fun _ => lit 0) = (t, x, true) → b.feasible x = true ∧ ∃ y, t.pop[k]? = some y ∧ x = tr y) ∧
    (∀ t x, Cma.attempts tr b k m s (s.pop.getD k fun _ => lit 0) = (t, x, false) → t.pop[k]? = some x)
  | 0, s, hk => by
    refine ⟨0, by omega, rfl, fun j _ => rfl, fun t x h => (by cases h), fun t x h => ?_⟩
    cases h
    rw [List.getD_eq_getElem?_getD, List.getElem?_eq_getElem hk, Option.getD_some]
  | m + 1, s, hk => by
    unfold Cma.attempts
    by_cases hf : b.feasible (tr (s.pop.getD k fun _ => lit 0)) = true
    · rw [if_pos hf]
      refine ⟨0, by omega, rfl, fun j _ => rfl, fun t x h => ?_, fun t x h => by cases h⟩
      cases h
      exact ⟨hf, _, List.getElem?_eq_getElem hk, by rw [List.getD_eq_getElem?_getD, List.getElem?_eq_getElem hk, Option.getD_some]⟩
    · rw [if_neg hf]
      obtain ⟨q, h1, h2, h3, h4, h5⟩ := attempts_spec tr b k m (s.resampleSingle k) (by simpa [Cma.resampleSingle] using hk)
      refine ⟨n + q, ?_, ?_, fun j hj => ?_, h4, h5⟩
      · rw [Nat.succ_mul]; omega
      · rw [h2]
        show drawn G q ((drawN G n s.rng).2) = _
        rw [(drawN_rng n s.rng).1, drawn_add]
      · rw [h3 j hj]
        show (s.pop.set k _)[j]? = _
        rw [List.getElem?_set_ne (Ne.symm hj)]

theorem feasible_iff (b : Bounds K n) (v : Fin n → K) : b.feasible v = true ↔ ∀ i, Arith.lt (v i) (b.lo i) = false ∧ Arith.lt (b.hi i) (v i) = false := by
  unfold Bounds.feasible
  rw [List.all_eq_true]
  constructor
  · intro h i
    have := h i (List.mem_finRange i)
    simpa [Bool.not_eq_true', Bool.or_eq_false_iff] using this
  · intro h i _
    simp [h i]

theorem clamp_feasible (hirr : ∀ a : K, Arith.lt a a = false) (b : Bounds K n)
    (hle : ∀ {a c : K}, Arith.le a c = true → Arith.lt c a = false) (hb : ∀ i, Arith.lt (b.hi i) (b.lo i) = false) (v : Fin n → K) :
    b.feasible (b.clamp v) = true := by
  rw [feasible_iff]
  intro i
  unfold Bounds.clamp clamped
  split
  · rename_i h
    rw [Bool.and_eq_true] at h
    exact ⟨hle h.1, hle h.2⟩
  · split
    · exact ⟨hirr _, hb i⟩
    · rename_i h1
      split
      · exact ⟨hb i, hirr _⟩
      · rename_i h2
        exact ⟨by simpa using h1, by simpa using h2⟩

/-- One individual. -/
theorem bounded_spec (hirr : ∀ a : K, Arith.lt a a = false) (hle : ∀ {a c : K}, Arith.le a c = true → Arith.lt c a = false)
    (tr : (Fin n → K) → Fin n → K) (b : Bounds K n) (hb : ∀ i, Arith.lt (b.hi i) (b.lo i) = false) (s : Cma G n) (k : Nat) (hk : k < s.pop.length) :
    b.feasible (s.bounded tr b k).2 = true ∧ (∃ y, (s.bounded tr b k).1.pop[k]? = some y ∧ ((s.bounded tr b k).2 = tr y ∨ (s.bounded tr b k).2 = y)) ∧
    (∀ j, j ≠ k → (s.bounded tr b k).1.pop[j]? = s.pop[j]?) ∧ ∃ q ≤ 100 * n, (s.bounded tr b k).1.rng = drawn G q s.rng := by
  obtain ⟨q, h1, h2, h3, h4, h5⟩ := attempts_spec tr b k 100 s hk
  have hlen := (Cma.attempts_same tr b k 100 s (s.pop.getD k fun _ => lit 0)).popLen
  unfold Cma.bounded
  rcases hr : Cma.attempts tr b k 100 s (s.pop.getD k fun _ => lit 0) with ⟨t, x, f⟩
  rw [hr] at h2 h3 hlen
  cases f
  · refine ⟨clamp_feasible hirr b hle hb x, ⟨b.clamp x, ?_, .inr rfl⟩, fun j hj => ?_, q, h1, h2⟩
    · show (t.pop.set k _)[k]? = _
      rw [List.getElem?_set_self (by rw [hlen]; exact hk)]
    · show (t.pop.set k _)[j]? = _
      rw [List.getElem?_set_ne (Ne.symm hj)]
      exact h3 j hj
  · obtain ⟨g1, y, g2, g3⟩ := h4 t x hr
    exact ⟨g1, ⟨y, g2, .inl g3⟩, h3, q, h1, h2⟩

theorem boundedLoop_spec (hirr : ∀ a : K, Arith.lt a a = false) (hle : ∀ {a c : K}, Arith.le a c = true → Arith.lt c a = false)
    (tr : (Fin n → K) → Fin n → K) (b : Bounds K n) (hb : ∀ i, Arith.lt (b.hi i) (b.lo i) = false) : ∀ (ks : List Nat) (s : Cma G n), ks.Nodup →
    (∀ k ∈ ks, k < s.pop.length) →
    List.Forall₂ (fun k x => b.feasible x = true ∧ ∃ y, (Cma.boundedLoop tr b ks s).1.pop[k]? = some y ∧ (x = tr y ∨ x = y)) ks (Cma.boundedLoop tr b ks s).2 ∧
    (∀ j, j ∉ ks → (Cma.boundedLoop tr b ks s).1.pop[j]? = s.pop[j]?) ∧ ∃ q ≤ ks.length * (100 * n), (Cma.boundedLoop tr b ks s).1.rng = drawn G q s.rng
  | [], s, _, _ => ⟨.nil, fun _ _ => rfl, 0, by omega, rfl⟩
  | k :: ks, s, hnd, hk => by
    rw [List.nodup_cons] at hnd
    obtain ⟨g1, ⟨y, g2, g3⟩, g4, q, g5, g6⟩ := bounded_spec hirr hle tr b hb s k (hk k (by simp))
    have hlen := (s.bounded_same tr b k).popLen
    obtain ⟨r1, r2, q', r3, r4⟩ := boundedLoop_spec hirr hle tr b hb ks (s.bounded tr b k).1 hnd.2 (fun j hj => by rw [hlen]; exact hk j (by simp [hj]))
    refine ⟨.cons ⟨g1, y, ?_, g3⟩ r1, fun j hj => ?_, q + q', ?_, ?_⟩
    · show (Cma.boundedLoop tr b ks (s.bounded tr b k).1).1.pop[k]? = some y
      rw [r2 k hnd.1, g2]
    · show (Cma.boundedLoop tr b ks (s.bounded tr b k).1).1.pop[j]? = _
      simp only [List.mem_cons, not_or] at hj
      rw [r2 j hj.2, g4 j hj.1]
    · rw [List.length_cons, Nat.succ_mul]; omega
    · show (Cma.boundedLoop tr b ks (s.bounded tr b k).1).1.rng = _
      rw [r4, g6, drawn_add]

theorem sample_spec (hirr : ∀ a : K, Arith.lt a a = false) (hle : ∀ {a c : K}, Arith.le a c = true → Arith.lt c a = false)
    (tr : (Fin n → K) → Fin n → K) (b : Bounds K n) (hb : ∀ i, Arith.lt (b.hi i) (b.lo i) = false) (eig : Eig K n) (p : CmaPar K) (s : Cma G n) :
    (s.sample tr b eig p).2.length = p.lambda ∧ (∀ (k : Nat) (x : Fin n → K), (s.sample tr b eig p).2[k]? = some x → b.feasible x = true ∧
      ∃ y, (s.sample tr b eig p).1.pop[k]? = some y ∧ (x = tr y ∨ x = y)) ∧
    ∃ q, p.lambda * n ≤ q ∧ q ≤ p.lambda * n + p.lambda * (100 * n) ∧ (s.sample tr b eig p).1.rng = drawn G q s.rng := by
  have hlen : (s.samplePopulation eig p).pop.length = p.lambda := Cma.sampleLoop_length _ _ _ _
  obtain ⟨h1, -, q, h3, h4⟩ := boundedLoop_spec hirr hle tr b hb (List.range p.lambda) (s.samplePopulation eig p) List.nodup_range
    (fun k hk => by rw [hlen]; exact List.mem_range.1 hk)
  rw [List.length_range] at h3
  refine ⟨by rw [Cma.sample, ← h1.length_eq, List.length_range], fun k x hx => ?_, p.lambda * n + q, by omega, by omega, ?_⟩
  · obtain ⟨hk, rfl⟩ := List.getElem?_eq_some_iff.1 hx
    have hk2 : k < (List.range p.lambda).length := by rw [h1.length_eq]; exact hk
    have := h1.get hk2 hk
    simp only [List.get_eq_getElem, List.getElem_range] at this
    exact this
  · have : (s.samplePopulation eig p).rng = drawn G (p.lambda * n) s.rng := by
      show (Cma.sampleLoop _ _ _ _).2 = _
      rw [sampleLoop_rng, (s.prepare_same eig p).2.2.2.2]
    rw [Cma.sample, h4, this, drawn_add]

end

/-! ## Floating point -/

section
variable [Libm]

theorem dbl_irrefl (a : Dbl) : Arith.lt a a = false := by
  show Dbl.lt a a = false
  cases a <;> simp [Dbl.lt]

theorem dbl_le_not_lt {a c : Dbl} (h : Arith.le a c = true) : Arith.lt c a = false := by
  change Dbl.le a c = true at h
  show Dbl.lt c a = false
  cases a <;> cases c <;> simp_all [Dbl.le, Dbl.lt]

/-- `is_feasible` of the objective info is that of its bounds. -/
theorem feasible_ofInfo (info : ObjInfo) (v : Fin info.dim → Dbl) :
    info.isFeasible (List.ofFn v) = .ok ((Bounds.ofInfo info).feasible v) := by
  unfold ObjInfo.isFeasible Bounds.feasible Bounds.ofInfo
  dsimp only
  have key : ∀ (ps : List ParInfo) (v : Fin ps.length → Dbl), ObjInfo.feasibleLoop ps (List.ofFn v) =
      .ok ((List.finRange ps.length).all fun i => !(Dbl.lt (v i) (ps.get i).min || Dbl.lt (ps.get i).max (v i))) := by
    intro ps
    induction ps with
    | nil => intro v; rfl
    | cons p ps ih =>
      intro v
      show ObjInfo.feasibleLoop (p :: ps) (List.ofFn (n := ps.length + 1) v) = _
      rw [List.ofFn_succ]
      have e : (List.finRange (p :: ps).length) = 0 :: (List.finRange ps.length).map Fin.succ := List.finRange_succ
      rw [e, List.all_cons, List.all_map]
      unfold ObjInfo.feasibleLoop
      rw [ih]
      simp only [List.get_eq_getElem, Fin.val_zero, List.getElem_cons_zero]
      by_cases h : (Dbl.lt p.max (v 0) || Dbl.lt (v 0) p.min) = true
      · rw [if_pos h, Bool.or_comm, h]; rfl
      · rw [if_neg h, Bool.or_comm]
        rw [Bool.not_eq_true] at h
        rw [h]
        rfl
  exact key info.pars v

/-- `clamp`, too. -/
theorem clamp_ofInfo (info : ObjInfo) (v : Fin info.dim → Dbl) :
    info.clamp (List.ofFn v) = .ok (List.ofFn ((Bounds.ofInfo info).clamp v)) := by
  unfold ObjInfo.clamp Bounds.clamp Bounds.ofInfo clamped
  have key : ∀ (ps : List ParInfo) (v : Fin ps.length → Dbl), ObjInfo.clampLoop ps (List.ofFn v) = .ok (List.ofFn fun i => ObjInfo.clamp1 (ps.get i) (v i)) := by
    intro ps
    induction ps with
    | nil => intro v; rfl
    | cons p ps ih =>
      intro v
      show ObjInfo.clampLoop (p :: ps) (List.ofFn (n := ps.length + 1) v) = .ok (List.ofFn (n := ps.length + 1) _)
      rw [List.ofFn_succ, List.ofFn_succ]
      unfold ObjInfo.clampLoop
      rw [ih]
      rfl
  exact key info.pars v

/-- **C56.** Floating point. Whatever the state of the optimizer, the random numbers, the boundary transformer (`tr`) and the eigenvalue
decomposition: every one of the `lambda` vectors that `sample_population` passes to `set_values` satisfies `is_feasible`, provided no lower bound is above its upper
bound. Each is either the transformed individual of the internal population, or - if clamped - that individual itself. At most 100 resamplings of each
individual are drawn. -/
theorem C56_feasible {G : GaussSrc Dbl} (info : ObjInfo) (hb : ∀ i : Fin info.dim, Dbl.lt (info.pars.get i).max (info.pars.get i).min = false)
    (tr : (Fin info.dim → Dbl) → Fin info.dim → Dbl) (eig : Eig Dbl info.dim) (p : CmaPar Dbl) (s : Cma G info.dim) :
    (s.sample tr (Bounds.ofInfo info) eig p).2.length = p.lambda ∧
    (∀ (k : Nat) (x : Fin info.dim → Dbl), (s.sample tr (Bounds.ofInfo info) eig p).2[k]? = some x → info.isFeasible (List.ofFn x) = .ok true ∧
      ∃ y, (s.sample tr (Bounds.ofInfo info) eig p).1.pop[k]? = some y ∧ (x = tr y ∨ x = y)) ∧
    ∃ q, p.lambda * info.dim ≤ q ∧ q ≤ p.lambda * info.dim + p.lambda * (100 * info.dim) ∧
      (s.sample tr (Bounds.ofInfo info) eig p).1.rng = drawn G q s.rng := by
  obtain ⟨h1, h2, h3⟩ := sample_spec (fun a => dbl_irrefl a) (fun h => dbl_le_not_lt h) tr (Bounds.ofInfo info) hb eig p s
  refine ⟨h1, fun k x hx => ?_, h3⟩
  obtain ⟨h4, h5⟩ := h2 k x hx
  exact ⟨by rw [feasible_ofInfo, h4], h5⟩

end

/-- **C56.** The same in exact arithmetic: every coordinate is within its bounds. -/
theorem C56_within_bounds {n : Nat} {G : GaussSrc ℝ} (b : Bounds ℝ n) (hb : ∀ i, b.lo i ≤ b.hi i) (tr : (Fin n → ℝ) → Fin n → ℝ) (eig : Eig ℝ n)
    (p : CmaPar ℝ) (s : Cma G n) (x : Fin n → ℝ) (hx : x ∈ (s.sample tr b eig p).2) (i : Fin n) : b.lo i ≤ x i ∧ x i ≤ b.hi i := by
  obtain ⟨h1, h2, h3⟩ := sample_spec (K := ℝ) (fun a => by simp) (fun h => by simpa using h) tr b (fun i => by simpa using hb i) eig p s
  obtain ⟨k, hk⟩ := List.mem_iff_getElem?.1 hx
  have := (feasible_iff b x).1 (h2 k x hk).1 i
  simpa using this

end Spot
