import Verif.Lemmas.CRefInit
import Verif.Lemmas.CRefRand
import Verif.Lemmas.CRefNan
import Verif.Props.CmaTotal
import Verif.Props.CmaEigen
import Verif.Props.Evolution

/-!
# C112: `cma_optimizer` computes what the reference implementation of CMA-ES computes

spot_test/c-cmaes/cmaes.c (Model/CRef.lean) is run side by side with `cma_optimizer` by spot_test/cma_optimizer_test.cpp. The theorems say that this comparison comes out equal, for
every dimension, seed, start, objective and number of steps: the same numbers, not approximately, as both do the same operations in the same order. The comparison is in
any arithmetic `K`, in particular in the real numbers and in doubles.
-/

set_option linter.unusedSectionVars false

namespace Spot.Ref

variable {K : Type} [Arith K] {n : Nat} {G H : GaussSrc K}

/-! ## A client of the reference implementation -/

/-- `pop[k]`, the individual as the client reads it. -/
def Cmaes.row (n : Nat) (t : Cmaes H) (k : Nat) : Fin n → K := fun i => t.rgrgx k i

/-- The client writes `x` to `pop[k]`. -/
def Cmaes.put (t : Cmaes H) (k : Nat) (x : Fin n → K) : Cmaes H := { t with rgrgx := fun a i => if h : a = k ∧ i < n then x ⟨i, h.2⟩ else t.rgrgx a i }

/-- The client calls `cmaes_ReSampleSingle` until the individual is within the bounds, at most `m` times, and otherwise writes the nearest vector within the bounds; `tr` is applied
first. -/
def Cmaes.retry (tr : (Fin n → K) → Fin n → K) (b : Bounds K n) (k : Nat) : Nat → Cmaes H → Res (Cmaes H × (Fin n → K))
  | 0, t => .ok (t.put k (b.clamp (t.row n k)), b.clamp (t.row n k))
  | m + 1, t => if b.feasible (tr (t.row n k)) then .ok (t, tr (t.row n k)) else t.reSampleSingle k >>= fun t => Cmaes.retry tr b k m t

/-- All individuals of `ks`. -/
def Cmaes.retryAll (tr : (Fin n → K) → Fin n → K) (b : Bounds K n) : List Nat → Cmaes H → Res (Cmaes H × List (Fin n → K))
  | [], t => .ok (t, [])
  | k :: ks, t => Cmaes.retry tr b k 100 t >>= fun r => Cmaes.retryAll tr b ks r.1 >>= fun rs => .ok (rs.1, r.2 :: rs.2)

/-- A population within the bounds, from a computer that is fast enough for the eigensystem (`slow` is `false`). -/
def Cmaes.sampleWithin (tr : (Fin n → K) → Fin n → K) (b : Bounds K n) (eig : (Nat → Nat → K) → (Nat → K) × (Nat → Nat → K)) (junk : Nat → K) (t : Cmaes H) :
    Res (Cmaes H × List (Fin n → K)) :=
  Cmaes.retryAll tr b (List.range t.sp.lambda.toNat) (t.samplePopulation eig false junk)

/-- The client's call that corresponds to a call of the C++ class. The reference implementation always minimizes. -/
def Cmaes.call (b : Bounds K n) (minimize : Bool) (eig : (Nat → Nat → K) → (Nat → K) × (Nat → Nat → K)) (junk : Nat → K) (t : Cmaes H) : CmaCall K n → Res (Cmaes H)
  | .sample tr => t.sampleWithin tr b eig junk >>= fun r => .ok r.1
  | .update fs => t.updateDistribution (fitAt (if minimize then fs else fs.map Dbl.neg))

/-- Several calls. -/
def Cmaes.calls (b : Bounds K n) (minimize : Bool) (eig : (Nat → Nat → K) → (Nat → K) × (Nat → Nat → K)) (junk : Nat → K) : List (CmaCall K n) → Cmaes H → Res (Cmaes H)
  | [], t => .ok t
  | c :: cs, t => t.call b minimize eig junk c >>= fun t => Cmaes.calls b minimize eig junk cs t

/-- The calls that did not throw an exception. -/
def accepted (cs : List (CmaCall K n × Res Unit)) : List (CmaCall K n) := (cs.filter fun c => decide (c.2 = .ok ())).map Prod.fst

/-- The same distribution, as far as a user of `cma_optimizer` can see it (`current_mean`, `current_std`, `current_covariance`, the population). -/
structure Agree (s : Cma G n) (t : Cmaes H) : Prop where
  mean : ∀ i : Fin n, s.mean i = t.rgxmean i
  sigma : s.sigma = t.sigma
  covariance : ∀ i j : Fin n, j ≤ i → s.C i j = t.C i j
  population : s.pop = (List.range t.sp.lambda.toNat).map (t.row n)

/-- Several calls of `cmaes_random_Gauss`. -/
inductive Rnd.Gausses : Rnd K → List K → Rnd K → Prop
  | nil (t : Rnd K) : Gausses t [] t
  | cons {t t1 t2 : Rnd K} {v : K} {vs : List K} (h : t.Gauss v t1) (ht : Gausses t1 vs t2) : Gausses t (v :: vs) t2

/-! ## Proofs -/

variable {R : G.St → H.St → Prop} {p : CmaPar K} {s : Cma G n} {t : Cmaes H}

theorem SameDist.row (h : SameDist R p s t) {k : Nat} (hk : k < p.lambda) : t.row n k = s.pop.getD k (fun _ => lit 0) := funext fun i => h.pop k hk i

theorem SameDist.agree (h : SameDist R p s t) : Agree s t where
  mean i := (h.mean i).symm
  sigma := h.sigma.symm
  covariance i j hij := (h.C i j hij).symm
  population := by
    rw [h.par.lam]
    apply List.ext_getElem
    · simp [h.popLen]
    · intro k h1 h2
      have hk : k < p.lambda := by rw [← h.popLen]; exact h1
      rw [List.getElem_map, List.getElem_range, h.row hk]
      simp [List.getD_eq_getElem?_getD, h1]

theorem put_same (h : SameDist R p s t) {k : Nat} (hk : k < p.lambda) (x : Fin n → K) : SameDist R p (s.overwriteSingle k x) (t.put k x) :=
  { h with
    par := h.par
    popLen := by simp [Cma.overwriteSingle, h.popLen]
    pop := fun a ha i => by
      show (if h : a = k ∧ (i : Nat) < n then _ else _) = (s.pop.set k x).getD a _ i
      rw [List.getD_eq_getElem?_getD, List.getElem?_set]
      by_cases hc : k = a
      · subst hc
        simp [h.popLen, ha]
      · rw [dif_neg (by omega), if_neg hc, h.pop a ha i, List.getD_eq_getElem?_getD] }

theorem attempts_x (tr : (Fin n → K) → Fin n → K) (b : Bounds K n) (k : Nat) : ∀ (m : Nat) (s : Cma G n) (x : Fin n → K), x = s.pop.getD k (fun _ => lit 0) →
    (Cma.attempts tr b k m s x).2.2 = false → (Cma.attempts tr b k m s x).2.1 = (Cma.attempts tr b k m s x).1.pop.getD k (fun _ => lit 0)
  | 0, s, x, hx, _ => hx
  | m + 1, s, x, hx, h => by
    unfold Cma.attempts at h ⊢
    split
    · rename_i hf; rw [if_pos hf] at h; cases h
    · rename_i hf
      rw [if_neg hf] at h
      exact attempts_x tr b k m _ _ rfl h

theorem retry_same (hR : G.Sim H R) (tr : (Fin n → K) → Fin n → K) (b : Bounds K n) {k : Nat} (hk : k < p.lambda) : ∀ (m : Nat) {s : Cma G n} {t : Cmaes H}, SameDist R p s t →
    ∃ t', Cmaes.retry tr b k m t = .ok (t', match Cma.attempts tr b k m s (s.pop.getD k fun _ => lit 0) with | (_, x, true) => x | (_, x, false) => b.clamp x) ∧
      SameDist R p (match Cma.attempts tr b k m s (s.pop.getD k fun _ => lit 0) with | (s, _, true) => s | (s, x, false) => s.overwriteSingle k (b.clamp x)) t'
  | 0, s, t, h => by
    unfold Cmaes.retry Cma.attempts
    rw [h.row hk]
    exact ⟨_, rfl, put_same h hk _⟩
  | m + 1, s, t, h => by
    unfold Cmaes.retry Cma.attempts
    rw [h.row hk]
    by_cases hf : b.feasible (tr (s.pop.getD k fun _ => lit 0)) = true
    · simp only [hf, if_true]
      exact ⟨_, rfl, h⟩
    · simp only [hf, if_false, Bool.false_eq_true]
      obtain ⟨t', h1, h2⟩ := resample_same' hR h hk
      rw [h1, Res.ok_bind]
      exact retry_same hR tr b hk m h2

theorem bounded_same (hR : G.Sim H R) (tr : (Fin n → K) → Fin n → K) (b : Bounds K n) {k : Nat} (hk : k < p.lambda) (h : SameDist R p s t) :
    ∃ t', Cmaes.retry tr b k 100 t = .ok (t', (s.bounded tr b k).2) ∧ SameDist R p (s.bounded tr b k).1 t' := by
  obtain ⟨t', h1, h2⟩ := retry_same hR tr b hk 100 h
  refine ⟨t', ?_, ?_⟩
  · rw [h1]
    unfold Cma.bounded
    rcases Cma.attempts tr b k 100 s (s.pop.getD k fun _ => lit 0) with ⟨s', x, _ | _⟩ <;> rfl
  · unfold Cma.bounded
    revert h2
    rcases Cma.attempts tr b k 100 s (s.pop.getD k fun _ => lit 0) with ⟨s', x, _ | _⟩ <;> exact fun h => h

theorem boundedLoop_same (hR : G.Sim H R) (tr : (Fin n → K) → Fin n → K) (b : Bounds K n) : ∀ (ks : List Nat) {s : Cma G n} {t : Cmaes H}, (∀ k ∈ ks, k < p.lambda) → SameDist R p s t →
    ∃ t', Cmaes.retryAll tr b ks t = .ok (t', (Cma.boundedLoop tr b ks s).2) ∧ SameDist R p (Cma.boundedLoop tr b ks s).1 t'
  | [], s, t, _, h => ⟨t, rfl, h⟩
  | k :: ks, s, t, hk, h => by
    obtain ⟨t1, h1, h2⟩ := bounded_same hR tr b (hk k (by simp)) h
    obtain ⟨t2, h3, h4⟩ := boundedLoop_same hR tr b ks (fun j hj => hk j (by simp [hj])) h2
    refine ⟨t2, ?_, h4⟩
    unfold Cmaes.retryAll
    rw [h1, Res.ok_bind, h3, Res.ok_bind]
    rfl

theorem within_same {eig : Eig K n} {eigR} (hR : G.Sim H R) (hE : SameEig eig eigR) (h : SameDist R p s t) (tr : (Fin n → K) → Fin n → K) (b : Bounds K n) (junk : Nat → K) :
    ∃ t', t.sampleWithin tr b eigR junk = .ok (t', (s.sample tr b eig p).2) ∧ SameDist R p (s.sample tr b eig p).1 t' := by
  unfold Cmaes.sampleWithin Cma.sample
  rw [h.par.lam]
  exact boundedLoop_same hR tr b _ (fun k hk => List.mem_range.1 hk) (sample_same' hR hE h false junk (.inr rfl))

theorem call_same {eig : Eig K n} {eigR} (hR : G.Sim H R) (hE : SameEig eig eigR) (h : SameDist R p s t) (b : Bounds K n) (minimize : Bool) (junk : Nat → K) (c : CmaCall K n) :
    ((s.call b minimize eig p c).2 = .ok () → ∃ t', t.call b minimize eigR junk c = .ok t' ∧ SameDist R p (s.call b minimize eig p c).1 t') ∧
    ((s.call b minimize eig p c).2 ≠ .ok () → (s.call b minimize eig p c).1 = s) := by
  cases c with
  | sample tr =>
    refine ⟨fun _ => ?_, fun hc => absurd rfl hc⟩
    obtain ⟨t', h1, h2⟩ := within_same hR hE h tr b junk
    refine ⟨t', ?_, h2⟩
    unfold Cmaes.call
    dsimp only
    rw [h1, Res.ok_bind]
  | update fs =>
    show ((s.updateDistribution p (if minimize then fs else fs.map Dbl.neg)).2 = _ → ∃ t', t.updateDistribution _ = _ ∧ SameDist R p (s.updateDistribution p (if minimize then fs else fs.map Dbl.neg)).1 t') ∧
      ((s.updateDistribution p (if minimize then fs else fs.map Dbl.neg)).2 ≠ _ → (s.updateDistribution p (if minimize then fs else fs.map Dbl.neg)).1 = s)
    generalize (if minimize then fs else fs.map Dbl.neg) = gs
    unfold Cma.updateDistribution
    split
    · exact ⟨fun hc => absurd hc (by simp), fun _ => rfl⟩
    · split
      · exact ⟨fun hc => absurd hc (by simp), fun _ => rfl⟩
      · split
        · rename_i hs
          exact ⟨fun _ => update_same' h hs gs, fun hc => absurd rfl hc⟩
        · exact ⟨fun hc => absurd hc (by simp), fun _ => rfl⟩

theorem calls_append (b : Bounds K n) (minimize : Bool) (eig : (Nat → Nat → K) → (Nat → K) × (Nat → Nat → K)) (junk : Nat → K) :
    ∀ (cs ds : List (CmaCall K n)) (t : Cmaes H), t.calls b minimize eig junk (cs ++ ds) = t.calls b minimize eig junk cs >>= fun t => t.calls b minimize eig junk ds
  | [], ds, t => rfl
  | c :: cs, ds, t => by
    rw [List.cons_append, Cmaes.calls, Cmaes.calls]
    cases t.call b minimize eig junk c with
    | ok t' => rw [Res.ok_bind, Res.ok_bind]; exact calls_append b minimize eig junk cs ds t'
    | err => rfl
    | ub => rfl

theorem calls_same {eig : Eig K n} {eigR} (hR : G.Sim H R) (hE : SameEig eig eigR) {s0 : Cma G n} {t0 : Cmaes H} (h0 : SameDist R p s0 t0) (b : Bounds K n) (minimize : Bool)
    (junk : Nat → K) {cs : List (CmaCall K n × Res Unit)} (hc : Cma.Calls b minimize eig p s0 cs s) :
    ∃ t, t0.calls b minimize eigR junk (accepted cs) = .ok t ∧ SameDist R p s t := by
  induction hc with
  | nil => exact ⟨t0, rfl, h0⟩
  | @snoc cs s hcs c ih =>
    obtain ⟨t, h1, h2⟩ := ih
    obtain ⟨g1, g2⟩ := call_same hR hE h2 b minimize junk c
    have happ : ∀ r : Res Unit, accepted (cs ++ [(c, r)]) = accepted cs ++ if r = .ok () then [c] else [] := by
      intro r
      unfold accepted
      rw [List.filter_append, List.map_append, List.filter_singleton]
      by_cases hr : r = .ok () <;> simp [hr]
    rw [happ, calls_append, h1, Res.ok_bind]
    by_cases hr : (s.call b minimize eig p c).2 = .ok ()
    · obtain ⟨t', h3, h4⟩ := g1 hr
      rw [if_pos hr]
      refine ⟨t', ?_, h4⟩
      show (t.call b minimize eigR junk c >>= fun t => Res.ok t) = _
      rw [h3, Res.ok_bind]
    · rw [if_neg hr, g2 hr]
      exact ⟨t, rfl, h2⟩

/-! ## The eigenvalue decomposition -/

theorem copyInner (N i : Nat) (C Q : Nat → Nat → K) : forUp 0 N (fun j Q => set2 (set2 Q j i (C i j)) i j (C i j)) Q =
    fun a b => if a = i ∧ b < N then C i b else if b = i ∧ a < N then C i a else Q a b := by
  refine forUp_inv (fun N u => u = fun a b => if a = i ∧ b < N then C i b else if b = i ∧ a < N then C i a else Q a b) (Nat.zero_le _) (by simp) ?_
  rintro j _ - - rfl
  funext a b
  by_cases h1 : a = i ∧ b = j
  · obtain ⟨rfl, rfl⟩ := h1; simp
  · rw [set2_ne _ _ h1]
    by_cases h2 : a = j ∧ b = i
    · obtain ⟨rfl, rfl⟩ := h2
      rw [set2_same]
      rw [if_neg (by omega), if_pos ⟨rfl, by omega⟩]
    · rw [set2_ne _ _ h2]
      by_cases h3 : a = i
      · subst h3
        by_cases h4 : b < j
        · rw [if_pos ⟨rfl, h4⟩, if_pos ⟨rfl, by omega⟩]
        · rw [if_neg (by omega), if_neg (show ¬ (a = a ∧ b < j + 1) by omega)]
          congr 1
          simp only [eq_iff_iff]
          omega
      · rw [if_neg (by omega), if_neg (show ¬ (a = i ∧ b < j + 1) by omega)]
        congr 1
        simp only [eq_iff_iff]
        omega

theorem copy_eq (N : Nat) (C Q : Nat → Nat → K) : copyC N C Q = fun a b => if a < N ∧ b < N then (if b ≤ a then C a b else C b a) else Q a b := by
  unfold copyC
  refine forUp_inv (fun N u => u = fun a b => if a < N ∧ b < N then (if b ≤ a then C a b else C b a) else Q a b) (Nat.zero_le _) (by simp) ?_
  rintro i _ - - rfl
  rw [copyInner]
  funext a b
  by_cases h1 : a = i ∧ b < i + 1
  · obtain ⟨rfl, h1⟩ := h1
    rw [if_pos ⟨rfl, h1⟩, if_pos ⟨by omega, by omega⟩, if_pos (by omega)]
  · rw [if_neg h1]
    by_cases h2 : b = i ∧ a < i + 1
    · obtain ⟨rfl, h2⟩ := h2
      rw [if_pos ⟨rfl, h2⟩, if_pos ⟨by omega, by omega⟩, if_neg (by omega)]
    · rw [if_neg h2]
      congr 1
      simp only [eq_iff_iff]
      omega

theorem eigen_same (fuel : Nat) (C : Fin n → Fin n → K) (A : Nat → Nat → K) (h : ∀ i j : Fin n, j ≤ i → A i j = C i j) : Eigen n fuel A = eigen n fuel (asRows C) := by
  unfold Eigen eigen
  rw [copy_eq]
  congr 3
  funext a b
  unfold asRows
  by_cases hab : a < n ∧ b < n
  · rw [if_pos hab]
    by_cases hc : b ≤ a
    · rw [if_pos hc, if_pos hc, dif_pos hab]
      exact h ⟨a, hab.1⟩ ⟨b, hab.2⟩ hc
    · rw [if_neg hc, if_neg hc, dif_pos ⟨hab.2, hab.1⟩]
      exact h ⟨b, hab.2⟩ ⟨a, hab.1⟩ (by show a ≤ b; omega)
  · rw [if_neg hab, dif_neg hab, dif_neg (by omega), ite_self]

/-- What `Eigen` of the C++ class returns, if it returns before a loop has made `fuel` rounds. -/
def eigC (n fuel : Nat) (C : Fin n → Fin n → K) : (Fin n → K) × (Fin n → Fin n → K) :=
  match eigenFin n fuel C with
  | some (.ok r) => r
  | _ => (fun _ => lit 0, fun _ _ => lit 0)

/-- What `Eigen` of the reference implementation returns, if it returns before a loop has made `fuel` rounds. -/
def eigRef (n fuel : Nat) (A : Nat → Nat → K) : (Nat → K) × (Nat → Nat → K) :=
  match Eigen n fuel A with
  | some (.ok r) => r
  | _ => (fun _ => lit 0, fun _ _ => lit 0)

/-- **C112, eigenvalues.** `Eigen` of the two implementations: for arrays `A` and `C` with the same lower triangle, one returns (or runs into an error, or has not returned) if and
only if the other does, and the eigenvalues and eigenvectors are the same. -/
theorem C112_eigen (fuel : Nat) (C : Fin n → Fin n → K) (A : Nat → Nat → K) (h : ∀ i j : Fin n, j ≤ i → A i j = C i j) :
    eigenFin n fuel C = (Eigen n fuel A).map fun r => r >>= fun v => .ok (fun i : Fin n => v.1 i, fun i j : Fin n => v.2 i j) := by
  unfold eigenFin
  rw [eigen_same fuel C A h]
  rcases eigen n fuel (asRows C) with _ | _ | _ | _ <;> rfl

theorem eig_fuel (n fuel : Nat) : SameEig (eigC n fuel : Eig K n) (eigRef n fuel) where
  same C A h := by
    unfold eigC eigRef eigenFin
    rw [eigen_same fuel C A h]
    rcases eigen n fuel (asRows C) with _ | _ | _ | _ <;> exact ⟨fun _ => rfl, fun _ _ => rfl⟩

/-- `eig` is what `Eigen` of the C++ class returns: every loop ends. -/
def Computes (eig : Eig K n) : Prop := ∀ C, ∃ fuel, ∀ fuel', fuel ≤ fuel' → eigenFin n fuel' C = some (.ok (eig C))

/-- `eig` is what `Eigen` of the reference implementation returns. -/
def ComputesRef (n : Nat) (eig : (Nat → Nat → K) → (Nat → K) × (Nat → Nat → K)) : Prop := ∀ A, ∃ fuel, ∀ fuel', fuel ≤ fuel' → ∃ v, Eigen n fuel' A = some (.ok v) ∧
  (∀ i < n, v.1 i = (eig A).1 i) ∧ ∀ i < n, ∀ j < n, v.2 i j = (eig A).2 i j

theorem eig_program {eig : Eig K n} {eigR : (Nat → Nat → K) → (Nat → K) × (Nat → Nat → K)} (h1 : Computes eig) (h2 : ComputesRef n eigR) : SameEig eig eigR where
  same C A h := by
    obtain ⟨f1, g1⟩ := h1 C
    obtain ⟨f2, g2⟩ := h2 A
    have e1 := g1 (max f1 f2) (le_max_left _ _)
    obtain ⟨v, e2, e3, e4⟩ := g2 (max f1 f2) (le_max_right _ _)
    rw [C112_eigen _ C A h, e2] at e1
    simp only [Option.map_some, Res.ok_bind, Option.some.injEq, Res.ok.injEq] at e1
    rw [← e1]
    exact ⟨fun i => (e3 i i.2).symm, fun i j => (e4 i i.2 j j.2).symm⟩

/-- In exact arithmetic, `Eigen` of both implementations always returns. -/
theorem C112_eigen_real (hn : 1 ≤ n) : (∃ eig : Eig ℝ n, Computes eig) ∧ ∃ eigR : (Nat → Nat → ℝ) → (Nat → ℝ) × (Nat → Nat → ℝ), ComputesRef n eigR := by
  obtain ⟨eig, h, -⟩ := C82_program_eig (G := ⟨Unit, fun _ => (0, ())⟩) hn
  refine ⟨⟨eig, h⟩, fun A => (fun i => if h : i < n then (eig fun i j => A i j).1 ⟨i, h⟩ else 0, fun i j => if h : i < n ∧ j < n then (eig fun i j => A i j).2 ⟨i, h.1⟩ ⟨j, h.2⟩ else 0), ?_⟩
  intro A
  obtain ⟨fuel, hf⟩ := h fun i j => A i j
  refine ⟨fuel, fun fuel' hle => ?_⟩
  have := hf fuel' hle
  rw [C112_eigen fuel' (fun i j => A i j) A (fun _ _ _ => rfl)] at this
  rcases hE : Eigen n fuel' A with _ | v | _ | _
  · rw [hE] at this; cases this
  · refine ⟨v, rfl, ?_⟩
    rw [hE] at this
    simp only [Option.map_some, Res.ok_bind, Option.some.injEq, Res.ok.injEq] at this
    dsimp only
    rw [← this]
    exact ⟨fun i hi => by rw [dif_pos hi], fun i hi j hj => by rw [dif_pos ⟨hi, hj⟩]⟩
  · rw [hE] at this; cases this
  · rw [hE] at this; cases this

/-! ## The theorems -/

/-- **C112, random numbers.** For a seed of 64 bits other than 0, both implementations draw the same sequence of normally distributed numbers, whatever was in the memory of the
generator of the reference implementation: the `k`-th call of `cmaes_random_Gauss` returns in one if and only if it returns in the other, with the same number. -/
theorem C112_random_numbers (hacc : MidAccepted K) (inseed clock : Nat) (m : Nat → Int) (hm : K) (h : 1 ≤ inseed) (h1 : inseed < 2 ^ 64) (h2 : clock < 2 ^ 64) (vs : List K) :
    (∃ r, (Rand.init inseed clock : Rand K).Gausses vs r) ↔ ∃ t, (Rnd.init inseed clock m hm).2.Gausses vs t := by
  have h0 := (rnd_init_same inseed clock m hm (.inl h) h1 h2).1
  generalize (Rand.init inseed clock : Rand K) = r at h0
  generalize (Rnd.init inseed clock m hm).2 = t at h0
  induction vs generalizing r t with
  | nil => exact ⟨fun _ => ⟨t, .nil t⟩, fun _ => ⟨r, .nil r⟩⟩
  | cons v vs ih =>
    obtain ⟨p, hp⟩ := gauss_exists hacc ⟨r, h0.ok⟩
    obtain ⟨t1, g1, g2⟩ := gauss_same hp h0
    constructor
    · rintro ⟨r2, hr⟩
      cases hr with
      | cons ha ht =>
        obtain ⟨e1, e2⟩ := gauss_det ha hp
        subst e1 e2
        obtain ⟨t2, h3⟩ := (ih _ _ g2).1 ⟨_, ht⟩
        exact ⟨t2, .cons g1 h3⟩
    · rintro ⟨t2, hr⟩
      cases hr with
      | cons ha ht =>
        obtain ⟨e1, e2⟩ := gauss_det_ref ha g1
        subst e1 e2
        obtain ⟨r2, h3⟩ := (ih _ _ g2).2 ⟨_, ht⟩
        exact ⟨r2, .cons hp h3⟩

/-- **C112, strategy parameters.** -/
theorem C112_parameters [Cmp K] (opt : Int) (modulo : K) (x sd : Nat → K) (m : K) :
    (∀ p, CmaPar.make K n opt modulo = .ok p → Regular n p → ∃ q, (Para.init n x sd opt modulo m).supplement = .ok q ∧
      q.lambda = p.lambda ∧ q.mu = p.mu ∧ (∀ k < p.mu, q.weights k = p.weights.getD k (lit 0)) ∧ q.mueff = p.mueff ∧ q.cs = p.cs ∧ q.ccumcov = p.ccumcov ∧ q.ccov = p.ccov ∧
      q.damps = p.damps ∧ q.modulo = p.modulo) ∧
    (CmaPar.make K n opt modulo = .err → (Para.init n x sd opt modulo m).supplement = .err) ∧
    (CmaPar.make K n opt modulo = .ub → (Para.init n x sd opt modulo m).supplement = .ub) := by
  refine ⟨?_, (para_fail opt modulo x sd m).1, (para_fail opt modulo x sd m).2⟩
  intro p hp hr
  obtain ⟨q, h1, h2, -⟩ := para_same opt modulo p hp hr x sd m
  exact ⟨q, h1, h2.lambda, h2.mu, h2.weights, h2.mueff, h2.cs, h2.ccumcov, h2.ccov, h2.damps, h2.modulo⟩

theorem start_same [Cmp K] (hacc : MidAccepted K) {opt : Int} {modulo : K} {p : CmaPar K} (hp : CmaPar.make K n opt modulo = .ok p) (hr : Regular n p) (x sd : Nat → K) (m : K)
    (e : (randSrc hacc).St) (d : (refSrc hacc).St) (he : SameRnd e.1 d.1) :
    ∃ q, (Para.init n x sd opt modulo m).supplement = .ok q ∧
      SameDist (fun (r : (randSrc hacc).St) (t : (refSrc hacc).St) => SameRnd r.1 t.1) p (Cma.init p (fun i => x i) (fun i => sd i) e : Cma (randSrc hacc) n) (Cmaes.init q d : Cmaes (refSrc hacc)) := by
  obtain ⟨q, h1, h2, h3, h4, h5⟩ := para_same opt modulo p hp hr x sd m
  exact ⟨q, h1, init_same h2 h5 _ _ (fun i => by rw [h3]) (fun i => by rw [h4]) he⟩

/-- **C112, calls.** Start both implementations with the same seed, options, mean and standard deviations. After any sequence of calls of `sample_population` and
`update_distribution`, the reference implementation, called in the same way, has the same mean, step size, covariance matrix and population, and the next population is again the same. -/
theorem C112_calls [Cmp K] (hacc : MidAccepted K) {opt : Int} {modulo : K} {p : CmaPar K} (hp : CmaPar.make K n opt modulo = .ok p) (hr : Regular n p) (x sd : Nat → K)
    {seed clock : Nat} (h1 : 1 ≤ seed) (h2 : seed < 2 ^ 64) (h3 : clock < 2 ^ 64) (memory : Nat → Int) (hold m : K)
    {eig : Eig K n} {eigR : (Nat → Nat → K) → (Nat → K) × (Nat → Nat → K)} (hE : SameEig eig eigR) (junk : Nat → K) (b : Bounds K n) (minimize : Bool)
    {cs : List (CmaCall K n × Res Unit)} {s : Cma (randSrc hacc) n}
    (hc : Cma.Calls b minimize eig p (Cma.init p (fun i => x i) (fun i => sd i) ⟨Rand.init seed clock, (Rand.init_ok seed clock (.inl h1)).1⟩ : Cma (randSrc hacc) n) cs s) :
    ∃ q t, (Para.init n x sd opt modulo m).supplement = .ok q ∧
      (Cmaes.init q ⟨(Rnd.init seed clock memory hold).2, _, (rnd_init_same seed clock memory hold (.inl h1) h2 h3).1⟩ : Cmaes (refSrc hacc)).calls b minimize eigR junk (accepted cs) = .ok t ∧
      Agree s t ∧ ∀ tr, ∃ t', t.sampleWithin tr b eigR junk = .ok (t', (s.sample tr b eig p).2) ∧ Agree (s.sample tr b eig p).1 t' := by
  obtain ⟨q, g1, g2⟩ := start_same hacc hp hr x sd m ⟨Rand.init seed clock, (Rand.init_ok seed clock (.inl h1)).1⟩
    ⟨(Rnd.init seed clock memory hold).2, _, (rnd_init_same seed clock memory hold (.inl h1) h2 h3).1⟩ (rnd_init_same seed clock memory hold (.inl h1) h2 h3).1
  obtain ⟨t, g3, g4⟩ := calls_same (rand_sim hacc) hE g2 b minimize junk hc
  refine ⟨q, t, g1, g3, g4.agree, fun tr => ?_⟩
  obtain ⟨t', g5, g6⟩ := within_same (rand_sim hacc) hE g4 tr b junk
  exact ⟨t', g5, g6.agree⟩

/-- **C112, exact arithmetic.** `C112_calls` for real numbers and the decomposition of the programs. -/
theorem C112_calls_real {opt : Int} {modulo : ℝ} {p : CmaPar ℝ} (hp : CmaPar.make ℝ n opt modulo = .ok p) (x sd : Nat → ℝ)
    {seed clock : Nat} (h1 : 1 ≤ seed) (h2 : seed < 2 ^ 64) (h3 : clock < 2 ^ 64) (memory : Nat → Int) (hold m : ℝ)
    {eig : Eig ℝ n} {eigR : (Nat → Nat → ℝ) → (Nat → ℝ) × (Nat → Nat → ℝ)} (hE : Computes eig) (hER : ComputesRef n eigR) (junk : Nat → ℝ) (b : Bounds ℝ n) (minimize : Bool)
    {cs : List (CmaCall ℝ n × Res Unit)} {s : Cma (randSrc midAccepted_real) n}
    (hc : Cma.Calls b minimize eig p (Cma.init p (fun i => x i) (fun i => sd i) ⟨Rand.init seed clock, (Rand.init_ok seed clock (.inl h1)).1⟩ : Cma (randSrc midAccepted_real) n) cs s) :
    ∃ q t, (Para.init n x sd opt modulo m).supplement = .ok q ∧
      (Cmaes.init q ⟨(Rnd.init seed clock memory hold).2, _, (rnd_init_same seed clock memory hold (.inl h1) h2 h3).1⟩ : Cmaes (refSrc midAccepted_real)).calls b minimize eigR junk
        (accepted cs) = .ok t ∧ Agree s t := by
  obtain ⟨q, t, g1, g2, g3, -⟩ := C112_calls midAccepted_real hp (regular_real n p) x sd h1 h2 h3 memory hold m (eig_program hE hER) junk b minimize hc
  exact ⟨q, t, g1, g2, g3⟩

/-! ## The optimizer -/

section
variable [Libm] {G H : GaussSrc Dbl} {R : G.St → H.St → Prop} {p : CmaPar Dbl}

/-- A generation of the reference implementation, by a client that evaluates `F` at the rounded individuals, counts failures as the worst value, and stops the generation if there
are more failures than allowed. -/
def Cmaes.generation (tr : (Fin n → Dbl) → Fin n → Dbl) (b : Bounds Dbl n) (eig : (Nat → Nat → Dbl) → (Nat → Dbl) × (Nat → Nat → Dbl)) (junk : Nat → Dbl) (info : ObjInfo)
    (maxErrors : Int) (F : Pt → Option Dbl) (t : Cmaes H) : Res (Cmaes H × List Pt) :=
  t.sampleWithin tr b eig junk >>= fun r =>
    let pop := toPoints r.2
    let res := pop.map F
    if (errorCount res : Int) > allowedErrors maxErrors res.length then .ok (r.1, pop)
    else r.1.updateDistribution (fitAt (if info.minimize then res.map fun v => v.getD info.worstFitness else (res.map fun v => v.getD info.worstFitness).map Dbl.neg)) >>= fun t => .ok (t, pop)

/-- `k` generations, with the populations. -/
def Cmaes.generations (tr : (Fin n → Dbl) → Fin n → Dbl) (b : Bounds Dbl n) (eig : (Nat → Nat → Dbl) → (Nat → Dbl) × (Nat → Nat → Dbl)) (junk : Nat → Dbl) (info : ObjInfo)
    (maxErrors : Int) (F : Pt → Option Dbl) (t : Cmaes H) : Nat → Res (Cmaes H × List (List Pt))
  | 0 => .ok (t, [])
  | k + 1 => t.generations tr b eig junk info maxErrors F k >>= fun r => r.1.generation tr b eig junk info maxErrors F >>= fun g => .ok (g.1, r.2 ++ [g.2])

theorem evaluateStep_facts (E : OptEnv) (s o : Opt) (pop : List Pt) (res : List (Option Dbl)) (c : Bool) (h : s.evaluateStep E pop res = (o, .ok c)) :
    o.vis.info = s.vis.info ∧ o.vis.maxErrors = s.vis.maxErrors ∧ (c = !decide ((errorCount res : Int) > allowedErrors s.vis.maxErrors res.length)) ∧
    (c = true → o.vis.curFitnesses = res.map fun r => r.getD s.vis.info.worstFitness) := by
  unfold Opt.evaluateStep at h
  dsimp only at h
  rw [signal_vis] at h
  split at h
  · rename_i hf
    cases h
    exact ⟨rfl, rfl, by simp [hf], fun hc => absurd hc (by simp)⟩
  · rename_i hf
    split at h
    · split at h
      · rename_i s' hs'
        have ht : ∀ v : Vis, (v.track E).info = v.info ∧ (v.track E).maxErrors = v.maxErrors ∧ (v.track E).curFitnesses = v.curFitnesses := by
          intro v; unfold Vis.track; split <;> exact ⟨rfl, rfl, rfl⟩
        have hv : s'.vis.info = s.vis.info ∧ s'.vis.maxErrors = s.vis.maxErrors ∧ s'.vis.curFitnesses = res.map fun r => r.getD s.vis.info.worstFitness := by
          split at hs'
          · split at hs'
            · cases hs'; exact ⟨rfl, rfl, rfl⟩
            · cases hs'
          · cases hs'; exact ⟨rfl, rfl, rfl⟩
        cases h
        obtain ⟨a1, a2, a3⟩ := ht s'.vis
        obtain ⟨b1, b2, b3⟩ := hv
        exact ⟨a1.trans b1, a2.trans b2, by simp [hf], fun _ => a3.trans b3⟩
      · cases h
    · cases h

theorem generation_same {E : OptEnv} {c : CmaCfg n} {eigR} (hR : G.Sim H R) (hE : SameEig c.eig eigR) {F : Pt → Option Dbl} {s s' : CmaOpt G n} {pop : List Pt} {t : Cmaes H}
    (h : SameDist R c.par s.cma t) (st : CmaOpt.Internal E c F s pop s') (junk : Nat → Dbl) :
    s'.opt.vis.info = s.opt.vis.info ∧ s'.opt.vis.maxErrors = s.opt.vis.maxErrors ∧
    ∃ t', t.generation c.tr c.bounds eigR junk s.opt.vis.info s.opt.vis.maxErrors F = .ok (t', pop) ∧ SameDist R c.par s'.cma t' := by
  obtain ⟨t1, g1, g2⟩ := within_same hR hE h c.tr c.bounds junk
  unfold Cmaes.generation
  rw [g1, Res.ok_bind]
  dsimp only
  cases st with
  | @ok d d' xs o hn hp he hu =>
    rw [hp] at g2 ⊢
    obtain ⟨f1, f2, f3, f4⟩ := evaluateStep_facts E _ _ _ _ _ he
    refine ⟨f1, f2, ?_⟩
    rw [if_neg (by simpa using f3.symm)]
    rw [f1, f4 rfl] at hu
    unfold Cma.update at hu
    generalize hgs : (if s.opt.vis.info.minimize = true then List.map (fun r : Option Dbl => r.getD s.opt.vis.info.worstFitness) (List.map F (toPoints xs))
      else List.map Dbl.neg (List.map (fun r : Option Dbl => r.getD s.opt.vis.info.worstFitness) (List.map F (toPoints xs)))) = gs at hu ⊢
    unfold Cma.updateDistribution at hu
    split at hu
    · cases hu
    · split at hu
      · cases hu
      · split at hu
        · rename_i hs
          cases hu
          obtain ⟨t2, k1, k2⟩ := update_same' g2 hs gs
          exact ⟨t2, by rw [k1]; rfl, k2⟩
        · cases hu
  | @failed d xs o hn hp he =>
    rw [hp] at g2 ⊢
    obtain ⟨f1, f2, f3, -⟩ := evaluateStep_facts E _ _ _ _ _ he
    refine ⟨f1, f2, ?_⟩
    rw [if_pos (by simpa using f3)]
    exact ⟨t1, rfl, g2⟩

theorem runs_same {E : OptEnv} {c : CmaCfg n} {eigR} (hR : G.Sim H R) (hE : SameEig c.eig eigR) {F : Pt → Option Dbl} {s s' : CmaOpt G n} {pops : List (List Pt)} {t : Cmaes H}
    (h : SameDist R c.par s.cma t) (st : CmaOpt.Runs E c F s pops s') (junk : Nat → Dbl) :
    s'.opt.vis.info = s.opt.vis.info ∧ s'.opt.vis.maxErrors = s.opt.vis.maxErrors ∧
    ∃ t', t.generations c.tr c.bounds eigR junk s.opt.vis.info s.opt.vis.maxErrors F pops.length = .ok (t', pops) ∧ SameDist R c.par s'.cma t' := by
  induction st with
  | nil => exact ⟨rfl, rfl, t, rfl, h⟩
  | @snoc ps pop s1 s2 hs st ih =>
    obtain ⟨e1, e2, t1, g1, g2⟩ := ih
    obtain ⟨e3, e4, t2, g3, g4⟩ := generation_same hR hE g2 st junk
    refine ⟨e3.trans e1, e4.trans e2, t2, ?_, g4⟩
    rw [List.length_append, List.length_singleton, Cmaes.generations, g1, Res.ok_bind, ← e1, ← e2, g3, Res.ok_bind]

/-- **C112, the optimizer.** A `cma_optimizer` for an objective `info` with the seed `seed`, whatever its stop conditions, reporters and number of allowed errors are (`o`), and the
reference implementation, started with the means and standard deviations of the parameters and the same seed and options, whose client evaluates the same objective: after any number
of steps they have evaluated the same populations and have the same mean, step size and covariance matrix. -/
theorem C112_optimizer (E : OptEnv) (info : ObjInfo) (hd : info.dim ≠ 0) {opt : Int} {modulo : Dbl} {p : CmaPar Dbl} {seed clock : Nat} (h1 : 1 ≤ seed) (h2 : seed < 2 ^ 64)
    (h3 : clock < 2 ^ 64) {s0 : CmaOpt (randSrc midAccepted_double) info.dim}
    (hm : CmaOpt.make info opt modulo (⟨Rand.init seed clock, (Rand.init_ok seed clock (.inl h1)).1⟩ : (randSrc midAccepted_double).St) = .ok (p, s0)) (hr : Regular info.dim p)
    (o : Opt) (ho : o.vis.info = info) (x sd : Nat → Dbl) (hx : ∀ k : Fin info.dim, x k = (info.pars.get k).mean) (hsd : ∀ k : Fin info.dim, sd k = (info.pars.get k).std)
    {eig : Eig Dbl info.dim} {eigR : (Nat → Nat → Dbl) → (Nat → Dbl) × (Nat → Nat → Dbl)} (hE : SameEig eig eigR) (tr : (Fin info.dim → Dbl) → Fin info.dim → Dbl)
    (b : Bounds Dbl info.dim) (F : Pt → Option Dbl) (memory : Nat → Int) (hold m : Dbl) (junk : Nat → Dbl) {pops : List (List Pt)} {s : CmaOpt (randSrc midAccepted_double) info.dim}
    (st : CmaOpt.Runs E { par := p, bounds := b, eig := eig, tr := tr } F ⟨o, s0.cma⟩ pops s) :
    ∃ q t, (Para.init info.dim x sd opt modulo m).supplement = .ok q ∧
      (Cmaes.init q ⟨(Rnd.init seed clock memory hold).2, _, (rnd_init_same seed clock memory hold (.inl h1) h2 h3).1⟩ : Cmaes (refSrc midAccepted_double)).generations tr b eigR junk info
        o.vis.maxErrors F pops.length = .ok (t, pops) ∧ Agree s.cma t := by
  unfold CmaOpt.make at hm
  rw [if_neg hd] at hm
  obtain ⟨p', hp, hm⟩ := Res.bind_eq_ok.1 hm
  split at hm
  · cases hm
  simp only [Res.ok.injEq, Prod.mk.injEq] at hm
  obtain ⟨rfl, rfl⟩ := hm
  have hx' : (fun k : Fin info.dim => (info.pars.get k).mean) = fun k : Fin info.dim => x k := funext fun k => (hx k).symm
  have hs' : (fun k : Fin info.dim => (info.pars.get k).std) = fun k : Fin info.dim => sd k := funext fun k => (hsd k).symm
  obtain ⟨q, g1, g2⟩ := start_same midAccepted_double hp hr x sd m ⟨Rand.init seed clock, (Rand.init_ok seed clock (.inl h1)).1⟩
    ⟨(Rnd.init seed clock memory hold).2, _, (rnd_init_same seed clock memory hold (.inl h1) h2 h3).1⟩ (rnd_init_same seed clock memory hold (.inl h1) h2 h3).1
  rw [← hx', ← hs'] at g2
  obtain ⟨-, -, t, g3, g4⟩ := runs_same (rand_sim midAccepted_double) (c := { par := p', bounds := b, eig := eig, tr := tr }) hE g2 st junk
  refine ⟨q, t, g1, ?_, g4.agree⟩
  dsimp only at g3
  rw [ho] at g3
  exact g3

/-! ## The loop of the test -/

/-- spot_test/cma_optimizer_test.cpp:34-50: a generation of the reference implementation for the objective `f`. -/
def Cmaes.testGeneration (n : Nat) (eig : (Nat → Nat → Dbl) → (Nat → Dbl) × (Nat → Nat → Dbl)) (junk : Nat → Dbl) (f : (Fin n → Dbl) → Dbl) (t : Cmaes H) : Res (Cmaes H) :=
  (t.samplePopulation eig false junk).updateDistribution (fitAt ((List.range t.sp.lambda.toNat).map fun i => f ((t.samplePopulation eig false junk).row n i)))

/-- spot_test/cma_optimizer_test.cpp:32-57: `k` generations. -/
def Cmaes.testLoop (n : Nat) (eig : (Nat → Nat → Dbl) → (Nat → Dbl) × (Nat → Nat → Dbl)) (junk : Nat → Dbl) (f : (Fin n → Dbl) → Dbl) (t : Cmaes H) : Nat → Res (Cmaes H)
  | 0 => .ok t
  | k + 1 => t.testLoop n eig junk f k >>= fun t => t.testGeneration n eig junk f

theorem retryAll_feasible (b : Bounds Dbl n) (t : Cmaes H) : ∀ ks : List Nat, (∀ k ∈ ks, b.feasible (t.row n k) = true) → Cmaes.retryAll (fun x => x) b ks t = .ok (t, ks.map (t.row n))
  | [], _ => rfl
  | k :: ks, h => by
    unfold Cmaes.retryAll Cmaes.retry
    rw [if_pos (h k (by simp)), Res.ok_bind]
    dsimp only
    rw [retryAll_feasible b t ks (fun j hj => h j (by simp [hj])), Res.ok_bind]
    rfl

theorem generation_test (b : Bounds Dbl n) (eig : (Nat → Nat → Dbl) → (Nat → Dbl) × (Nat → Nat → Dbl)) (junk : Nat → Dbl) (info : ObjInfo) (hmin : info.minimize = true)
    (maxErrors : Int) (hme : 0 ≤ maxErrors) (g : Pt → Dbl) (t t' : Cmaes H) (pop : List Pt)
    (hf : ∀ k < t.sp.lambda.toNat, b.feasible ((t.samplePopulation eig false junk).row n k) = true)
    (h : t.generation (fun x => x) b eig junk info maxErrors (fun x => some (g x)) = .ok (t', pop)) :
    t.testGeneration n eig junk (fun x => g ((List.ofFn x).map Arith.round8)) = .ok t' ∧
      pop = (List.range t.sp.lambda.toNat).map fun k => (List.ofFn ((t.samplePopulation eig false junk).row n k)).map Arith.round8 := by
  unfold Cmaes.generation Cmaes.sampleWithin at h
  rw [retryAll_feasible b _ _ (fun k hk => hf k (List.mem_range.1 hk)), Res.ok_bind] at h
  dsimp only at h
  have h0 : ∀ l : List Pt, errorCount (l.map fun x => some (g x)) = 0 := by
    intro l; unfold errorCount; simp [List.filter_map]
  have ha : ∀ k : Nat, ¬ ((0 : Nat) : Int) > allowedErrors maxErrors k := by
    intro k; unfold allowedErrors; rw [if_pos hme]; push_cast; omega
  rw [h0, if_neg (ha _), hmin] at h
  simp only [if_true] at h
  obtain ⟨t1, k1, k2⟩ := Res.bind_eq_ok.1 h
  simp only [Res.ok.injEq, Prod.mk.injEq] at k2
  obtain ⟨rfl, rfl⟩ := k2
  constructor
  · unfold Cmaes.testGeneration
    rw [← k1]
    congr 2
    simp [toPoints, List.map_map, Function.comp_def]
  · simp [toPoints, List.map_map, Function.comp_def]

theorem generations_test (b : Bounds Dbl n) (eig : (Nat → Nat → Dbl) → (Nat → Dbl) × (Nat → Nat → Dbl)) (junk : Nat → Dbl) (info : ObjInfo) (hmin : info.minimize = true)
    (maxErrors : Int) (hme : 0 ≤ maxErrors) (g : Pt → Dbl) (t : Cmaes H) : ∀ (k : Nat) (t' : Cmaes H) (pops : List (List Pt)),
    (∀ j < k, ∀ u, t.testLoop n eig junk (fun x => g ((List.ofFn x).map Arith.round8)) j = .ok u → ∀ i < u.sp.lambda.toNat, b.feasible ((u.samplePopulation eig false junk).row n i) = true) →
    t.generations (fun x => x) b eig junk info maxErrors (fun x => some (g x)) k = .ok (t', pops) →
    t.testLoop n eig junk (fun x => g ((List.ofFn x).map Arith.round8)) k = .ok t' ∧ pops.length = k ∧
    ∀ j < k, ∃ u, t.testLoop n eig junk (fun x => g ((List.ofFn x).map Arith.round8)) j = .ok u ∧
      pops[j]? = some ((List.range u.sp.lambda.toNat).map fun i => (List.ofFn ((u.samplePopulation eig false junk).row n i)).map Arith.round8)
  | 0, t', pops, _, h => by cases h; exact ⟨rfl, rfl, fun j hj => absurd hj (by omega)⟩
  | k + 1, t', pops, hf, h => by
    unfold Cmaes.generations at h
    obtain ⟨⟨t1, ps⟩, g1, h⟩ := Res.bind_eq_ok.1 h
    obtain ⟨⟨t2, pop⟩, g2, h⟩ := Res.bind_eq_ok.1 h
    simp only [Res.ok.injEq, Prod.mk.injEq] at h
    obtain ⟨rfl, rfl⟩ := h
    obtain ⟨e1, e2, e3⟩ := generations_test b eig junk info hmin maxErrors hme g t k t1 ps (fun j hj => hf j (by omega)) g1
    obtain ⟨e4, e5⟩ := generation_test b eig junk info hmin maxErrors hme g t1 t2 pop (hf k (by omega) t1 e1) g2
    refine ⟨by unfold Cmaes.testLoop; rw [e1, Res.ok_bind]; exact e4, by simp [e2], ?_⟩
    intro j hj
    rcases Nat.lt_succ_iff_lt_or_eq.1 hj with h | rfl
    · obtain ⟨u, k1, k2⟩ := e3 j h
      refine ⟨u, k1, ?_⟩
      rw [List.getElem?_append_left (by omega)]
      exact k2
    · refine ⟨t1, e1, ?_⟩
      rw [List.getElem?_append_right (by omega), e2, Nat.sub_self, e5]
      rfl

/-- **C112, the test.** Minimizing an objective `g` of which no evaluation fails, without a boundary transformer: if the individuals of the reference implementation are within the
bounds, the loop of the test (for the objective at the rounded parameters) and the steps of the optimizer agree: the optimizer evaluates the populations of the reference
implementation, and the distributions are the same. -/
theorem C112_test (E : OptEnv) (info : ObjInfo) (hd : info.dim ≠ 0) (hmin : info.minimize = true) {opt : Int} {modulo : Dbl} {p : CmaPar Dbl} {seed clock : Nat} (h1 : 1 ≤ seed)
    (h2 : seed < 2 ^ 64) (h3 : clock < 2 ^ 64) {s0 : CmaOpt (randSrc midAccepted_double) info.dim}
    (hm : CmaOpt.make info opt modulo (⟨Rand.init seed clock, (Rand.init_ok seed clock (.inl h1)).1⟩ : (randSrc midAccepted_double).St) = .ok (p, s0)) (hr : Regular info.dim p)
    (o : Opt) (ho : o.vis.info = info) (hme : 0 ≤ o.vis.maxErrors) (x sd : Nat → Dbl) (hx : ∀ k : Fin info.dim, x k = (info.pars.get k).mean)
    (hsd : ∀ k : Fin info.dim, sd k = (info.pars.get k).std)
    {eig : Eig Dbl info.dim} {eigR : (Nat → Nat → Dbl) → (Nat → Dbl) × (Nat → Nat → Dbl)} (hE : SameEig eig eigR)
    (b : Bounds Dbl info.dim) (g : Pt → Dbl) (memory : Nat → Int) (hold m : Dbl) (junk : Nat → Dbl) {pops : List (List Pt)} {s : CmaOpt (randSrc midAccepted_double) info.dim}
    (st : CmaOpt.Runs E { par := p, bounds := b, eig := eig, tr := fun x => x } (fun x => some (g x)) ⟨o, s0.cma⟩ pops s) :
    ∃ q, (Para.init info.dim x sd opt modulo m).supplement = .ok q ∧
      let t0 : Cmaes (refSrc midAccepted_double) := Cmaes.init q ⟨(Rnd.init seed clock memory hold).2, _, (rnd_init_same seed clock memory hold (.inl h1) h2 h3).1⟩
      let f : (Fin info.dim → Dbl) → Dbl := fun x => g ((List.ofFn x).map Arith.round8)
      (∀ j < pops.length, ∀ u, t0.testLoop info.dim eigR junk f j = .ok u → ∀ i < u.sp.lambda.toNat, b.feasible ((u.samplePopulation eigR false junk).row info.dim i) = true) →
      ∃ t, t0.testLoop info.dim eigR junk f pops.length = .ok t ∧ Agree s.cma t ∧
        ∀ j < pops.length, ∃ u, t0.testLoop info.dim eigR junk f j = .ok u ∧
          pops[j]? = some ((List.range u.sp.lambda.toNat).map fun i => (List.ofFn ((u.samplePopulation eigR false junk).row info.dim i)).map Arith.round8) := by
  obtain ⟨q, t, g1, g2, g3⟩ := C112_optimizer E info hd h1 h2 h3 hm hr o ho x sd hx hsd hE (fun x => x) b (fun x => some (g x)) memory hold m junk st
  refine ⟨q, g1, fun hf => ?_⟩
  obtain ⟨k1, -, k3⟩ := generations_test b eigR junk info hmin o.vis.maxErrors hme g _ _ _ _ hf g2
  exact ⟨t, k1, g3, k3⟩

/-- **C112, NaN.** In doubles, the condition of `C112_parameters`, `C112_calls` and `C112_optimizer` is met if the number of parameters and individuals is less than 2^63, the
variance effective number of parents `mueff` is a number of at least 1 and at most 2^64 (its exact value is between 1 and the number of parents), and `sqrt` is a number for
arguments that are not negative. -/
theorem C112_no_nan {opt : Int} {modulo : Dbl} {p : CmaPar Dbl} (hp : CmaPar.make Dbl n opt modulo = .ok p) (hn : 1 ≤ n) (hn2 : n ≤ 2 ^ 63) (hl : p.lambda ≤ 2 ^ 63)
    (hm : ∃ q : ℚ, p.mueff = .fin q ∧ 1 ≤ q ∧ q ≤ 2 ^ 64) (hs : ∀ q : ℚ, 0 ≤ q → Libm.sqrt (.fin q) ≠ .nan) : Regular n p := by
  unfold CmaPar.make at hp
  obtain ⟨l, h1, hp⟩ := Res.bind_eq_ok.1 hp
  obtain ⟨w, h2, hp⟩ := Res.bind_eq_ok.1 hp
  cases hp
  have h3 : 1 ≤ l := by
    unfold cmaSetWeights at h2
    dsimp only at h2
    split at h2
    · cases h2
    · rename_i h
      simp only [Bool.or_eq_true, decide_eq_true_eq, not_or] at h
      omega
  exact regular_double hn hn2 h3 hl hm rfl rfl hs

/-- **C112, for every number of steps.** Both programs make `k` steps, and agree: an objective whose bounds are not equal, at least 2 individuals. -/
theorem C112_steps (E : OptEnv) (info : ObjInfo) (hd : info.dim ≠ 0) (hd2 : info.dim ≤ 2 ^ 63) (hb : ∀ q ∈ info.pars, Dbl.eq q.min q.max = false) {opt : Int} (ho : 2 ≤ opt)
    (ho2 : opt ≤ 2 ^ 63) {modulo : Dbl} {seed clock : Nat} (h1 : 1 ≤ seed) (h2 : seed < 2 ^ 64) (h3 : clock < 2 ^ 64)
    (hm : ∀ p, CmaPar.make Dbl info.dim opt modulo = .ok p → ∃ q : ℚ, p.mueff = .fin q ∧ 1 ≤ q ∧ q ≤ 2 ^ 64) (hs : ∀ q : ℚ, 0 ≤ q → Libm.sqrt (.fin q) ≠ .nan)
    {eig : Eig Dbl info.dim} {eigR : (Nat → Nat → Dbl) → (Nat → Dbl) × (Nat → Nat → Dbl)} (hE : SameEig eig eigR) (tr : (Fin info.dim → Dbl) → Fin info.dim → Dbl)
    (b : Bounds Dbl info.dim) (F : Pt → Option Dbl) (x sd : Nat → Dbl) (hx : ∀ k : Fin info.dim, x k = (info.pars.get k).mean)
    (hsd : ∀ k : Fin info.dim, sd k = (info.pars.get k).std) (memory : Nat → Int) (hold m : Dbl) (junk : Nat → Dbl) (k : Nat) :
    ∃ (p : CmaPar Dbl) (s0 : CmaOpt (randSrc midAccepted_double) info.dim) (pops : List (List Pt)) (s : CmaOpt (randSrc midAccepted_double) info.dim) (q : Para Dbl)
      (t : Cmaes (refSrc midAccepted_double)),
      CmaOpt.make info opt modulo (⟨Rand.init seed clock, (Rand.init_ok seed clock (.inl h1)).1⟩ : (randSrc midAccepted_double).St) = .ok (p, s0) ∧
      CmaOpt.Runs E { par := p, bounds := b, eig := eig, tr := tr } F s0 pops s ∧ pops.length = k ∧
      (Para.init info.dim x sd opt modulo m).supplement = .ok q ∧
      (Cmaes.init q ⟨(Rnd.init seed clock memory hold).2, _, (rnd_init_same seed clock memory hold (.inl h1) h2 h3).1⟩ : Cmaes (refSrc midAccepted_double)).generations tr b eigR junk info
        0 F k = .ok (t, pops) ∧ Agree s.cma t := by
  obtain ⟨p, s0, g1, g2⟩ := (C75_constructor (G := randSrc midAccepted_double) info opt modulo (⟨Rand.init seed clock, (Rand.init_ok seed clock (.inl h1)).1⟩ : (randSrc midAccepted_double).St) ho).1 hb
  obtain ⟨e1, e2, e3⟩ := make_ok g1
  have hp := e3 (Nat.pos_of_ne_zero hd)
  obtain ⟨pops, s, g3, g4⟩ := C75_runs (G := randSrc midAccepted_double) E info (Nat.pos_of_ne_zero hd) { par := p, bounds := b, eig := eig, tr := tr } (by dsimp only; omega) F opt modulo _ s0 g1 k
  have hr := C112_no_nan hp (Nat.pos_of_ne_zero hd) hd2 (by omega) (hm p hp) hs
  obtain ⟨q, t, g5, g6, g7⟩ := C112_optimizer E info hd h1 h2 h3 g1 hr s0.opt (by rw [e1]; rfl) x sd hx hsd hE tr b F memory hold m junk g4
  refine ⟨p, s0, pops, s, q, t, g1, g4, g3, g5, ?_, g7⟩
  rw [← g3]
  have hme : s0.opt.vis.maxErrors = 0 := by rw [e1]; rfl
  rw [hme] at g6
  exact g6

/-! ## Where they differ -/

omit [Libm] in
theorem supplement_maxtime [Cmp K] (n : Nat) (opt : Int) (modulo : K) (x sd : Nat → K) (m : K) (q : Para K) (h : (Para.init n x sd opt modulo m).supplement = .ok q) :
    q.maxtime = lit (1 / 5) := by
  unfold Para.supplement at h
  obtain ⟨t1, h1, h⟩ := Res.bind_eq_ok.1 h
  obtain ⟨t2, h2, h⟩ := Res.bind_eq_ok.1 h
  simp only [Res.ok.injEq] at h
  have e1 : t1.maxtime = lit (-1) := by
    unfold Para.setLambda at h1
    split at h1
    · split at h1
      · cases h1; rfl
      · cases h1
    · cases h1; rfl
  have w : ∀ t t' : Para K, t.setWeights = .ok t' → t'.maxtime = t.maxtime := by
    intro t t' h
    unfold Para.setWeights at h
    dsimp only at h
    split at h
    · cases h
    · cases h; rfl
  have e2 : t2.maxtime = lit (-1) := by
    rw [w _ _ h2, ← e1]
    split <;> rfl
  have r : ∀ t : Para K, t.setRates.maxtime = t.maxtime := fun t => by unfold Para.setRates; dsimp only; repeat' split <;> try rfl
  have c : ∀ t : Para K, t.setCcov.maxtime = t.maxtime := fun t => by unfold Para.setCcov; dsimp only; repeat' split <;> try rfl
  have d : ∀ t : Para K, t.setDiagonal.maxtime = t.maxtime := fun t => by unfold Para.setDiagonal; split <;> rfl
  have l : ∀ t : Para K, t.setLimits.maxtime = t.maxtime := fun t => by unfold Para.setLimits; dsimp only; repeat' split <;> try rfl
  have a : ∀ t : Para K, t.setDamps.maxtime = t.maxtime := fun t => by unfold Para.setDamps; dsimp only; repeat' split <;> try rfl
  have o : ∀ t : Para K, t.maxtime = lit (-1) → t.setModulo.maxtime = lit (1 / 5) := fun t ht => by
    unfold Para.setModulo
    dsimp only
    have : (if Arith.lt t.modulo (lit 0) = true then { t with modulo := lit 1 / t.ccov / lit (t.N : ℚ) / lit 10 } else t).maxtime = lit (-1) := by split <;> exact ht
    rw [this, lt_m1_0, if_pos rfl]
  rw [← h]
  exact o _ (by rw [a, l, d, c, r, e2])

end

/-- **C112, difference.** In the reference implementation, a decomposition is skipped, and the old one is used, as long as the time spent for eigensystems is more than a fifth of the total
(`slow`): what it samples depends on the speed of the computer. `cma_optimizer` does not measure the time, and agrees with a computer that is fast. -/
theorem C112_timing (n : Nat) (opt : Int) (modulo : ℝ) (x sd : Nat → ℝ) (m : ℝ) (q : Para ℝ) (h : (Para.init n x sd opt modulo m).supplement = .ok q) {H : GaussSrc ℝ}
    (t : Cmaes H) (ht : t.sp = q) (eig : (Nat → Nat → ℝ) → (Nat → ℝ) × (Nat → Nat → ℝ)) (junk : Nat → ℝ) : t.updateEigensystem eig true junk = t := by
  have hq : t.sp.maxtime = lit (1 / 5) := by rw [ht]; exact supplement_maxtime n opt modulo x sd m q h
  unfold Cmaes.updateEigensystem
  split
  · rfl
  · split
    · rfl
    · rw [if_pos]
      rw [hq]
      simp only [lt_real, lit_real, Bool.and_true, decide_eq_true_eq]
      norm_num

/-- **C112, difference.** The C++ class only accepts values for a population that was sampled (C55); the reference implementation accepts values before the first population, and
changes its distribution. -/
theorem C112_update_before_sampling (p : CmaPar K) (s : Cma G n) (t : Cmaes H) (hs : s.state = 0) (ht : t.state = 0) (fs : List Dbl) :
    (s.updateDistribution p fs).2 = .err ∧ ∃ t', t.updateDistribution (fitAt fs) = .ok t' ∧ t'.state = 3 := by
  constructor
  · unfold Cma.updateDistribution
    rw [if_neg (by omega), if_neg (show ¬ s.state = 1 by omega)]
    split <;> rfl
  · unfold Cmaes.updateDistribution
    rw [if_neg (by omega)]
    exact ⟨_, rfl, rfl⟩

/-! ## Examples: the hypotheses can be met -/

section
open Classical

/-- Three parameters, 6 individuals, in exact arithmetic: parameters are defined, both decompositions are computed, and a generation can be made. -/
example : ∃ p : CmaPar ℝ, CmaPar.make ℝ 3 6 (-1) = .ok p ∧ (p.lambda : Int) = 6 := C51_defined 3 6 (-1) (by norm_num)

/-- In doubles, with a stand-in for the C library in which `log` and `sqrt` are the identity: two parameters and 4 individuals; the values compared are not NaN. -/
example : letI := noLibm; ∃ p : CmaPar Dbl, CmaPar.make Dbl 2 4 (.fin (-1)) = .ok p ∧ Regular 2 p ∧ p.mueff = .fin (bin64 (9 / 5)) := by
  letI := noLibm
  refine ⟨_, rfl, ?_, ?_⟩
  · constructor <;> decide +kernel
  · decide +kernel

/-- The hypotheses of `C112_steps` for the same stand-in: two parameters in [-5, 5], 4 individuals, seed 123, a decomposition that returns the diagonal, and a function with failures:
ten steps. -/
example (info : ObjInfo) (hd : info.dim = 2) (hb : ∀ q ∈ info.pars, Dbl.eq q.min q.max = false) (E : OptEnv) : letI := noLibm
    ∃ (s0 s : CmaOpt (randSrc midAccepted_double) info.dim) (p : CmaPar Dbl) (pops : List (List Pt)),
      CmaOpt.Runs E { par := p, bounds := ⟨fun _ => .fin (-5), fun _ => .fin 5⟩, eig := fun C => (fun i => C i i, fun i j => if i = j then .fin 1 else .fin 0), tr := fun x => x }
        (fun x => if Dbl.lt (x.getD 0 (.fin 0)) (.fin 0) then none else some (x.getD 1 (.fin 0))) s0 pops s ∧ pops.length = 10 := by
  letI := noLibm
  have hm : ∀ p, CmaPar.make Dbl info.dim 4 (.fin (-1)) = .ok p → ∃ q : ℚ, p.mueff = .fin q ∧ 1 ≤ q ∧ q ≤ 2 ^ 64 := by
    rw [hd]
    intro p hp
    have : (CmaPar.make Dbl 2 4 (.fin (-1)) : Res (CmaPar Dbl)) = .ok p := hp
    cases this
    refine ⟨bin64 (9 / 5), ?_, ?_, ?_⟩ <;> decide +kernel
  have hE : SameEig (n := info.dim) (K := Dbl) (fun C => (fun i => C i i, fun i j => if i = j then .fin 1 else .fin 0))
      (fun A => (fun i => A i i, fun i j => if i = j then .fin 1 else .fin 0)) :=
    ⟨fun C A h => ⟨fun i => h i i le_rfl, fun i j => by simp [Fin.ext_iff]⟩⟩
  obtain ⟨p, s0, pops, s, q, t, -, h2, h3, -⟩ := C112_steps E info (by omega) (by omega) hb (by norm_num : (2 : Int) ≤ 4) (by norm_num) (seed := 123) (clock := 0) (by norm_num) (by norm_num)
    (by norm_num) hm (fun q _ => by show (Dbl.fin q) ≠ .nan; simp) hE (fun x => x) ⟨fun _ => .fin (-5), fun _ => .fin 5⟩
    (fun x => if Dbl.lt (x.getD 0 (.fin 0)) (.fin 0) then none else some (x.getD 1 (.fin 0)))
    (fun i => if h : i < info.dim then (info.pars.get ⟨i, h⟩).mean else .fin 0) (fun i => if h : i < info.dim then (info.pars.get ⟨i, h⟩).std else .fin 0)
    (fun k => dif_pos k.2) (fun k => dif_pos k.2) (fun _ => 0) (.fin 0) (.fin 0) (fun _ => .fin 0) 10
  exact ⟨s0, s, p, pops, h2, h3⟩

end

end Spot.Ref
