import Verif.Lemmas.CmaSort
import Verif.Props.CmaParams
import Verif.Spec.Matrix

/-! # What sampling and updating change -/

namespace Spot

section
variable {K : Type} [Arith K] {n : Nat} {G : GaussSrc K}

/-- Everything but the population, the random numbers and the eigensystem. -/
structure Cma.Same (s t : Cma G n) : Prop where
  sigma : t.sigma = s.sigma
  mean : t.mean = s.mean
  xold : t.xold = s.xold
  C : t.C = s.C
  pc : t.pc = s.pc
  ps : t.ps = s.ps
  index : t.index = s.index

theorem Cma.Same.refl (s : Cma G n) : s.Same s := ⟨rfl, rfl, rfl, rfl, rfl, rfl, rfl⟩
theorem Cma.Same.trans {s t u : Cma G n} (h1 : s.Same t) (h2 : t.Same u) : s.Same u :=
  ⟨h2.1.trans h1.1, h2.2.trans h1.2, h2.3.trans h1.3, h2.4.trans h1.4, h2.5.trans h1.5, h2.6.trans h1.6, h2.7.trans h1.7⟩

/-- The eigensystem, generation and state, too. -/
structure Cma.SameE (s t : Cma G n) : Prop extends Cma.Same s t where
  B : t.B = s.B
  D : t.D = s.D
  gen : t.gen = s.gen
  state : t.state = s.state
  up : t.eigenUptodate = s.eigenUptodate
  genE : t.genOfEigen = s.genOfEigen
  popLen : t.pop.length = s.pop.length

theorem Cma.SameE.refl (s : Cma G n) : s.SameE s := ⟨.refl s, rfl, rfl, rfl, rfl, rfl, rfl, rfl⟩
theorem Cma.SameE.trans {s t u : Cma G n} (h1 : s.SameE t) (h2 : t.SameE u) : s.SameE u :=
  ⟨h1.toSame.trans h2.toSame, h2.2.trans h1.2, h2.3.trans h1.3, h2.4.trans h1.4, h2.5.trans h1.5, h2.6.trans h1.6, h2.7.trans h1.7, h2.8.trans h1.8⟩

theorem Cma.prepare_same (eig : Eig K n) (p : CmaPar K) (s : Cma G n) : s.Same (s.prepare eig p) ∧ (s.prepare eig p).gen = s.gen ∧
    (s.prepare eig p).state = s.state ∧ (s.prepare eig p).pop = s.pop ∧ (s.prepare eig p).rng = s.rng := by
  unfold Cma.prepare Cma.updateEigen
  split
  · exact ⟨.refl s, rfl, rfl, rfl, rfl⟩
  · split
    · exact ⟨⟨rfl, rfl, rfl, rfl, rfl, rfl, rfl⟩, rfl, rfl, rfl, rfl⟩
    · split
      · exact ⟨.refl s, rfl, rfl, rfl, rfl⟩
      · exact ⟨⟨rfl, rfl, rfl, rfl, rfl, rfl, rfl⟩, rfl, rfl, rfl, rfl⟩

theorem Cma.sampleLoop_length (s : Cma G n) (d : Bool) : ∀ (k : Nat) (e : G.St), (s.sampleLoop d k e).1.length = k
  | 0, _ => rfl
  | k + 1, e => by rw [Cma.sampleLoop, List.length_cons, Cma.sampleLoop_length s d k]

theorem Cma.resample_same (s : Cma G n) (k : Nat) : s.SameE (s.resampleSingle k) :=
  ⟨⟨rfl, rfl, rfl, rfl, rfl, rfl, rfl⟩, rfl, rfl, rfl, rfl, rfl, rfl, by simp [Cma.resampleSingle]⟩

theorem Cma.attempts_same (tr : (Fin n → K) → Fin n → K) (b : Bounds K n) (k : Nat) : ∀ (m : Nat) (s : Cma G n) (x : Fin n → K),
    s.SameE (Cma.attempts tr b k m s x).1
  | 0, s, x => .refl s
  | m + 1, s, x => by
    unfold Cma.attempts
    split
    · exact .refl s
    · exact (s.resample_same k).trans (Cma.attempts_same tr b k m _ _)

theorem Cma.bounded_same (tr : (Fin n → K) → Fin n → K) (b : Bounds K n) (s : Cma G n) (k : Nat) : s.SameE (s.bounded tr b k).1 := by
  unfold Cma.bounded
  have := Cma.attempts_same tr b k 100 s (s.pop.getD k fun _ => lit 0)
  rcases h : Cma.attempts tr b k 100 s (s.pop.getD k fun _ => lit 0) with ⟨t, x, f⟩
  rw [h] at this
  cases f
  · exact this.trans ⟨⟨rfl, rfl, rfl, rfl, rfl, rfl, rfl⟩, rfl, rfl, rfl, rfl, rfl, rfl, by simp [Cma.overwriteSingle]⟩
  · exact this

theorem Cma.boundedLoop_same (tr : (Fin n → K) → Fin n → K) (b : Bounds K n) : ∀ (ks : List Nat) (s : Cma G n), s.SameE (Cma.boundedLoop tr b ks s).1
  | [], s => .refl s
  | k :: ks, s => (s.bounded_same tr b k).trans (Cma.boundedLoop_same tr b ks _)

/-- What `sample_population` leaves unchanged, and the state afterwards. -/
theorem Cma.sample_same (tr : (Fin n → K) → Fin n → K) (b : Bounds K n) (eig : Eig K n) (p : CmaPar K) (s : Cma G n) :
    s.Same (s.sample tr b eig p).1 ∧ (s.sample tr b eig p).1.state = 1 ∧ (s.sample tr b eig p).1.pop.length = p.lambda ∧
    (s.sample tr b eig p).1.gen = if s.state = 3 ∨ s.gen = 0 then s.gen + 1 else s.gen := by
  have h := Cma.boundedLoop_same tr b (List.range p.lambda) (s.samplePopulation eig p)
  obtain ⟨h1, h2, h3, h4, h5⟩ := s.prepare_same eig p
  refine ⟨?_, h.state, ?_, ?_⟩
  · have h0 : s.Same (s.samplePopulation eig p) := ⟨h1.1, h1.2, h1.3, h1.4, h1.5, h1.6, h1.7⟩
    exact h0.trans h.toSame
  · refine h.popLen.trans ?_
    exact Cma.sampleLoop_length _ _ _ _
  · refine h.gen.trans ?_
    show (if (s.prepare eig p).state = 3 ∨ (s.prepare eig p).gen = 0 then _ else _) = _
    rw [h2, h3]

theorem Cma.adaptC_fields (p : CmaPar K) (s : Cma G n) (hs : Bool) : (s.adaptC p hs).sigma = s.sigma ∧ (s.adaptC p hs).mean = s.mean ∧
    (s.adaptC p hs).gen = s.gen ∧ (s.adaptC p hs).ps = s.ps ∧ (s.adaptC p hs).pc = s.pc ∧ (s.adaptC p hs).index = s.index ∧ (s.adaptC p hs).pop = s.pop ∧
    (s.adaptC p hs).xold = s.xold := by
  unfold Cma.adaptC
  split <;> exact ⟨rfl, rfl, rfl, rfl, rfl, rfl, rfl, rfl⟩

theorem Cma.update_cases (p : CmaPar K) (mn : Bool) (s : Cma G n) (fs : List Dbl) :
    (s.state = 1 ∧ fs.length = p.lambda ∧ s.update p mn fs = ((s.rank p (if mn then fs else fs.map Dbl.neg)).adapt p, .ok ())) ∨
    (¬ (s.state = 1 ∧ fs.length = p.lambda) ∧ s.update p mn fs = (s, .err)) := by
  have hl : (if mn = true then fs else List.map Dbl.neg fs).length = fs.length := by split <;> simp
  unfold Cma.update Cma.updateDistribution
  rw [hl]
  by_cases a : s.state = 1
  · by_cases c : fs.length = p.lambda
    · left; simp [a, c]
    · right; simp [a, c]
  · right
    refine ⟨fun h => a h.1, ?_⟩
    by_cases a3 : s.state = 3
    · simp [a3]
    · simp [a, a3]

theorem Cma.adapt_fields (p : CmaPar K) (s : Cma G n) : (s.adapt p).gen = s.gen ∧ (s.adapt p).state = 3 ∧ (s.adapt p).mean = s.newMean p ∧
    (s.adapt p).index = s.index ∧ (s.adapt p).pop = s.pop ∧ (s.adapt p).xold = s.mean ∧ (s.adapt p).ps = (s.paths p).ps ∧ (s.adapt p).pc = (s.paths p).pc ∧
    (s.adapt p).C = ((s.paths p).adaptC p ((s.paths p).hsig p)).C ∧
    (s.adapt p).sigma = s.sigma * Arith.exp ((Arith.sqrt (s.paths p).psxps / p.chiN - lit 1) * p.cs / p.damps) := by
  obtain ⟨h1, h2, h3, h4, h5, h6, h7, h8⟩ := Cma.adaptC_fields p (s.paths p) ((s.paths p).hsig p)
  refine ⟨h3, rfl, h2, h6, h7, h8, h4, h5, rfl, ?_⟩
  have : ((s.paths p).adaptC p ((s.paths p).hsig p)).psxps = (s.paths p).psxps := by unfold Cma.psxps; rw [h4]
  unfold Cma.adapt
  dsimp only
  rw [this, h1]
  rfl

end

end Spot
