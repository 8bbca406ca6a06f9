import Verif.Lemmas.CRef
import Verif.Props.CmaGauss

/-! # The random number generators of the two implementations -/

set_option linter.unusedSectionVars false

namespace Spot.Ref

variable {K : Type} [Arith K]

/-- The same state. -/
structure SameRnd (r : Rand K) (t : Rnd K) : Prop where
  ok : r.Ok
  aktseed : t.aktseed = r.aktseed
  aktrand : t.aktrand = r.aktrand
  rgrand : ∀ i < 32, t.rgrand i = r.rgrand.getD i 0
  stored : r.stored = if t.flgstored then some t.hold else none

theorem lcg_eq (s : Int) : lcg s = nextSeed s := rfl

theorem getD_set (l : List Int) (i j : Nat) (x : Int) (hi : i < l.length) : (l.set i x).getD j 0 = if j = i then x else l.getD j 0 := by
  rw [List.getD_eq_getElem?_getD, List.getD_eq_getElem?_getD, List.getElem?_set]
  by_cases h : i = j
  · subst h; simp [hi]
  · rw [if_neg h, if_neg (Ne.symm h)]

theorem uniform_same {r : Rand K} {t : Rnd K} (h : SameRnd r t) :
    ∃ r', r.uniform = .ok (t.uniform.1, r') ∧ SameRnd r' t.uniform.2 ∧ t.uniform.2.flgstored = t.flgstored := by
  obtain ⟨v, r', hn, -, hok, -⟩ := Rand.next_ok h.ok
  have h2 := h.ok.last
  obtain ⟨h5, h6⟩ := h2
  have hi : 0 ≤ r.aktrand.tdiv 67108865 ∧ r.aktrand.tdiv 67108865 < 32 := by
    rw [Int.tdiv_eq_ediv_of_nonneg (by omega)]; omega
  have hl := h.ok.size
  have hlt : (r.aktrand.tdiv 67108865).toNat < r.rgrand.length := by rw [hl]; omega
  have hv := h.rgrand (r.aktrand.tdiv 67108865).toNat (by omega)
  have hn' := hn
  unfold Rand.next at hn'
  dsimp only at hn'
  rw [if_pos hi.1, List.getElem?_eq_getElem hlt] at hn'
  simp only [Res.ok.injEq, Prod.mk.injEq] at hn'
  obtain ⟨rfl, rfl⟩ := hn'
  have hv' : t.rgrand (t.aktrand.tdiv 67108865).toNat = r.rgrand[(r.aktrand.tdiv 67108865).toNat] := by
    rw [h.aktrand, hv]; simp [List.getD_eq_getElem?_getD, hlt]
  refine ⟨{ r with aktseed := nextSeed r.aktseed, aktrand := r.rgrand[(r.aktrand.tdiv 67108865).toNat],
                   rgrand := r.rgrand.set (r.aktrand.tdiv 67108865).toNat (nextSeed r.aktseed) }, ?_, ?_, rfl⟩
  · unfold Rand.uniform
    rw [hn, Res.ok_bind]
    unfold Rnd.uniform unitOf
    dsimp only
    rw [hv']
  · unfold Rnd.uniform
    dsimp only
    refine { ok := hok, aktseed := by rw [h.aktseed]; rfl, aktrand := hv', rgrand := ?_, stored := h.stored }
    intro i hi'
    dsimp only
    rw [getD_set _ _ _ _ hlt, h.aktrand, h.aktseed]
    by_cases hc : i = (r.aktrand.tdiv 67108865).toNat
    · subst hc
      rw [set1_same, if_pos rfl]
      rfl
    · rw [set1_ne _ _ hc, if_neg hc, h.rgrand i hi']

theorem polar_same {r : Rand K} {t : Rnd K} (h : SameRnd r t) :
    ∃ r', r.pair = .ok (t.polar.1.1, t.polar.1.2.1, r') ∧ SameRnd r' t.polar.2 ∧ t.polar.2.flgstored = t.flgstored ∧
      again t.polar.1.2.2 = rejected t.polar.1.1 t.polar.1.2.1 ∧ t.polar.1.2.2 = t.polar.1.1 * t.polar.1.1 + t.polar.1.2.1 * t.polar.1.2.1 := by
  obtain ⟨r1, h1, h2, h3⟩ := uniform_same h
  obtain ⟨r2, h4, h5, h6⟩ := uniform_same h2
  refine ⟨r2, ?_, h5, h6.trans h3, rfl, rfl⟩
  unfold Rand.pair
  rw [h1, Res.ok_bind]
  dsimp only
  rw [h4, Res.ok_bind]
  rfl

theorem rounds_succ (t : Rnd K) : ∀ k, t.polar.2.rounds k = t.rounds (k + 1)
  | 0 => rfl
  | k + 1 => by rw [Rnd.rounds, rounds_succ t k]; rfl

theorem gauss_det_ref {t t1 t2 : Rnd K} {v1 v2 : K} (h1 : t.Gauss v1 t1) (h2 : t.Gauss v2 t2) : v1 = v2 ∧ t1 = t2 := by
  unfold Rnd.Gauss at h1 h2
  split at h1
  · rename_i hf
    rw [if_pos hf] at h2
    exact ⟨h1.1.trans h2.1.symm, h1.2.trans h2.2.symm⟩
  · rename_i hf
    rw [if_neg hf] at h2
    obtain ⟨k, a1, a2, a3⟩ := h1
    obtain ⟨j, b1, b2, b3⟩ := h2
    have hkj : k = j := by
      rcases Nat.lt_trichotomy k j with h | h | h
      · rw [b1 k h] at a2; cases a2
      · exact h
      · rw [a1 j h] at b2; cases b2
    subst hkj
    exact ⟨a3.1.trans b3.1.symm, a3.2.trans b3.2.symm⟩

theorem gauss_same {r r' : Rand K} {v : K} (hg : r.Gauss v r') : ∀ {t : Rnd K}, SameRnd r t → ∃ t', t.Gauss v t' ∧ SameRnd r' t' := by
  induction hg with
  | @stored r v hs =>
    intro t h
    have hst := h.stored
    rw [hs] at hst
    cases hf : t.flgstored with
    | false => rw [hf] at hst; cases hst
    | true =>
      rw [hf] at hst
      simp only [if_true, Option.some.injEq] at hst
      refine ⟨{ t with flgstored := false }, ?_, ?_⟩
      · unfold Rnd.Gauss; rw [hf, if_pos rfl]; exact ⟨hst, rfl⟩
      · exact ⟨⟨h.ok.seed, h.ok.last, h.ok.size, h.ok.table⟩, h.aktseed, h.aktrand, h.rgrand, rfl⟩
  | @accept r r1 x1 x2 hs hp ha =>
    intro t h
    obtain ⟨r2, h1, h2, h3, h4, h5⟩ := polar_same h
    rw [hp] at h1
    simp only [Res.ok.injEq, Prod.mk.injEq] at h1
    obtain ⟨rfl, rfl, rfl⟩ := h1
    have hst := h.stored
    rw [hs] at hst
    cases hf : t.flgstored with
    | true => rw [hf] at hst; cases hst
    | false =>
      refine ⟨{ t.polar.2 with flgstored := true, hold := gaussFactor (t.polar.1.1 * t.polar.1.1 + t.polar.1.2.1 * t.polar.1.2.1) * t.polar.1.1 }, ?_, ?_⟩
      · unfold Rnd.Gauss
        rw [hf, if_neg (by simp)]
        refine ⟨0, fun j hj => absurd hj (by omega), ?_, ?_⟩
        · exact h4.trans ha
        · exact ⟨rfl, rfl⟩
      · exact ⟨⟨h2.ok.seed, h2.ok.last, h2.ok.size, h2.ok.table⟩, h2.aktseed, h2.aktrand, h2.rgrand, rfl⟩
  | @reject r r1 r2 x1 x2 v hs hp hr hg ih =>
    intro t h
    obtain ⟨r3, h1, h2, h3, h4, h5⟩ := polar_same h
    rw [hp] at h1
    simp only [Res.ok.injEq, Prod.mk.injEq] at h1
    obtain ⟨rfl, rfl, rfl⟩ := h1
    have hst := h.stored
    rw [hs] at hst
    cases hf : t.flgstored with
    | true => rw [hf] at hst; cases hst
    | false =>
      have hk : SameRnd { r1 with stored := none } t.polar.2 :=
        ⟨⟨h2.ok.seed, h2.ok.last, h2.ok.size, h2.ok.table⟩, h2.aktseed, h2.aktrand, h2.rgrand, by rw [h3, hf]; rfl⟩
      obtain ⟨t', g1, g2⟩ := ih hk
      refine ⟨t', ?_, g2⟩
      unfold Rnd.Gauss at g1 ⊢
      rw [h3, hf, if_neg (by simp)] at g1
      rw [hf, if_neg (by simp)]
      obtain ⟨k, a1, a2, a3⟩ := g1
      rw [rounds_succ] at a2
      simp only [rounds_succ] at a3
      refine ⟨k + 1, ?_, a2, a3⟩
      intro j hj
      cases j with
      | zero => exact h4.trans hr
      | succ j => have := a1 j (by omega); rwa [rounds_succ] at this

theorem rnd_exists (hacc : MidAccepted K) (t : {t : Rnd K // ∃ r, SameRnd r t}) : ∃ p : K × {t : Rnd K // ∃ r, SameRnd r t}, t.1.Gauss p.1 p.2.1 := by
  obtain ⟨t, r, h⟩ := t
  obtain ⟨p, hp⟩ := gauss_exists hacc ⟨r, h.ok⟩
  obtain ⟨t', h1, h2⟩ := gauss_same hp h
  exact ⟨(p.1, ⟨t', _, h2⟩), h1⟩

/-- The generator of the reference implementation as a source of normally distributed numbers (cmaes.c:2442-2461): the states that agree with a state of the other generator. -/
noncomputable def refSrc (hacc : MidAccepted K) : GaussSrc K where
  St := {t : Rnd K // ∃ r, SameRnd r t}
  next t := Classical.choose (rnd_exists hacc t)

theorem refSrc_next (hacc : MidAccepted K) (t : {t : Rnd K // ∃ r, SameRnd r t}) :
    t.1.Gauss ((refSrc hacc).next t).1 ((refSrc hacc).next t).2.1 := Classical.choose_spec (rnd_exists hacc t)

theorem rand_sim (hacc : MidAccepted K) : (randSrc hacc).Sim (refSrc hacc) fun r t => SameRnd r.1 t.1 := by
  intro r t h
  obtain ⟨t', h1, h2⟩ := gauss_same (randSrc_next hacc r) h
  obtain ⟨e1, e2⟩ := gauss_det_ref h1 (refSrc_next hacc t)
  refine ⟨e1, ?_⟩
  show SameRnd ((randSrc hacc).next r).2.1 ((refSrc hacc).next t).2.1
  rw [← e2]
  exact h2

/-! ## Initialization -/

theorem halve_eq : ∀ (f s : Nat), s ≤ 2000000000 * 2 ^ f → halve f s = reduceSeed s
  | 0, s, h => by
    rw [reduceSeed, dif_neg (by omega)]
    rfl
  | f + 1, s, h => by
    rw [reduceSeed, halve]
    split
    · exact halve_eq f (s / 2) (by rw [pow_succ] at h; omega)
    · rfl

theorem forDown_succ {S : Type} (k : Nat) (f : Nat → S → S) (s : S) : forDown 0 (k + 1) f s = forDown 0 k f (f k s) := by
  unfold forDown
  rw [Nat.sub_zero, Nat.sub_zero, List.range'_concat, List.foldr_append]
  simp

theorem initRand_same : ∀ (k : Nat) (s : Int) (tab : List Int) (m : Nat → Int), tab.length = 32 → (∀ i, k ≤ i → i < 32 → m i = tab.getD i 0) →
    (forDown 0 k (fun i (x : Int × (Nat → Int)) => let a := lcg x.1; (a, if i < 32 then set1 x.2 i a else x.2)) (s, m)).1 = (initRand k s tab).1 ∧
    ∀ i < 32, (forDown 0 k (fun i (x : Int × (Nat → Int)) => let a := lcg x.1; (a, if i < 32 then set1 x.2 i a else x.2)) (s, m)).2 i = (initRand k s tab).2.getD i 0
  | 0, s, tab, m, hl, h => ⟨rfl, fun i hi => h i (Nat.zero_le _) hi⟩
  | k + 1, s, tab, m, hl, h => by
    rw [forDown_succ, initRand]
    dsimp only
    refine initRand_same k (nextSeed s) _ _ (by split <;> simp [hl]) ?_
    intro i h1 h2
    by_cases hk : k < 32
    · rw [if_pos hk, if_pos hk, getD_set _ _ _ _ (by omega)]
      by_cases hi : i = k
      · subst hi; simp [lcg_eq]
      · rw [set1_ne _ _ hi, if_neg hi]
        exact h i (by omega) h2
    · exact absurd h1 (by omega)

/-- For a 64 bit seed other than 0 (or a value of the clock other than 0), the generators start in the same state, whatever was in the memory. -/
theorem rnd_init_same (inseed clock : Nat) (m : Nat → Int) (hm : K) (h : 1 ≤ inseed ∨ 1 ≤ clock) (h1 : inseed < 2 ^ 64) (h2 : clock < 2 ^ 64) :
    SameRnd (Rand.init inseed clock) (Rnd.init inseed clock m hm).2 ∧ (Rnd.init inseed clock m hm).1 = reduceSeed (if inseed < 1 then clock else inseed) := by
  have hok := (Rand.init_ok (K := K) inseed clock h).1
  have hs := (reduceSeed_spec (if inseed < 1 then clock else inseed) (by split <;> omega)).1
  unfold Rnd.init Rnd.start
  dsimp only
  rw [halve_eq 64 _ (by split <;> omega), if_neg (by have := hs.1; omega)]
  refine ⟨?_, rfl⟩
  unfold Rand.init at hok ⊢
  obtain ⟨e1, e2⟩ := initRand_same 40 (reduceSeed (if inseed < 1 then clock else inseed) : Nat) (List.replicate 32 0) m (by simp) (fun i h3 h4 => absurd h3 (by omega))
  generalize initRand 40 ((reduceSeed (if inseed < 1 then clock else inseed) : Nat) : Int) (List.replicate 32 0) = p at hok e1 e2 ⊢
  generalize forDown 0 40 (fun i (x : Int × (Nat → Int)) => let a := lcg x.1; (a, if i < 32 then set1 x.2 i a else x.2)) _ = q at e1 e2 ⊢
  refine ⟨hok, e1, ?_, e2, rfl⟩
  show q.2 0 = p.2.headD 0
  rw [e2 0 (by omega)]
  cases p.2 <;> rfl

end Spot.Ref
