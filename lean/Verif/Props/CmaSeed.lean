import Verif.Model.CmaSeed
import Verif.Props.CmaRandom
import Verif.Props.Points
import Verif.Props.CmaGauss
import Mathlib.Data.Finset.Card

/-! # C99: the seed an optimizer reports identifies its random numbers -/

namespace Spot

theorem used_spec (opt : Int) (device clock : Nat) (hc : 1 ≤ clock) :
    1 ≤ usedSeed opt device clock ∧ usedSeed opt device clock ≤ 2000000000 := by
  have := C49_seed (if storedSeed opt device < 1 then clock else storedSeed opt device) (by split <;> omega)
  exact ⟨this.1, this.2.1⟩

theorem stored_small (s device : Nat) (h1 : 1 ≤ s) (h2 : s ≤ 2000000000) : storedSeed (s : Int) device = s := by
  unfold storedSeed
  rw [if_neg (by omega)]
  omega

theorem used_small (s device clock : Nat) (h1 : 1 ≤ s) (h2 : s ≤ 2000000000) : usedSeed (s : Int) device clock = s := by
  unfold usedSeed
  rw [stored_small s device h1 h2, if_neg (by omega)]
  exact (C49_seed s h1).2.2 h2

/-- **C99.** Whatever the option, the random device and the clock were: the seed that the optimizer reports is between 1 and 2e9, and an optimizer constructed with it as option has the same
generator, whatever the device and the clock are then, and reports the same seed again. -/
theorem C99_reproduces {K : Type} (opt : Int) (device clock : Nat) (hc : 1 ≤ clock) (dim : Nat) (hd : 0 < dim) :
    let r := randomSeed dim opt device clock
    1 ≤ r ∧ r ≤ 2000000000 ∧ ∀ device' clock' : Nat,
      (Rand.ofOption r device' clock' : Rand K) = Rand.ofOption opt device clock ∧ randomSeed dim r device' clock' = r := by
  have hr : randomSeed dim opt device clock = (usedSeed opt device clock : Int) := by
    unfold randomSeed
    rw [if_neg (by omega)]
  obtain ⟨h1, h2⟩ := used_spec opt device clock hc
  dsimp only
  rw [hr]
  refine ⟨by exact_mod_cast h1, by exact_mod_cast h2, fun device' clock' => ⟨?_, ?_⟩⟩
  · unfold Rand.ofOption Rand.init
    rw [stored_small _ device' h1 h2, if_neg (by omega), (C49_seed _ h1).2.2 h2]
    rfl
  · unfold randomSeed
    rw [if_neg (by omega), used_small _ device' clock' h1 h2]

/-- **C99.** Seeds from 1 to 2e9 are used and reported as they are. -/
theorem C99_as_given (s dim device clock : Nat) (h1 : 1 ≤ s) (h2 : s ≤ 2000000000) : randomSeed dim s device clock = s := by
  unfold randomSeed
  rw [stored_small s device h1 h2, used_small s device clock h1 h2]
  split
  · rw [Int.bmod_eq_of_le] <;> omega
  · rfl

theorem nextSeed_inj {a b : Int} (ha : InM a) (hb : InM b) (h : nextSeed a = nextSeed b) : a = b := by
  have h1 := (C73_full_period a ha.1 (by have := ha.2; omega)).1
  have h2 := (C73_full_period b hb.1 (by have := hb.2; omega)).1
  have e : (2 ^ 31 - 2 : Nat) = 2147483645 + 1 := by norm_num
  rw [e, Function.iterate_succ, Function.comp] at h1 h2
  rw [← h1, h, h2]

theorem iterate_inj {a b : Int} (ha : InM a) (hb : InM b) : ∀ k, nextSeed^[k] a = nextSeed^[k] b → a = b := by
  intro k
  induction k with
  | zero => exact id
  | succ k ih =>
    intro h
    rw [Function.iterate_succ', Function.comp, Function.comp] at h
    exact ih (nextSeed_inj (nextSeed_iterate k a ha).2 (nextSeed_iterate k b hb).2 h)

/-- What one call reads and writes. -/
theorem next_shape {K : Type} {r r' : Rand K} {v : Int} (h : r.next = .ok (v, r')) : ∃ i : Nat, i = (r.aktrand.tdiv 67108865).toNat ∧ r.rgrand[i]? = some v ∧
    r'.rgrand = r.rgrand.set i (nextSeed r.aktseed) ∧ r'.aktseed = nextSeed r.aktseed ∧ r'.aktrand = v := by
  unfold Rand.next at h
  dsimp only at h
  split at h
  · split at h
    · rename_i w hw
      have e := Res.ok.inj h
      have e1 := congrArg Prod.fst e
      have e2 := congrArg Prod.snd e
      dsimp only at e1 e2
      subst e1
      subst e2
      exact ⟨_, rfl, hw, rfl, rfl, rfl⟩
    · cases h
  · cases h

theorem draws_succ {K : Type} {k : Nat} {r w : Rand K} {vs : List Int} (h : r.draws (k + 1) = .ok (vs, w)) :
    ∃ v r1 vs', r.next = .ok (v, r1) ∧ r1.draws k = .ok (vs', w) ∧ vs = v :: vs' := by
  rw [Rand.draws] at h
  cases h1 : r.next with
  | ub => rw [h1] at h; cases h
  | err => rw [h1] at h; cases h
  | ok p =>
    obtain ⟨v, r1⟩ := p
    rw [h1] at h
    replace h : (r1.draws k >>= fun w => Res.ok (v :: w.1, w.2)) = .ok (vs, w) := h
    cases h2 : r1.draws k with
    | ub => rw [h2] at h; cases h
    | err => rw [h2] at h; cases h
    | ok q =>
      obtain ⟨vs', w'⟩ := q
      rw [h2] at h
      have e := Res.ok.inj h
      have e1 := congrArg Prod.fst e
      have e2 := congrArg Prod.snd e
      dsimp only at e1 e2
      subst e2
      exact ⟨v, r1, vs', rfl, h2, e1.symm⟩

/-- While two generators with different seeds return the same numbers, they read a new entry of their tables in every call. -/
theorem sep {K : Type} : ∀ (m : Nat) (r r' w w' : Rand K) (vs : List Int) (T : Finset Nat), r.Ok → r'.Ok → r.aktrand = r'.aktrand → r.aktseed ≠ r'.aktseed →
    (∀ i ∈ T, i < 32 ∧ r.rgrand[i]? ≠ r'.rgrand[i]?) → r.draws m = .ok (vs, w) → r'.draws m = .ok (vs, w') → T.card + m ≤ 32 := by
  intro m
  induction m with
  | zero =>
    intro r r' w w' vs T _ _ _ _ hT _ _
    have hs : T ⊆ Finset.range 32 := fun i hi => Finset.mem_range.2 (hT i hi).1
    have := Finset.card_le_card hs
    rw [Finset.card_range] at this
    omega
  | succ m ih =>
    intro r r' w w' vs T hr hr' ha hs hT h h'
    obtain ⟨v, r1, vs1, h1, h2, rfl⟩ := draws_succ h
    obtain ⟨v', r1', vs1', h1', h2', e⟩ := draws_succ h'
    obtain ⟨rfl, rfl⟩ := List.cons.inj e
    obtain ⟨_, _, g1, -, g3, -⟩ := Rand.next_ok hr
    obtain ⟨_, _, g1', -, g3', -⟩ := Rand.next_ok hr'
    rw [h1] at g1
    rw [h1'] at g1'
    have e1 := congrArg Prod.snd (Res.ok.inj g1)
    have e1' := congrArg Prod.snd (Res.ok.inj g1')
    dsimp only at e1 e1'
    rw [← e1] at g3
    rw [← e1'] at g3'
    obtain ⟨i, hi, hv, ht, hs1, ha1⟩ := next_shape h1
    obtain ⟨i', hi', hv', ht', hs1', ha1'⟩ := next_shape h1'
    rw [← ha] at hi'
    have hii : i' = i := by rw [hi', hi]
    subst hii
    have hnot : i' ∉ T := by
      intro hmem
      exact (hT i' hmem).2 (by rw [hv, hv'])
    have hlt : i' < 32 := by
      have := (List.getElem?_eq_some_iff.1 hv).1
      rw [hr.size] at this
      exact this
    have hne : nextSeed r.aktseed ≠ nextSeed r'.aktseed := fun h => hs (nextSeed_inj hr.seed hr'.seed h)
    have := ih r1 r1' w w' vs1 (insert i' T) g3 g3' (by rw [ha1, ha1']) (by rw [hs1, hs1']; exact hne) ?_ h2 h2'
    · rw [Finset.card_insert_of_notMem hnot] at this
      omega
    · intro j hj
      rw [ht, ht']
      by_cases hji : j = i'
      · subst hji
        refine ⟨hlt, ?_⟩
        rw [List.getElem?_set_self (by rw [hr.size]; exact hlt), List.getElem?_set_self (by rw [hr'.size]; exact hlt)]
        intro h
        exact hne (Option.some.inj h)
      · have hjT : j ∈ T := by
          rcases Finset.mem_insert.1 hj with h | h
          · exact absurd h hji
          · exact h
        refine ⟨(hT j hjT).1, ?_⟩
        rw [List.getElem?_set_ne (Ne.symm hji), List.getElem?_set_ne (Ne.symm hji)]
        exact (hT j hjT).2

/-- **C99.** Two optimizers that report different seeds get different random numbers: their first 34 uniform numbers are not the same, and after any number of calls the states of their
generators are not the same. -/
theorem C99_distinct {K : Type} (dim : Nat) (hd : 0 < dim) (opt opt' : Int) (device device' clock clock' : Nat) (hc : 1 ≤ clock) (hc' : 1 ≤ clock')
    (hne : randomSeed dim opt device clock ≠ randomSeed dim opt' device' clock') :
    (∀ vs vs' w w', (Rand.ofOption opt device clock : Rand K).draws 34 = .ok (vs, w) → (Rand.ofOption opt' device' clock' : Rand K).draws 34 = .ok (vs', w') → vs ≠ vs') ∧
    ∀ k vs vs' w w', (Rand.ofOption opt device clock : Rand K).draws k = .ok (vs, w) → (Rand.ofOption opt' device' clock' : Rand K).draws k = .ok (vs', w') →
      w.aktseed ≠ w'.aktseed := by
  have hu : usedSeed opt device clock ≠ usedSeed opt' device' clock' := by
    intro h
    apply hne
    unfold randomSeed
    rw [if_neg (by omega), if_neg (by omega), h]
  have o1 := Rand.init_ok (K := K) (storedSeed opt device) clock (Or.inr hc)
  have o2 := Rand.init_ok (K := K) (storedSeed opt' device') clock' (Or.inr hc')
  obtain ⟨s1, t1, -⟩ := o1
  obtain ⟨s2, t2, -⟩ := o2
  have m1 : InM (usedSeed opt device clock : Int) := by
    obtain ⟨a, b⟩ := used_spec opt device clock hc
    exact ⟨by omega, by omega⟩
  have m2 : InM (usedSeed opt' device' clock' : Int) := by
    obtain ⟨a, b⟩ := used_spec opt' device' clock' hc'
    exact ⟨by omega, by omega⟩
  have hseed : (Rand.ofOption opt device clock : Rand K).aktseed ≠ (Rand.ofOption opt' device' clock' : Rand K).aktseed := by
    unfold Rand.ofOption
    rw [t1, t2]
    intro h
    exact hu (by exact_mod_cast iterate_inj m1 m2 40 h)
  change (Rand.ofOption opt device clock : Rand K).Ok at s1
  change (Rand.ofOption opt' device' clock' : Rand K).Ok at s2
  clear t1 t2
  generalize (Rand.ofOption opt device clock : Rand K) = r at s1 hseed ⊢
  generalize (Rand.ofOption opt' device' clock' : Rand K) = r' at s2 hseed ⊢
  refine ⟨?_, ?_⟩
  · intro vs vs' w w' h h' e
    subst e
    obtain ⟨v, r1, vs1, h1, h2, rfl⟩ := draws_succ h
    obtain ⟨v', r1', vs1', h1', h2', e⟩ := draws_succ h'
    obtain ⟨rfl, rfl⟩ := List.cons.inj e
    obtain ⟨_, _, g1, -, g3, -⟩ := Rand.next_ok s1
    obtain ⟨_, _, g1', -, g3', -⟩ := Rand.next_ok s2
    rw [h1] at g1
    rw [h1'] at g1'
    have e1 := congrArg Prod.snd (Res.ok.inj g1)
    have e1' := congrArg Prod.snd (Res.ok.inj g1')
    dsimp only at e1 e1'
    rw [← e1] at g3
    rw [← e1'] at g3'
    obtain ⟨i, -, -, -, hs1, ha1⟩ := next_shape h1
    obtain ⟨i', -, -, -, hs1', ha1'⟩ := next_shape h1'
    have := sep 33 r1 r1' w w' vs1 ∅ g3 g3' (by rw [ha1, ha1']) (by rw [hs1, hs1']; exact fun h => hseed (nextSeed_inj s1.seed s2.seed h)) (by simp) h2 h2'
    simp at this
  · intro k vs vs' w w' h h' e
    obtain ⟨_, _, g1, -, -, -, g2⟩ := draws_ok k r s1
    obtain ⟨_, _, g1', -, -, -, g2'⟩ := draws_ok k r' s2
    rw [h] at g1
    rw [h'] at g1'
    have e1 := congrArg Prod.snd (Res.ok.inj g1)
    have e1' := congrArg Prod.snd (Res.ok.inj g1')
    dsimp only at e1 e1'
    rw [← e1] at g2
    rw [← e1'] at g2'
    rw [g2, g2'] at e
    exact hseed (iterate_inj s1.seed s2.seed k e)

theorem intString_inj {a b : Int} (h : (toString a).toList = (toString b).toList) : a = b := by
  have hd : ∀ (n : Nat) (l : List Char), (toString n).toList ≠ '-' :: l := by
    intro n l e
    rw [Nat.toString_eq_repr, Nat.toList_repr] at e
    have := Nat.isDigit_of_mem_toDigits (b := 10) (n := n) (c := '-') (by norm_num) (by norm_num) (by rw [e]; exact List.mem_cons_self)
    exact absurd this (by decide)
  have hs : ∀ n : Nat, (toString (Int.negSucc n)).toList = '-' :: (toString (n + 1)).toList := by
    intro n
    show ("-" ++ (n + 1).repr).toList = _
    rw [String.toList_append]
    rfl
  cases a with
  | ofNat m =>
    cases b with
    | ofNat n => exact congrArg Int.ofNat (toString_inj h)
    | negSucc n =>
      rw [hs n] at h
      exact absurd h (hd m _)
  | negSucc m =>
    cases b with
    | ofNat n =>
      rw [hs m] at h
      exact absurd h.symm (hd n _)
    | negSucc n =>
      rw [hs m, hs n] at h
      have := toString_inj (List.cons.inj h).2
      exact congrArg Int.negSucc (by omega)

/-- **C99.** The name of an optimizer tells its seed: for the same objective, names are equal exactly if the reported seeds are. -/
theorem C99_name (info : ObjInfo) (opt opt' : Int) (device device' clock clock' : Nat) :
    cmaName info opt device clock = cmaName info opt' device' clock' ↔ randomSeed info.dim opt device clock = randomSeed info.dim opt' device' clock' := by
  constructor
  · intro h
    unfold cmaName at h
    have := List.append_cancel_left h
    exact intString_inj this
  · intro h
    unfold cmaName
    rw [h]

theorem internal_det [Libm] {E : OptEnv} {n : Nat} {G : GaussSrc Dbl} {c : CmaCfg n} {F : Pt → Option Dbl} {s t t' : CmaOpt G n} {pop pop' : List Pt}
    (h : CmaOpt.Internal E c F s pop t) (h' : CmaOpt.Internal E c F s pop' t') : pop = pop' ∧ t = t' := by
  cases h with
  | ok hn hp he hu =>
    cases h' with
    | ok hn' hp' he' hu' =>
      rw [hp] at hp'
      obtain ⟨rfl, rfl⟩ := Prod.mk.inj hp'
      rw [he] at he'
      obtain ⟨rfl, -⟩ := Prod.mk.inj he'
      rw [hu] at hu'
      obtain ⟨rfl, -⟩ := Prod.mk.inj hu'
      exact ⟨rfl, rfl⟩
    | failed hn' hp' he' =>
      rw [hp] at hp'
      obtain ⟨rfl, rfl⟩ := Prod.mk.inj hp'
      rw [he] at he'
      exact absurd (Prod.mk.inj he').2 (by simp)
  | failed hn hp he =>
    cases h' with
    | ok hn' hp' he' hu' =>
      rw [hp] at hp'
      obtain ⟨rfl, rfl⟩ := Prod.mk.inj hp'
      rw [he] at he'
      exact absurd (Prod.mk.inj he').2 (by simp)
    | failed hn' hp' he' =>
      rw [hp] at hp'
      obtain ⟨rfl, rfl⟩ := Prod.mk.inj hp'
      rw [he] at he'
      obtain ⟨rfl, -⟩ := Prod.mk.inj he'
      exact ⟨rfl, rfl⟩

theorem runs_det [Libm] {E : OptEnv} {n : Nat} {G : GaussSrc Dbl} {c : CmaCfg n} {F : Pt → Option Dbl} {s : CmaOpt G n} {ps : List (List Pt)} {t : CmaOpt G n}
    (h : CmaOpt.Runs E c F s ps t) : ∀ {ps' : List (List Pt)} {t' : CmaOpt G n}, CmaOpt.Runs E c F s ps' t' → ps.length = ps'.length → ps = ps' ∧ t = t' := by
  induction h with
  | nil =>
    intro ps' t' h' hl
    cases h' with
    | nil => exact ⟨rfl, rfl⟩
    | snoc h st => simp at hl
  | snoc h st ih =>
    intro ps' t' h' hl
    cases h' with
    | nil => simp at hl
    | snoc h' st' =>
      obtain ⟨rfl, rfl⟩ := ih h' (by simpa using hl)
      obtain ⟨rfl, rfl⟩ := internal_det st st'
      exact ⟨rfl, rfl⟩

/-- The generator of an optimizer as the source of its normally distributed numbers. -/
noncomputable def sourceOf [Libm] (opt : Int) (device clock : Nat) (hc : 1 ≤ clock) : (randSrc midAccepted_double).St :=
  ⟨Rand.ofOption opt device clock, (Rand.init_ok (storedSeed opt device) clock (Or.inr hc)).1⟩

/-- **C99.** An optimizer constructed for the same objective with the same options, except that the seed is the one that the first optimizer reported, has the same parameters of the strategy,
and evaluates the same populations and has the same state after the same number of steps. -/
theorem C99_same_run [Libm] (info : ObjInfo) (hd : 0 < info.dim) (l : Int) (m : Dbl) (opt : Int) (device clock device' clock' : Nat) (hc : 1 ≤ clock) (hc' : 1 ≤ clock')
    (p p' : CmaPar Dbl) (s s' : CmaOpt (randSrc midAccepted_double) info.dim) (h : CmaOpt.make info l m (sourceOf opt device clock hc) = .ok (p, s))
    (h' : CmaOpt.make info l m (sourceOf (randomSeed info.dim opt device clock) device' clock' hc') = .ok (p', s')) :
    p = p' ∧ ∀ (E : OptEnv) (c : CmaCfg info.dim) (F : Pt → Option Dbl) (ps ps' : List (List Pt)) (t t' : CmaOpt (randSrc midAccepted_double) info.dim),
      CmaOpt.Runs E c F s ps t → CmaOpt.Runs E c F s' ps' t' → ps.length = ps'.length → ps = ps' ∧ t = t' := by
  have e : sourceOf (randomSeed info.dim opt device clock) device' clock' hc' = sourceOf opt device clock hc :=
    Subtype.ext ((C99_reproduces opt device clock hc info.dim hd).2.2 device' clock').1
  rw [e, h] at h'
  obtain ⟨rfl, rfl⟩ := Prod.mk.inj (Res.ok.inj h')
  exact ⟨rfl, fun E c F ps ps' t t' h1 h2 hl => runs_det h1 h2 hl⟩

/-- **C99, finding.** The option is a `long` but only its value modulo 2^32 counts: a seed that is a multiple of 2^32 is treated as 0 was meant to be, but the number comes from the clock, not from the
random device. -/
theorem C99_wraps {K : Type} (q : Int) (hq : q ≠ 0) (device clock : Nat) : storedSeed (q * 2 ^ 32) device = 0 ∧
    (Rand.ofOption (q * 2 ^ 32) device clock : Rand K) = Rand.init 0 clock ∧ usedSeed (q * 2 ^ 32) device clock = reduceSeed clock := by
  have h : storedSeed (q * 2 ^ 32) device = 0 := by
    unfold storedSeed
    rw [if_neg (by omega)]
    omega
  refine ⟨h, ?_, ?_⟩
  · unfold Rand.ofOption
    rw [h]
  · unfold usedSeed
    rw [h, if_pos (by omega)]

/-- **C99, finding.** Seeds above 2e9 are halved, so different options give the same optimizer: -1, 2147483647 and 1073741823, for example. -/
theorem C99_collision {K : Type} (device clock : Nat) : (Rand.ofOption (-1) device clock : Rand K) = Rand.ofOption 1073741823 device clock ∧
    (Rand.ofOption 2147483647 device clock : Rand K) = Rand.ofOption 1073741823 device clock := by
  have r1 : reduceSeed 1073741823 = 1073741823 := (C49_seed _ (by norm_num)).2.2 (by norm_num)
  have r2 : reduceSeed 2147483647 = 1073741823 := by
    rw [reduceSeed, dif_pos (by norm_num)]
    exact r1
  have r3 : reduceSeed 4294967295 = 1073741823 := by
    rw [reduceSeed, dif_pos (by norm_num)]
    exact r2
  have s1 : storedSeed (-1) device = 4294967295 := by unfold storedSeed; rw [if_neg (by norm_num)]; rfl
  have s2 : storedSeed 2147483647 device = 2147483647 := by unfold storedSeed; rw [if_neg (by norm_num)]; rfl
  have s3 : storedSeed 1073741823 device = 1073741823 := by unfold storedSeed; rw [if_neg (by norm_num)]; rfl
  unfold Rand.ofOption Rand.init
  rw [s1, s2, s3, if_neg (by norm_num), if_neg (by norm_num), if_neg (by norm_num), r1, r2, r3]
  exact ⟨rfl, rfl⟩

/-- The default option, 123, and another one: the hypotheses of the theorems are met. -/
example : randomSeed 2 123 7 1 = 123 ∧ randomSeed 2 124 7 1 = 124 ∧ randomSeed 2 0 7 1 = 7 :=
  ⟨C99_as_given 123 2 7 1 (by norm_num) (by norm_num), C99_as_given 124 2 7 1 (by norm_num) (by norm_num), by
    have e : storedSeed 0 7 = 7 := by unfold storedSeed; rw [if_pos rfl]; rfl
    unfold randomSeed usedSeed
    rw [e, if_neg (by norm_num), if_neg (by norm_num), (C49_seed 7 (by norm_num)).2.2 (by norm_num)]
    rfl⟩

end Spot
