import Verif.Lemmas.ArithSim
import Verif.Lemmas.Float
import Verif.Lemmas.CRefInit
import Verif.Lemmas.Printf
import Verif.Model.SignedText
import Verif.Props.Points
import Verif.Props.Start
import Verif.Lemmas.PoolBest
import Verif.Props.Evolution

/-!
# C118: the sign of a zero makes no difference

The other theorems about floating-point arithmetic are about numbers with one zero. Here the arithmetic has both (Num/SDbl): searches of MES and EVA
in it are, apart from the signs of zeros, the searches in the arithmetic with one zero.
-/

namespace Spot

variable [Libm] {n : Nat}

namespace SDbl

@[simp] theorem erase_withSign (b : Bool) (d : Dbl) : (withSign b d).erase = d := by
  unfold withSign
  split
  · rename_i h; subst h; split <;> rfl
  · rfl

theorem erase_div {a b : SDbl} (h : b.erase ≠ .fin 0) : (div a b).erase = Dbl.div a.erase b.erase := by
  unfold div
  rw [if_neg h, erase_withSign]

theorem erase_neg (a : SDbl) : (neg a).erase = Dbl.neg a.erase := erase_withSign _ _

theorem ne_zero {x : Dbl} (h : Dbl.eq x (Dbl.ofQ 0) = false) : x ≠ .fin 0 := by
  rintro rfl
  rw [Dbl.ofQ_zero] at h
  simp [Dbl.eq] at h

theorem erase_sub (a b : SDbl) : (sub a b).erase = Dbl.sub a.erase b.erase := by
  unfold sub add Dbl.sub
  rw [erase_withSign, erase_neg]

end SDbl

open SDbl

/-- Forgetting the signs of zeros. -/
theorem erase_sim : Arith.Sim (K := SDbl) (K' := Dbl) fun x y => x.erase = y where
  lit q := erase_withSign _ _
  add := by rintro a _ b _ rfl rfl; exact erase_withSign _ _
  sub := by rintro a _ b _ rfl rfl; exact erase_sub a b
  mul := by rintro a _ b _ rfl rfl; exact erase_withSign _ _
  div := by
    rintro a _ b _ rfl rfl h
    refine erase_div (ne_zero ?_)
    have : (Arith.lit 0 : SDbl).erase = Dbl.ofQ 0 := erase_withSign _ _
    rw [← this]; exact h
  lt := by rintro a _ b _ rfl rfl; rfl
  le := by rintro a _ b _ rfl rfl; rfl
  sqrt := by rintro a _ rfl; exact erase_withSign _ _
  round8 := by rintro a _ rfl; exact erase_withSign _ _

/-- And choosing them. -/
theorem choose_sim : Arith.Sim (K := Dbl) (K' := SDbl) fun y x => x.erase = y where
  lit q := erase_withSign _ _
  add := by rintro _ a _ b rfl rfl; exact erase_withSign _ _
  sub := by rintro _ a _ b rfl rfl; exact erase_sub a b
  mul := by rintro _ a _ b rfl rfl; exact erase_withSign _ _
  div := by rintro _ a _ b rfl rfl h; exact erase_div (ne_zero h)
  lt := by rintro _ a _ b rfl rfl; rfl
  le := by rintro _ a _ b rfl rfl; rfl
  sqrt := by rintro _ a rfl; exact erase_withSign _ _
  round8 := by rintro _ a rfl; exact erase_withSign _ _

/-- `std::normal_distribution` in any arithmetic: `mean + stdev * z`. -/
def StdNormal.rngK {K : Type} [Arith K] (N : StdNormal K) : Rng K where
  Eng := N.Eng
  Dist := K × K × N.Mem
  normal m s := (m, s, N.fresh)
  draw d e := (d.1 + d.2.1 * (N.next d.2.2 e).1, (d.1, d.2.1, (N.next d.2.2 e).2.1), (N.next d.2.2 e).2.2)

/-- The same generator without signs of zeros. -/
def StdNormal.erase (N : StdNormal SDbl) : StdNormal Dbl where
  Eng := N.Eng
  Mem := N.Mem
  fresh := N.fresh
  next d e := ((N.next d e).1.erase, (N.next d e).2)

/-- The same limits, options, distribution. -/
def Bounds.erase (b : Bounds SDbl n) : Bounds Dbl n := ⟨fun i => (b.lo i).erase, fun i => (b.hi i).erase⟩
def Es.erase (s : Es SDbl n) : Es Dbl n := ⟨fun i => (s.mean i).erase, fun i => (s.var i).erase, fun i => (s.mom i).erase⟩
def EsAlg.erase : EsAlg SDbl → EsAlg Dbl
  | .mes o => .mes ⟨o.lambda, o.mu, o.meanSigma.erase, o.varSigma.erase, o.momSigma.erase, o.momOffset.erase, o.momOffsetStd.erase⟩
  | .eva o => .eva ⟨o.lambda, o.mu, o.stepSize.erase, o.varUpdate.erase, o.evUpdate.erase, o.evOffset.erase, o.evStdev.erase⟩

/-- Points and populations. -/
def erasePoint (x : Fin n → SDbl) : Fin n → Dbl := fun i => (x i).erase
def erasePops (ps : List (List (Fin n → SDbl))) : List (List (Fin n → Dbl)) := ps.map (·.map erasePoint)

theorem rng_sim (N : StdNormal SDbl) : Rng.Sim (fun x (y : Dbl) => x.erase = y) N.rngK N.erase.rngK (fun e e' => e = e')
    fun d d' => d.1.erase = d'.1 ∧ d.2.1.erase = d'.2.1 ∧ d.2.2 = d'.2.2 where
  normal h1 h2 := ⟨h1, h2, rfl⟩
  draw := by
    rintro ⟨m, s, k⟩ ⟨m', s', k'⟩ e e' ⟨h1, h2, h3⟩ rfl
    dsimp only at h1 h2 h3
    subst h1 h2 h3
    exact ⟨erase_sim.add rfl (erase_sim.mul rfl rfl), ⟨rfl, rfl, rfl⟩, rfl⟩

theorem rng_sim' (N : StdNormal SDbl) : Rng.Sim (fun (y : Dbl) x => SDbl.erase x = y) N.erase.rngK N.rngK (fun e e' => e = e')
    fun d' d => d.1.erase = d'.1 ∧ d.2.1.erase = d'.2.1 ∧ d.2.2 = d'.2.2 where
  normal h1 h2 := ⟨h1, h2, rfl⟩
  draw := by
    rintro ⟨m', s', k'⟩ ⟨m, s, k⟩ e e' ⟨h1, h2, h3⟩ rfl
    dsimp only at h1 h2 h3
    subst h1 h2 h3
    exact ⟨erase_sim.add rfl (erase_sim.mul rfl rfl), ⟨rfl, rfl, rfl⟩, rfl⟩

theorem alg_rel (alg : EsAlg SDbl) : EsAlg.Rel (fun x (y : Dbl) => x.erase = y) alg alg.erase := by
  cases alg with
  | mes o => exact .mes rfl rfl rfl rfl rfl
  | eva o => exact .eva rfl rfl rfl rfl rfl

theorem alg_rel' (alg : EsAlg SDbl) : EsAlg.Rel (fun (y : Dbl) x => SDbl.erase x = y) alg.erase alg := by
  cases alg with
  | mes o => exact .mes rfl rfl rfl rfl rfl
  | eva o => exact .eva rfl rfl rfl rfl rfl

omit [Libm] in
theorem pos_of_eps {eps x : Dbl} (h : Dbl.le (.fin 0) eps = true) (hx : Dbl.lt eps x = true) : Dbl.eq x (Dbl.ofQ 0) = false := by
  rw [Dbl.ofQ_zero]
  cases eps <;> cases x <;> simp_all [Dbl.le, Dbl.lt, Dbl.eq]
  intro h0; subst h0; linarith

omit [Libm] in
theorem mu_ne_zero {mu : Int} (h : 1 ≤ mu) : Dbl.eq (Dbl.ofQ (mu : ℚ)) (Dbl.ofQ 0) = false := by
  have h1 := Ref.ofQ_le_zero (q := (mu : ℚ)) (by exact_mod_cast h)
  generalize Dbl.ofQ (mu : ℚ) = x at h1 ⊢
  rw [Dbl.ofQ_zero] at h1 ⊢
  cases x <;> simp_all [Dbl.le, Dbl.eq]
  intro h0; subst h0; linarith

theorem lit_zero_erase : (Arith.lit 0 : SDbl).erase = Dbl.ofQ 0 := erase_withSign _ _

omit [Libm] in
theorem pops_erase : ∀ {ps : List (List (Fin n → SDbl))} {ps' : List (List (Fin n → Dbl))},
    List.Forall₂ (List.Forall₂ (VRel fun x (y : Dbl) => x.erase = y)) ps ps' → ps' = erasePops ps := by
  intro ps ps' h
  induction h with
  | nil => rfl
  | cons hx _ ih =>
    rw [ih]
    refine congrArg (· :: _) ?_
    clear ih
    induction hx with
    | nil => rfl
    | cons hp _ ih => rw [ih]; exact congrArg (· :: _) (funext fun i => (hp i).symm)

omit [Libm] in
theorem pops_erase' : ∀ {ps : List (List (Fin n → SDbl))} {ps' : List (List (Fin n → Dbl))},
    List.Forall₂ (List.Forall₂ (VRel fun (y : Dbl) x => SDbl.erase x = y)) ps' ps → erasePops ps = ps' := by
  intro ps ps' h
  induction h with
  | nil => rfl
  | cons hx _ ih =>
    rw [← ih]
    refine congrArg (· :: _) ?_
    clear ih
    induction hx with
    | nil => rfl
    | cons hp _ ih => exact congr (congrArg _ (funext fun i => hp i)) ih

variable {N : StdNormal SDbl} {b : Bounds SDbl n} {alg : EsAlg SDbl} {eps : SDbl} {lambda : Nat} {mu : Int} {info : ObjInfo} {f : (Fin n → Dbl) → Dbl} {s : Es SDbl n} {e : N.Eng}

/-- **C118.** Every search of MES or EVA in IEEE arithmetic with both zeros is, when the signs of zeros are forgotten, a search in the arithmetic with one zero, for an objective that
does not look at the sign of a zero: the same populations in the same order, the same distribution at the end, the random engine in the same state. `eps` is the constant
of `projected`, at least zero. -/
theorem C118_search (heps : Dbl.le (.fin 0) eps.erase = true) (hmu : 1 ≤ mu) {ps t d}
    (h : Es.Search N.rngK b alg eps lambda mu info (fun x => f (erasePoint x)) s e ps t d) :
    Es.Search N.erase.rngK b.erase alg.erase eps.erase lambda mu info f s.erase e (erasePops ps) t.erase d := by
  obtain ⟨ps', t', d', h1, h2, h3, h4⟩ := sim_search erase_sim (rng_sim N) (b' := b.erase) (fun _ => rfl) (fun _ => rfl) (eps' := eps.erase) rfl
    (fun x hx => by
      have := pos_of_eps (x := x.erase) heps hx
      rw [← lit_zero_erase] at this; exact this)
    (by
      have := mu_ne_zero hmu
      rw [← lit_zero_erase] at this
      have h2 : (Arith.lit (mu : ℚ) : SDbl).erase = Dbl.ofQ mu := erase_withSign _ _
      rw [← h2] at this; exact this) (alg_rel alg) lambda info (f := fun x => f (erasePoint x)) (f' := f) (fun {x y} hxy => by rw [show erasePoint x = y from funext hxy])
    (s := s) (s' := s.erase) ⟨fun _ => rfl, fun _ => rfl, fun _ => rfl⟩ (e := e) (e' := e) rfl h
  obtain rfl := pops_erase h2
  obtain rfl : d = d' := h4
  have : t' = t.erase := by
    obtain ⟨m, v, w⟩ := t'
    obtain ⟨a, b, c⟩ := h3
    unfold Es.erase
    congr 1
    · exact funext fun i => (a i).symm
    · exact funext fun i => (b i).symm
    · exact funext fun i => (c i).symm
  rw [← this]; exact h1

/-- **C118.** And every search in the arithmetic with one zero is that of a search with both: nothing the one-zero program does is impossible for the IEEE program, whatever signs the zeros
of the start have. -/
theorem C118_realised (heps : Dbl.le (.fin 0) eps.erase = true) (hmu : 1 ≤ mu) {ps t d}
    (h : Es.Search N.erase.rngK b.erase alg.erase eps.erase lambda mu info f s.erase e ps t d) :
    ∃ ps' t', Es.Search N.rngK b alg eps lambda mu info (fun x => f (erasePoint x)) s e ps' t' d ∧ erasePops ps' = ps ∧ t'.erase = t := by
  obtain ⟨ps', t', d', h1, h2, h3, h4⟩ := sim_search choose_sim (rng_sim' N) (b' := b) (fun _ => rfl) (fun _ => rfl) (eps' := eps) rfl
    (fun x hx => pos_of_eps heps hx) (mu_ne_zero hmu) (alg_rel' alg) lambda info (f := f) (f' := fun x => f (erasePoint x))
    (fun {x y} hxy => by rw [show erasePoint y = x from funext hxy]) (s := s.erase) (s' := s) ⟨fun _ => rfl, fun _ => rfl, fun _ => rfl⟩ (e := e) (e' := e) rfl h
  obtain rfl : d = d' := h4
  refine ⟨ps', t', h1, pops_erase' h2, ?_⟩
  obtain ⟨m, v, w⟩ := t
  obtain ⟨a, b, c⟩ := h3
  unfold Es.erase
  congr 1
  · exact funext fun i => a i
  · exact funext fun i => b i
  · exact funext fun i => c i

/-- **C118.** Two programs that start with the same numbers but for the signs of zeros — in the distribution, the limits or the options — evaluate the same points but for the signs of
zeros, population after population, if the objective gives points that differ in nothing else the same value. -/
theorem C118_same {b' : Bounds SDbl n} {alg' : EsAlg SDbl} {eps' : SDbl} {s' : Es SDbl n} {f : (Fin n → SDbl) → Dbl} (heps : Dbl.le (.fin 0) eps.erase = true) (hmu : 1 ≤ mu)
    (hf : ∀ x y, erasePoint x = erasePoint y → f x = f y) (hb : b.erase = b'.erase) (ha : alg.erase = alg'.erase) (he : eps.erase = eps'.erase) (hs : s.erase = s'.erase) {ps t d}
    (h : Es.Search N.rngK b alg eps lambda mu info f s e ps t d) :
    ∃ ps' t', Es.Search N.rngK b' alg' eps' lambda mu info f s' e ps' t' d ∧ erasePops ps' = erasePops ps ∧ t'.erase = t.erase := by
  have hg : f = fun x => (fun y : Fin n → Dbl => f fun i => .of (y i)) (erasePoint x) := funext fun x => hf _ _ rfl
  rw [hg] at h ⊢
  have h1 := C118_search (f := fun y : Fin n → Dbl => f fun i => .of (y i)) heps hmu h
  rw [hb, ha, he, hs] at h1
  rw [he] at heps
  obtain ⟨ps', t', h2, h3, h4⟩ := C118_realised heps hmu h1
  exact ⟨ps', t', h2, h3, h4⟩

/-! ## Files -/

omit [Libm] in
theorem readSign_dig {c : Char} (h : isDig c = true) (r : Str) : readSign (c :: r) = (false, c :: r) := by
  unfold readSign
  split
  · rename_i h1; obtain rfl := (List.cons.inj h1).1; exact absurd h (by decide)
  · rename_i h1; obtain rfl := (List.cons.inj h1).1; exact absurd h (by decide)
  · rfl

omit [Libm] in
theorem fmtPos_dig (q : ℚ) : ∃ c r, fmtPos q = c :: r ∧ isDig c = true := by
  unfold fmtPos
  rcases mantissa8 q with ⟨n, x⟩
  dsimp only
  obtain ⟨-, d2, d3⟩ := digitsN_spec 8 n
  generalize digitsN 8 n = ds at d2 d3
  obtain ⟨c, r, rfl⟩ : ∃ c r, ds = c :: r := by cases ds <;> simp at d2 ⊢
  have hc := d3 c (by simp)
  split
  · split
    · exact ⟨c, _, rfl, hc⟩
    · exact ⟨'0', _, rfl, by decide⟩
  · exact ⟨c, _, rfl, hc⟩

/-- **C118.** What is written for a number and read back is the number rounded to 8 digits, with its sign also when it is a zero: `-0` stays `-0`, `0` stays `0`. -/
theorem C118_saved (x : SDbl) {q : ℚ} (hx : x.erase = .fin q) (hq : |q| ≤ Dbl.maxQ) (t : Str) : strtodS (fmt8S x ++ '\t' :: t) = some (Arith.round8 x, '\t' :: t) := by
  cases x with
  | nzero =>
    have := strtod_parts (ip := ['0']) (f := []) (e := 0) (s := '\t' :: t) (t := '\t' :: t) (by decide) (by simp) (by simp) (stops_tab t) (readExp_tab t) true
    have h0 : fracText [] = [] := by decide
    rw [h0] at this
    have h1 : strtod (fmt8S .nzero ++ '\t' :: t) = some (.fin 0, '\t' :: t) := by
      refine Eq.trans ?_ (this.trans ?_)
      · rfl
      · simp [digitsVal, digVal, Dbl.ofQ_zero]
    unfold strtodS
    rw [h1]
    have h2 : (Arith.round8 SDbl.nzero : SDbl) = .nzero := by
      change SDbl.withSign true (.fin (bin64 (dec8 0))) = _
      decide +kernel
    rw [h2]
    rfl
  | of d =>
    obtain rfl : d = .fin q := hx
    unfold strtodS
    have hs : (readSign (fmt8S (.of (.fin q)) ++ '\t' :: t)).1 = decide (q < 0) := by
      simp only [fmt8S, fmt8]
      rcases lt_trichotomy q 0 with h | rfl | h
      · rw [if_neg h.ne, if_pos h, decide_eq_true h]; rfl
      · rw [if_pos rfl]; rfl
      · rw [if_neg h.ne', if_neg (by linarith), decide_eq_false (by linarith)]
        obtain ⟨c, r, h1, h2⟩ := fmtPos_dig q
        rw [h1, List.cons_append, readSign_dig h2]
    rw [hs]
    rw [show strtod (fmt8S (.of (.fin q)) ++ '\t' :: t) = _ from strtod_fmt8 q t, ofQ_dec8 hq]
    change some (SDbl.withSign (decide (q < 0)) _, _) = some (SDbl.withSign (true && decide (q < 0)) _, _)
    rw [Bool.true_and]
    rfl

/-! ## Where it would make a difference -/

/-- **C118.** Division by zero is where the sign shows: the quotients are infinities of different sign. The searches above never divide by zero: by `mu`, at least one, or by
more than `eps`. -/
theorem C118_division : (SDbl.of (.fin 1) / SDbl.of (.fin 0) = SDbl.of .pinf) ∧ (SDbl.of (.fin 1) / SDbl.nzero = SDbl.of .ninf) ∧
    (SDbl.of .pinf).erase ≠ (SDbl.of .ninf).erase := by
  refine ⟨?_, ?_, by decide⟩ <;> (change SDbl.div _ _ = _; decide +kernel)

/-! ## An example -/

/-- Draws that are always `-2`. -/
def minusTwo : StdNormal SDbl := ⟨Nat, Unit, (), fun _ k => (.of (.fin (-2)), (), k + 1)⟩

/-- One parameter between -1 and 1. -/
def unitBounds : Bounds SDbl 1 := ⟨fun _ => .of (.fin (-1)), fun _ => .of (.fin 1)⟩

omit [Libm] in
theorem signed_draws : letI := noLibm
    ∀ m ∈ [SDbl.nzero, .of (.fin 0)], (samplePopulation minusTwo.rngK unitBounds (EsAlg.eva (EvaOpts.default (K := SDbl))).ofs.1 (EsAlg.eva (EvaOpts.default (K := SDbl))).ofs.2 2
        (Es.init (fun _ => m) fun _ => .of (.fin 0)) (0 : Nat)).1 = [[m], [m]] := by decide +kernel

theorem one_generation {R : Rng SDbl} {e : R.Eng} {s : Es SDbl 1} {b : Bounds SDbl 1} {m : SDbl} (h : (samplePopulation R b alg.ofs.1 alg.ofs.2 2 s e).1 = [[m], [m]]) :
    ∃ t d, Es.Search R b alg eps 2 1 info (fun _ => .fin 0) s e [[fun _ => m, fun _ => m]] t d := by
  have hv : [[m], [m]].map (vecOf 1) = [fun _ => m, fun _ => m] := by
    have : vecOf 1 [m] = fun _ => m := by funext i; obtain rfl : i = 0 := Subsingleton.elim _ _; rfl
    rw [List.map_cons, List.map_cons, List.map_nil, this]
  obtain ⟨t, ht⟩ : ∃ t, updateDistribution alg eps 1 s [0, 1] ([[m], [m]].map (vecOf 1)) = .ok t := ⟨_, rfl⟩
  refine ⟨t, (samplePopulation R b alg.ofs.1 alg.ofs.2 2 s e).2, ?_⟩
  have := Es.Search.snoc (order := [0, 1]) (.nil (R := R) (b := b) (alg := alg) (eps := eps) (lambda := 2) (mu := 1) (info := info) (f := fun _ => .fin 0) (s := s) (e := e)) (Prod.ext h rfl) ?_ ht
  · rw [hv] at this; exact this
  · exact ⟨List.Perm.refl _, by simp [better_irrefl]⟩

/-- Two programs that differ in the sign of the mean only: one evaluates `-0` and the other `0`. -/
example (info : ObjInfo) : letI := noLibm
    ∃ (b : Bounds SDbl 1) (alg : EsAlg SDbl) (s s' : Es SDbl 1) (f : (Fin 1 → SDbl) → Dbl) (ps ps' : List (List (Fin 1 → SDbl))) (t t' : Es SDbl 1) (d d' : minusTwo.Eng),
      (∀ x y, erasePoint x = erasePoint y → f x = f y) ∧ s.erase = s'.erase ∧
      Es.Search minusTwo.rngK b alg (.of (.fin 0)) 2 1 info f s (0 : Nat) ps t d ∧ Es.Search minusTwo.rngK b alg (.of (.fin 0)) 2 1 info f s' (0 : Nat) ps' t' d' ∧
      ps = [[fun _ => .nzero, fun _ => .nzero]] ∧ ps' = [[fun _ => .of (.fin 0), fun _ => .of (.fin 0)]] := by
  have h1 := signed_draws .nzero (by simp)
  have h2 := signed_draws (.of (.fin 0)) (by simp)
  obtain ⟨t, d, k1⟩ := @one_generation noLibm _ (.of (.fin 0)) info _ _ _ _ _ h1
  obtain ⟨t', d', k2⟩ := @one_generation noLibm _ (.of (.fin 0)) info _ _ _ _ _ h2
  exact ⟨_, _, @Es.init _ (@instArithSDblOfLibm noLibm) _ (fun _ => .nzero) fun _ => .of (.fin 0), @Es.init _ (@instArithSDblOfLibm noLibm) _ (fun _ => .of (.fin 0)) fun _ => .of (.fin 0), _, _, _, t, t', d, d', fun _ _ _ => rfl, by rfl, k1, k2, rfl, rfl⟩

/-- The hypotheses of the round trip. -/
example : SDbl.nzero.erase = .fin 0 ∧ |(0 : ℚ)| ≤ Dbl.maxQ ∧ fmt8S .nzero = ['-', '0'] := ⟨rfl, by decide +kernel, rfl⟩

end Spot
