import Verif.Model.CRefBoundary
import Verif.Lemmas.Loops
import Verif.Props.Boundary

/-!
# C113: `cmaes_boundary_transformer` computes what the reference implementation computes

spot_test/c-cmaes/boundary_transformation.c (Model/CRefBoundary.lean) and spot/boundary_transformer.cpp (Model/Boundary.lean), in any arithmetic, in particular in doubles and in exact
arithmetic.
-/

namespace Spot.Ref

variable {K : Type} [Arith K]

/-! ## Loops -/

theorem set1_set1 (v : Nat → K) (i : Nat) (a b : K) : set1 (set1 v i a) i b = set1 v i b := by
  funext j; unfold set1; split <;> rfl

theorem forRes_congr {S : Type} {f g : Nat → S → Res S} (n : Nat) (h : ∀ i < n, ∀ s, f i s = g i s) (s : S) : forRes f n s = forRes g n s := by
  induction n with
  | zero => rfl
  | succ n ih =>
    rw [forRes, forRes, ih (fun i hi => h i (by omega))]
    cases forRes g n s with
    | ok s' => rw [Res.ok_bind, Res.ok_bind]; exact h n (by omega) s'
    | err => rfl
    | ub => rfl

theorem forRes_set_ok (g : Nat → Res K) (y0 : Nat → K) : ∀ (n : Nat) (y : Nat → K),
    forRes (fun i y => g i >>= fun v => .ok (set1 y i v)) n y0 = .ok y ↔ (∀ i < n, g i = .ok (y i)) ∧ ∀ i, n ≤ i → y i = y0 i
  | 0, y => by
    rw [forRes]
    simp only [Res.ok.injEq, Nat.not_lt_zero, false_implies, implies_true, true_and, Nat.zero_le, true_implies]
    exact ⟨fun h i => by rw [h], fun h => funext fun i => (h i).symm⟩
  | n + 1, y => by
    rw [forRes, Res.bind_eq_ok]
    constructor
    · rintro ⟨y1, h1, h2⟩
      obtain ⟨v, h3, h4⟩ := Res.bind_eq_ok.1 h2
      cases h4
      obtain ⟨g1, g2⟩ := (forRes_set_ok g y0 n y1).1 h1
      refine ⟨fun i hi => ?_, fun i hi => ?_⟩
      · by_cases hin : i = n
        · subst hin; rw [set1_same]; exact h3
        · rw [set1_ne _ _ hin]; exact g1 i (by omega)
      · rw [set1_ne _ _ (by omega)]; exact g2 i (by omega)
    · rintro ⟨h1, h2⟩
      refine ⟨fun i => if i = n then y0 i else y i, (forRes_set_ok g y0 n _).2 ⟨fun i hi => ?_, fun i hi => ?_⟩, ?_⟩
      · simp only [if_neg (show i ≠ n by omega)]; exact h1 i (by omega)
      · by_cases hin : i = n
        · simp only [if_pos hin]
        · simp only [if_neg hin]; exact h2 i (by omega)
      · rw [h1 n (by omega), Res.ok_bind]
        congr 1
        funext j
        unfold set1
        split
        · rename_i h; rw [h]
        · rename_i h; exact if_neg h

/-- The first call that does not return ends the loop. -/
theorem forRes_set_stop (g : Nat → Res K) (y0 : Nat → K) : ∀ (n : Nat),
    (forRes (fun i y => g i >>= fun v => .ok (set1 y i v)) n y0 = .err → ∃ i < n, g i = .err ∧ ∀ j < i, ∃ v, g j = .ok v) ∧
    (forRes (fun i y => g i >>= fun v => .ok (set1 y i v)) n y0 = .ub → ∃ i < n, g i = .ub ∧ ∀ j < i, ∃ v, g j = .ok v)
  | 0 => by rw [forRes]; exact ⟨fun h => (by cases h), fun h => (by cases h)⟩
  | n + 1 => by
    rw [forRes]
    obtain ⟨h1, h2⟩ := forRes_set_stop g y0 n
    cases hr : forRes (fun i y => g i >>= fun v => .ok (set1 y i v)) n y0 with
    | ok y =>
      rw [Res.ok_bind]
      have hk := ((forRes_set_ok g y0 n y).1 hr).1
      cases hg : g n with
      | ok v => exact ⟨fun h => (by cases h), fun h => (by cases h)⟩
      | err => exact ⟨fun _ => ⟨n, by omega, hg, fun j hj => ⟨_, hk j hj⟩⟩, fun h => (by cases h)⟩
      | ub => exact ⟨fun h => (by cases h), fun _ => ⟨n, by omega, hg, fun j hj => ⟨_, hk j hj⟩⟩⟩
    | err =>
      refine ⟨fun _ => ?_, fun h => (by cases h)⟩
      obtain ⟨i, hi, hg⟩ := h1 hr
      exact ⟨i, by omega, hg⟩
    | ub =>
      refine ⟨fun h => (by cases h), fun _ => ?_⟩
      obtain ⟨i, hi, hg⟩ := h2 hr
      exact ⟨i, by omega, hg⟩

theorem forUp_each (f : Nat → K → K) (y0 : Nat → K) (n : Nat) : forUp 0 n (fun i y => set1 y i (f i (y i))) y0 = fun j => if j < n then f j (y0 j) else y0 j := by
  refine forUp_inv (fun n u => u = fun j => if j < n then f j (y0 j) else y0 j) (Nat.zero_le _) (by simp) ?_
  rintro i _ - - rfl
  funext j
  by_cases h : j = i
  · subst h; simp
  · rw [set1_ne _ _ h]
    by_cases h2 : j < i
    · rw [if_pos h2, if_pos (by omega)]
    · rw [if_neg h2, if_neg (by omega)]

/-! ## The reference implementation, element by element -/

/-- What it uses for variable `i`. -/
def BTrans.par (t : BTrans K) (i : Nat) : BtPar K := ⟨t.lower (t.index i), t.upper (t.index i), t.al (t.index i), t.au (t.index i)⟩

theorem shift_body (lb ub al au : K) (x : Nat → K) (i : Nat) (y : Nat → K) :
    ((if Arith.lt (set1 y i (x i) i) (lb - lit 2 * al - (ub - lb) / lit 2) = true then
        onePlusInt ((lb - lit 2 * al - (ub - lb) / lit 2 - set1 y i (x i) i) / (lit 2 * (ub - lb + al + au))) >>= fun k =>
          Res.ok (set1 (set1 y i (x i)) i (set1 y i (x i) i + lit 2 * (ub - lb + al + au) * lit (k : ℚ)))
      else .ok (set1 y i (x i))) >>= fun y =>
    (if Arith.lt (ub + lit 2 * au + (ub - lb) / lit 2) (y i) = true then
        onePlusInt ((y i - (ub + lit 2 * au + (ub - lb) / lit 2)) / (lit 2 * (ub - lb + al + au))) >>= fun k => Res.ok (set1 y i (y i - lit 2 * (ub - lb + al + au) * lit (k : ℚ)))
      else .ok y) >>= fun y =>
    let y := if Arith.lt (y i) (lb - al) then set1 y i (y i + lit 2 * (lb - al - y i)) else y
    let y := if Arith.lt (ub + au) (y i) then set1 y i (y i - lit 2 * (y i - ub - au)) else y
    if Arith.lt (y i) (lb - al - lit (1 / 10 ^ 15)) || Arith.lt (ub + au + lit (1 / 10 ^ 15)) (y i) then Res.err else .ok y) =
    (((⟨lb, ub, al, au⟩ : BtPar K).shift (x i) >>= fun v => if (⟨lb, ub, al, au⟩ : BtPar K).bug v then .err else .ok v) >>= fun v => .ok (set1 y i v)) := by
  unfold BtPar.shift BtPar.up BtPar.down BtPar.mirror BtPar.bug BtPar.xlow BtPar.xup BtPar.period
  dsimp only
  rw [set1_same]
  have up : (if Arith.lt (x i) (lb - lit 2 * al - (ub - lb) / lit 2) = true then
        onePlusInt ((lb - lit 2 * al - (ub - lb) / lit 2 - x i) / (lit 2 * (ub - lb + al + au))) >>= fun k => Res.ok (set1 (set1 y i (x i)) i (x i + lit 2 * (ub - lb + al + au) * lit (k : ℚ)))
      else .ok (set1 y i (x i))) =
      ((if Arith.lt (x i) (lb - lit 2 * al - (ub - lb) / lit 2) = true then
        onePlusInt ((lb - lit 2 * al - (ub - lb) / lit 2 - x i) / (lit 2 * (ub - lb + al + au))) >>= fun k => .ok (x i + lit 2 * (ub - lb + al + au) * lit (k : ℚ))
      else .ok (x i)) >>= fun v => .ok (set1 y i v)) := by
    split
    · cases onePlusInt ((lb - lit 2 * al - (ub - lb) / lit 2 - x i) / (lit 2 * (ub - lb + al + au))) with
      | ok k => simp only [Res.ok_bind, set1_set1]
      | err => rfl
      | ub => rfl
    · rfl
  rw [up]
  clear up
  generalize (if Arith.lt (x i) (lb - lit 2 * al - (ub - lb) / lit 2) = true then
        onePlusInt ((lb - lit 2 * al - (ub - lb) / lit 2 - x i) / (lit 2 * (ub - lb + al + au))) >>= fun k => Res.ok (x i + lit 2 * (ub - lb + al + au) * lit (k : ℚ))
      else .ok (x i)) = r
  cases r with
  | err => rfl
  | ub => rfl
  | ok v =>
    simp only [Res.ok_bind, set1_same]
    have down : (if Arith.lt (ub + lit 2 * au + (ub - lb) / lit 2) v = true then
          onePlusInt ((v - (ub + lit 2 * au + (ub - lb) / lit 2)) / (lit 2 * (ub - lb + al + au))) >>= fun k => Res.ok (set1 (set1 y i v) i (v - lit 2 * (ub - lb + al + au) * lit (k : ℚ)))
        else .ok (set1 y i v)) =
        ((if Arith.lt (ub + lit 2 * au + (ub - lb) / lit 2) v = true then
          onePlusInt ((v - (ub + lit 2 * au + (ub - lb) / lit 2)) / (lit 2 * (ub - lb + al + au))) >>= fun k => .ok (v - lit 2 * (ub - lb + al + au) * lit (k : ℚ))
        else .ok v) >>= fun v => .ok (set1 y i v)) := by
      split
      · cases onePlusInt ((v - (ub + lit 2 * au + (ub - lb) / lit 2)) / (lit 2 * (ub - lb + al + au))) with
        | ok k => simp only [Res.ok_bind, set1_set1]
        | err => rfl
        | ub => rfl
      · rfl
    rw [down]
    clear down
    generalize (if Arith.lt (ub + lit 2 * au + (ub - lb) / lit 2) v = true then
          onePlusInt ((v - (ub + lit 2 * au + (ub - lb) / lit 2)) / (lit 2 * (ub - lb + al + au))) >>= fun k => Res.ok (v - lit 2 * (ub - lb + al + au) * lit (k : ℚ))
        else .ok v) = r
    cases r with
    | err => rfl
    | ub => rfl
    | ok w =>
      simp only [Res.ok_bind, set1_same]
      have m1 : (if Arith.lt w (lb - al) = true then set1 (set1 y i w) i (w + lit 2 * (lb - al - w)) else set1 y i w) =
          set1 y i (if Arith.lt w (lb - al) = true then w + lit 2 * (lb - al - w) else w) := by
        split
        · rw [set1_set1]
        · rfl
      rw [m1]
      generalize (if Arith.lt w (lb - al) = true then w + lit 2 * (lb - al - w) else w) = w1
      rw [set1_same]
      have m2 : (if Arith.lt (ub + au) w1 = true then set1 (set1 y i w1) i (w1 - lit 2 * (w1 - ub - au)) else set1 y i w1) =
          set1 y i (if Arith.lt (ub + au) w1 = true then w1 - lit 2 * (w1 - ub - au) else w1) := by
        split
        · rw [set1_set1]
        · rfl
      rw [m2]
      generalize (if Arith.lt (ub + au) w1 = true then w1 - lit 2 * (w1 - ub - au) else w1) = w2
      rw [set1_same]
      split <;> rfl

theorem shift_elements (t : BTrans K) (x : Nat → K) (n : Nat) (y0 : Nat → K) :
    t.shift x n y0 = forRes (fun i y => ((t.par i).shift (x i) >>= fun v => if (t.par i).bug v then .err else .ok v) >>= fun v => .ok (set1 y i v)) n y0 := by
  unfold BTrans.shift
  exact forRes_congr n (fun i _ y => shift_body _ _ _ _ x i y) y0

theorem quadratic_elements (t : BTrans K) (n : Nat) (y0 : Nat → K) : t.quadratic n y0 = fun j => if j < n then (t.par j).squash (y0 j) else y0 j := by
  rw [← forUp_each (fun j => (t.par j).squash)]
  unfold BTrans.quadratic
  congr 1
  funext i y
  unfold BtPar.squash
  dsimp only [BTrans.par]
  have hid : set1 y i (y i) = y := by funext j; unfold set1; split <;> simp_all
  split
  · rename_i h; simp only [h, if_true]
  · rename_i h
    split
    · rename_i h2; simp only [h, h2, if_true, if_false, Bool.false_eq_true]
    · rename_i h2; simp only [h, h2, if_false, Bool.false_eq_true]; exact hid.symm

/-- `cmaes_boundary_transformation` returns if and only if `cmaes_boundary_trans` of every element does. -/
theorem apply_elements (t : BTrans K) (x : Nat → K) (n : Nat) (y0 y : Nat → K) :
    t.apply x n y0 = .ok y ↔ (∀ i < n, (t.par i).trans (x i) = .ok (y i)) ∧ ∀ i, n ≤ i → y i = y0 i := by
  unfold BTrans.apply
  rw [shift_elements, Res.bind_eq_ok]
  have ht : ∀ i v, (t.par i).trans (x i) = .ok v ↔ ∃ u, ((t.par i).shift (x i) >>= fun v => if (t.par i).bug v then Res.err else .ok v) = .ok u ∧ v = (t.par i).squash u := by
    intro i v
    unfold BtPar.trans
    cases (t.par i).shift (x i) with
    | ok u =>
      simp only [Res.ok_bind]
      split
      · simp
      · simp [eq_comm]
    | err => simp only [show (Res.err : Res K) >>= (fun v => if (t.par i).bug v = true then Res.err else .ok v) = .err from rfl]; constructor <;> intro h <;> simp_all <;> cases h
    | ub => simp only [show (Res.ub : Res K) >>= (fun v => if (t.par i).bug v = true then Res.err else .ok v) = .ub from rfl]; constructor <;> intro h <;> simp_all <;> cases h
  constructor
  · rintro ⟨y1, h1, h2⟩
    cases h2
    obtain ⟨g1, g2⟩ := (forRes_set_ok _ _ _ _).1 h1
    rw [quadratic_elements]
    refine ⟨fun i hi => ?_, fun i hi => ?_⟩
    · simp only [if_pos hi]
      exact (ht i _).2 ⟨_, g1 i hi, rfl⟩
    · simp only [if_neg (Nat.not_lt.2 hi)]
      exact g2 i hi
  · rintro ⟨h1, h2⟩
    have h3 : ∀ i, ∃ u, i < n → ((t.par i).shift (x i) >>= fun v => if (t.par i).bug v then Res.err else .ok v) = .ok u ∧ y i = (t.par i).squash u := by
      intro i
      by_cases hi : i < n
      · obtain ⟨u, hu⟩ := (ht i _).1 (h1 i hi)
        exact ⟨u, fun _ => hu⟩
      · exact ⟨x i, fun h => absurd h hi⟩
    choose u hu using h3
    refine ⟨fun i => if i < n then u i else y0 i, (forRes_set_ok _ _ _ _).2 ⟨fun i hi => ?_, fun i hi => ?_⟩, ?_⟩
    · rw [if_pos hi]; exact (hu i hi).1
    · rw [if_neg (Nat.not_lt.2 hi)]
    · rw [quadratic_elements]
      congr 1
      funext j
      by_cases hj : j < n
      · simp only [if_pos hj]; exact (hu j hj).2.symm
      · simp only [if_neg hj]; exact (h2 j (by omega)).symm

theorem apply_stop (t : BTrans K) (x : Nat → K) (n : Nat) (y0 : Nat → K) :
    (t.apply x n y0 = .err → ∃ i < n, (t.par i).trans (x i) = .err ∧ ∀ j < i, ∃ v, (t.par j).trans (x j) = .ok v) ∧
    (t.apply x n y0 = .ub → ∃ i < n, (t.par i).trans (x i) = .ub ∧ ∀ j < i, ∃ v, (t.par j).trans (x j) = .ok v) := by
  unfold BTrans.apply
  rw [shift_elements]
  obtain ⟨h1, h2⟩ := forRes_set_stop (fun i => (t.par i).shift (x i) >>= fun v => if (t.par i).bug v then Res.err else .ok v) y0 n
  have ht : ∀ i, (t.par i).trans (x i) = ((t.par i).shift (x i) >>= fun v => if (t.par i).bug v then Res.err else .ok v) >>= fun u => .ok ((t.par i).squash u) := by
    intro i
    unfold BtPar.trans
    cases (t.par i).shift (x i) with
    | ok u => simp only [Res.ok_bind]; split <;> rfl
    | err => rfl
    | ub => rfl
  cases hr : forRes (fun i y => ((t.par i).shift (x i) >>= fun v => if (t.par i).bug v then Res.err else .ok v) >>= fun v => .ok (set1 y i v)) n y0 with
  | ok y => exact ⟨fun h => (by cases h), fun h => (by cases h)⟩
  | err =>
    refine ⟨fun _ => ?_, fun h => (by cases h)⟩
    obtain ⟨i, hi, g1, g2⟩ := h1 hr
    refine ⟨i, hi, by rw [ht, g1]; rfl, fun j hj => ?_⟩
    obtain ⟨v, hv⟩ := g2 j hj
    exact ⟨_, by rw [ht, hv]; rfl⟩
  | ub =>
    refine ⟨fun h => (by cases h), fun _ => ?_⟩
    obtain ⟨i, hi, g1, g2⟩ := h2 hr
    refine ⟨i, hi, by rw [ht, g1]; rfl, fun j hj => ?_⟩
    obtain ⟨v, hv⟩ := g2 j hj
    exact ⟨_, by rw [ht, hv]; rfl⟩

/-! ## The C++ class, element by element -/

theorem btApply_cons' (p : BtPar K) (ps : List (BtPar K)) (x : K) (xs : List K) :
    btApply (p :: ps) (x :: xs) = (p.preimage x >>= fun y => btPreimages ps xs >>= fun ys => btSquash ps ys.1 >>= fun zs =>
      .ok (p.squash y.1 :: zs, (if y.2 then 1 else 0) + ys.2)) := by
  have e : btPreimages (p :: ps) (x :: xs) = (p.preimage x >>= fun y => btPreimages ps xs >>= fun ys =>
    .ok (y.1 :: ys.1, (if y.2 then 1 else 0) + ys.2)) := rfl
  unfold btApply
  rw [e]
  cases p.preimage x with
  | ok y =>
    simp only [Res.ok_bind]
    cases btPreimages ps xs with
    | ok ys =>
      simp only [Res.ok_bind]
      rw [btSquash]
      cases btSquash ps ys.1 <;> rfl
    | err => rfl
    | ub => rfl
  | err => rfl
  | ub => rfl

/-- What the transformer makes of one element, and whether there is a message. -/
theorem btApply_cons'' (p : BtPar K) (ps : List (BtPar K)) (x : K) (xs : List K) :
    btApply (p :: ps) (x :: xs) = (p.preimage x >>= fun y => btApply ps xs >>= fun zs => .ok (p.squash y.1 :: zs.1, (if y.2 then 1 else 0) + zs.2)) := by
  rw [btApply_cons']
  unfold btApply
  cases p.preimage x with
  | ok y =>
    simp only [Res.ok_bind]
    cases btPreimages ps xs with
    | ok ys =>
      simp only [Res.ok_bind]
      cases btSquash ps ys.1 <;> rfl
    | err => rfl
    | ub => rfl
  | err => rfl
  | ub => rfl

theorem shift_ne_err (p : BtPar K) (x : K) : p.shift x ≠ .err := by
  have ho : ∀ v : K, (onePlusInt v : Res Int) ≠ .err := by
    intro v; unfold onePlusInt; split
    · split <;> simp
    · simp
  unfold BtPar.shift BtPar.up BtPar.down
  intro h
  split at h
  · cases hk : onePlusInt ((p.xlow - x) / p.period) with
    | ok k =>
      rw [hk] at h
      simp only [Res.ok_bind] at h
      split at h
      · generalize hv : onePlusInt (K := K) _ = r at h
        cases r with
        | ok k => cases h
        | err => exact ho _ hv
        | ub => cases h
      · cases h
    | err => exact ho _ hk
    | ub => rw [hk] at h; cases h
  · simp only [Res.ok_bind] at h
    split at h
    · generalize hv : onePlusInt (K := K) _ = r at h
      cases r with
      | ok k => cases h
      | err => exact ho _ hv
      | ub => cases h
    · cases h

/-- A call that threw an exception or ended the program. -/
def isErr : Res K → Bool
  | .err => true
  | _ => false

theorem btApply_spec : ∀ (ps : List (BtPar K)) (xs : List K), ps.length = xs.length →
    (∀ ys, btApply ps xs = .ok (ys, 0) ↔ List.zipWith BtPar.trans ps xs = ys.map .ok) ∧
    (∀ ys k, btApply ps xs = .ok (ys, k) → (k = (List.zipWith BtPar.trans ps xs).countP isErr) ∧ .ub ∉ List.zipWith BtPar.trans ps xs) ∧
    (btApply ps xs = .ub ↔ .ub ∈ List.zipWith BtPar.trans ps xs) ∧ btApply ps xs ≠ .err
  | [], [], _ => by
    have e : btApply ([] : List (BtPar K)) [] = .ok ([], 0) := rfl
    rw [e]
    refine ⟨fun ys => ?_, fun ys k h => ?_, ?_, by simp⟩
    · cases ys <;> simp
    · cases h; simp
    · simp
  | [], _ :: _, h => by simp at h
  | _ :: _, [], h => by simp at h
  | p :: ps, x :: xs, h => by
    obtain ⟨i1, i2, i3, i4⟩ := btApply_spec ps xs (by simpa using h)
    rw [btApply_cons'', List.zipWith_cons_cons]
    have htr : p.trans x = (p.shift x >>= fun y => if p.bug y then .err else .ok (p.squash y)) := rfl
    rw [htr]
    unfold BtPar.preimage
    have hne := shift_ne_err p x
    cases hs : p.shift x with
    | err => exact absurd hs hne
    | ub =>
      refine ⟨fun ys => ?_, fun ys k h => ?_, ?_, ?_⟩
      · constructor
        · intro h; cases h
        · intro h
          cases ys with
          | nil => cases h
          | cons y ys => rw [List.map_cons] at h; injection h with h _; cases h
      · cases h
      · constructor
        · intro _; exact List.mem_cons_self
        · intro _; rfl
      · intro h; cases h
    | ok u =>
      simp only [Res.ok_bind]
      by_cases hb : p.bug u = true
      · simp only [hb, if_true]
        cases ht : btApply ps xs with
        | err => exact absurd ht i4
        | ub =>
          refine ⟨fun ys => ?_, fun ys k h => ?_, ?_, ?_⟩
          · constructor
            · intro h; cases h
            · intro h
              cases ys with
              | nil => cases h
              | cons y ys => rw [List.map_cons] at h; injection h with h _; cases h
          · cases h
          · exact ⟨fun _ => List.mem_cons_of_mem _ (i3.1 ht), fun _ => rfl⟩
          · intro h; cases h
        | ok z =>
          obtain ⟨zs, k⟩ := z
          obtain ⟨j1, j2⟩ := i2 zs k ht
          simp only [Res.ok_bind]
          refine ⟨fun ys => ?_, fun ys k' h => ?_, ?_, ?_⟩
          · constructor
            · intro h; simp only [Res.ok.injEq, Prod.mk.injEq] at h; omega
            · intro h
              cases ys with
              | nil => cases h
              | cons y ys => rw [List.map_cons] at h; injection h with h _; cases h
          · simp only [Res.ok.injEq, Prod.mk.injEq] at h
            refine ⟨?_, ?_⟩
            · rw [List.countP_cons_of_pos (by rfl), ← h.2, j1]; omega
            · intro hm
              rcases List.mem_cons.1 hm with h | h
              · cases h
              · exact j2 h
          · constructor
            · intro h; cases h
            · intro hm
              rcases List.mem_cons.1 hm with h | h
              · cases h
              · exact absurd h j2
          · intro h; cases h
      · simp only [hb, if_false, Bool.false_eq_true]
        cases ht : btApply ps xs with
        | err => exact absurd ht i4
        | ub =>
          refine ⟨fun ys => ?_, fun ys k h => ?_, ?_, ?_⟩
          · constructor
            · intro h; cases h
            · intro h
              cases ys with
              | nil => cases h
              | cons y ys =>
                rw [List.map_cons] at h
                injection h with h h2
                have := (i1 ys).2 h2
                rw [ht] at this; cases this
          · cases h
          · exact ⟨fun _ => List.mem_cons_of_mem _ (i3.1 ht), fun _ => rfl⟩
          · intro h; cases h
        | ok z =>
          obtain ⟨zs, k⟩ := z
          obtain ⟨j1, j2⟩ := i2 zs k ht
          simp only [Res.ok_bind]
          refine ⟨fun ys => ?_, fun ys k' h => ?_, ?_, ?_⟩
          · constructor
            · intro h
              simp only [Res.ok.injEq, Prod.mk.injEq] at h
              obtain ⟨rfl, hk⟩ := h
              obtain rfl : k = 0 := by omega
              rw [List.map_cons, (i1 zs).1 ht]
            · intro h
              cases ys with
              | nil => cases h
              | cons y ys =>
                rw [List.map_cons] at h
                injection h with h h2
                have := (i1 ys).2 h2
                rw [ht] at this
                simp only [Res.ok.injEq, Prod.mk.injEq] at this h
                obtain ⟨rfl, rfl⟩ := this
                rw [h]
          · simp only [Res.ok.injEq, Prod.mk.injEq] at h
            refine ⟨?_, ?_⟩
            · rw [List.countP_cons_of_neg (by simp [isErr]), ← h.2, j1]; omega
            · intro hm
              rcases List.mem_cons.1 hm with h | h
              · cases h
              · exact j2 h
          · constructor
            · intro h; cases h
            · intro hm
              rcases List.mem_cons.1 hm with h | h
              · cases h
              · exact absurd h j2
          · intro h; cases h

/-! ## The constructors -/

/-- `al` and `au` for the bounds of one variable. -/
def BtPar.of (lb ub : K) : BtPar K :=
  { lb := lb, ub := ub, al := fmin ((ub - lb) / lit 2) ((lit 1 + Arith.abs lb) / lit 20), au := fmin ((ub - lb) / lit 2) ((lit 1 + Arith.abs ub) / lit 20) }

theorem make_iff (lb ub : K) (p : BtPar K) : BtPar.make lb ub = .ok p ↔ Arith.eq lb ub = false ∧ Arith.lt ub lb = false ∧ p = BtPar.of lb ub := by
  unfold BtPar.make BtPar.of
  split
  · rename_i h
    simp only [Bool.or_eq_true] at h
    constructor
    · intro h; cases h
    · rintro ⟨h1, h2, -⟩; simp_all
  · rename_i h
    simp only [Bool.or_eq_true, not_or, Bool.not_eq_true] at h
    rw [Res.ok.injEq]
    exact ⟨fun e => ⟨h.1, h.2, e.symm⟩, fun e => e.2.2.symm⟩

theorem btMake_iff : ∀ (bs : List (K × K)) (ps : List (BtPar K)), btMake bs = .ok ps ↔
    (∀ b ∈ bs, Arith.eq b.1 b.2 = false ∧ Arith.lt b.2 b.1 = false) ∧ ps = bs.map fun b => BtPar.of b.1 b.2
  | [], ps => by rw [btMake]; cases ps <;> simp
  | b :: bs, ps => by
    rw [btMake, Res.bind_eq_ok]
    constructor
    · rintro ⟨p, h1, h2⟩
      obtain ⟨qs, h3, h4⟩ := Res.bind_eq_ok.1 h2
      cases h4
      obtain ⟨g1, g2, g3⟩ := (make_iff _ _ _).1 h1
      obtain ⟨g4, g5⟩ := (btMake_iff bs qs).1 h3
      refine ⟨fun c hc => ?_, by rw [List.map_cons, g3, g5]⟩
      rcases List.mem_cons.1 hc with rfl | hc
      · exact ⟨g1, g2⟩
      · exact g4 c hc
    · rintro ⟨h1, rfl⟩
      obtain ⟨g1, g2⟩ := h1 b List.mem_cons_self
      exact ⟨_, (make_iff _ _ _).2 ⟨g1, g2, rfl⟩, by rw [(btMake_iff bs _).2 ⟨fun c hc => h1 c (List.mem_cons_of_mem _ hc), rfl⟩]; rfl⟩

theorem initLoop_spec (t : BTrans K) : ∀ n : Nat,
    let body : Nat → BTrans K → Res (BTrans K) := fun i t => if Arith.eq (t.lower i) (t.upper i) then .err else
      .ok { t with al := set1 t.al i (fmin ((t.upper i - t.lower i) / lit 2) ((lit 1 + Arith.abs (t.lower i)) / lit 20))
                   au := set1 t.au i (fmin ((t.upper i - t.lower i) / lit 2) ((lit 1 + Arith.abs (t.upper i)) / lit 20)) }
    ((∀ i < n, Arith.eq (t.lower i) (t.upper i) = false) → ∃ t', forRes body n t = .ok t' ∧ t'.lower = t.lower ∧ t'.upper = t.upper ∧ t'.len = t.len ∧
      ∀ i < n, t'.al i = (BtPar.of (t.lower i) (t.upper i)).al ∧ t'.au i = (BtPar.of (t.lower i) (t.upper i)).au) ∧
    ((∃ i < n, Arith.eq (t.lower i) (t.upper i) = true) → forRes body n t = .err)
  | 0 => by
    dsimp only
    exact ⟨fun _ => ⟨t, rfl, rfl, rfl, rfl, fun i hi => absurd hi (by omega)⟩, fun ⟨i, hi, _⟩ => absurd hi (by omega)⟩
  | n + 1 => by
    obtain ⟨h1, h2⟩ := initLoop_spec t n
    dsimp only at h1 h2 ⊢
    constructor
    · intro h
      obtain ⟨t', g1, g2, g3, g4, g5⟩ := h1 fun i hi => h i (by omega)
      rw [forRes, g1, Res.ok_bind, g2, g3, h n (by omega)]
      simp only [if_false, Bool.false_eq_true]
      refine ⟨_, rfl, rfl, rfl, g4, fun i hi => ?_⟩
      dsimp only
      by_cases hin : i = n
      · subst hin; rw [set1_same, set1_same]; exact ⟨rfl, rfl⟩
      · rw [set1_ne _ _ hin, set1_ne _ _ hin]; exact g5 i (by omega)
    · rintro ⟨i, hi, he⟩
      rw [forRes]
      by_cases hex : ∃ i < n, Arith.eq (t.lower i) (t.upper i) = true
      · rw [h2 hex]; rfl
      · have hall : ∀ i < n, Arith.eq (t.lower i) (t.upper i) = false := fun j hj => by
          by_contra hc; exact hex ⟨j, hj, by simpa using hc⟩
        have hin : i = n := by
          by_contra hc
          exact hex ⟨i, by omega, he⟩
        subst hin
        obtain ⟨t', g1, g2, g3, -⟩ := h1 hall
        rw [g1, Res.ok_bind, g2, g3, he]
        rfl

theorem init_spec (lower upper : Nat → K) (n : Nat) (hn : n ≠ 0) :
    ((∀ i < n, Arith.eq (lower i) (upper i) = false) → ∃ t, BTrans.init (some lower) (some upper) n = .ok t ∧ t.len = n ∧ ∀ i, t.par i = BtPar.of (lower (if i < n then i else n - 1)) (upper (if i < n then i else n - 1))) ∧
    ((∃ i < n, Arith.eq (lower i) (upper i) = true) → BTrans.init (some lower) (some upper) n = .err) := by
  unfold BTrans.init BTrans.initLoop
  simp only [hn, if_false, Option.isNone_some, Bool.false_and, Bool.false_eq_true]
  obtain ⟨h1, h2⟩ := initLoop_spec ({ lower := lower, upper := upper, len := n, al := fun _ => lit 0, au := fun _ => lit 0 } : BTrans K) n
  refine ⟨fun h => ?_, h2⟩
  obtain ⟨t, g1, g2, g3, g4, g5⟩ := h1 h
  refine ⟨t, g1, g4, fun i => ?_⟩
  unfold BTrans.par BTrans.index
  rw [g2, g3, g4]
  dsimp only at g5 ⊢
  have hk : (if i < n then i else n - 1) < n := by split <;> omega
  obtain ⟨e1, e2⟩ := g5 _ hk
  rw [e1, e2]
  rfl

/-! ## The theorems -/

theorem trans_list (P : Nat → BtPar K) (x : Nat → K) (n : Nat) : List.zipWith BtPar.trans ((List.range n).map P) ((List.range n).map x) = (List.range n).map fun i => (P i).trans (x i) := by
  rw [List.zipWith_map, List.zipWith_self]

/-- **C113.** Let both implementations be initialized with the same `n` bounds. The C++ class transforms a vector without a message if and only if the reference implementation
returns, and to the same vector; if it logs a message, then the reference implementation ends the program; and where the reference implementation does something undefined, so does
the C++ class. -/
theorem C113_same (lower upper : Nat → K) (n : Nat) (hn : n ≠ 0) (ps : List (BtPar K)) (hb : btMake ((List.range n).map fun i => (lower i, upper i)) = .ok ps) :
    ∃ t, BTrans.init (some lower) (some upper) n = .ok t ∧ ∀ x y0 : Nat → K,
      (∀ ys, btApply ps ((List.range n).map x) = .ok (ys, 0) ↔ ∃ y, t.apply x n y0 = .ok y ∧ ys = (List.range n).map y) ∧
      (∀ ys k, btApply ps ((List.range n).map x) = .ok (ys, k + 1) → t.apply x n y0 = .err) ∧
      (t.apply x n y0 = .ub → btApply ps ((List.range n).map x) = .ub) := by
  obtain ⟨h1, h2⟩ := (btMake_iff _ _).1 hb
  rw [List.map_map] at h2
  obtain ⟨t, g1, g2, g3⟩ := (init_spec lower upper n hn).1 fun i hi => (h1 (lower i, upper i) (List.mem_map.2 ⟨i, List.mem_range.2 hi, rfl⟩)).1
  have hp : ∀ i < n, t.par i = BtPar.of (lower i) (upper i) := fun i hi => by rw [g3 i, if_pos hi]
  refine ⟨t, g1, fun x y0 => ?_⟩
  obtain ⟨a1, a2, a3, a4⟩ := btApply_spec ps ((List.range n).map x) (by rw [h2]; simp)
  have hz : List.zipWith BtPar.trans ps ((List.range n).map x) = (List.range n).map fun i => (BtPar.of (lower i) (upper i)).trans (x i) := by
    rw [h2]; exact trans_list _ x n
  rw [hz] at a1 a2 a3
  obtain ⟨s1, s2⟩ := apply_stop t x n y0
  refine ⟨fun ys => ?_, fun ys k hk => ?_, fun hu => ?_⟩
  · rw [a1]
    constructor
    · intro h
      have hl : ys.length = n := by have := congrArg List.length h; simpa using this.symm
      refine ⟨fun i => if i < n then ys.getD i (x i) else y0 i, (apply_elements t x n y0 _).2 ⟨fun i hi => ?_, fun i hi => if_neg (by omega)⟩, ?_⟩
      · have := congrArg (fun l => l[i]?) h
        simp only [List.getElem?_map, List.getElem?_range hi, Option.map_some] at this
        rw [hp i hi, if_pos hi, List.getD_eq_getElem?_getD]
        cases hy : ys[i]? with
        | none => rw [hy] at this; cases this
        | some v => rw [hy] at this; exact Option.some.inj this
      · apply List.ext_getElem?
        intro i
        by_cases hi : i < n
        · rw [List.getElem?_map, List.getElem?_range hi, Option.map_some, if_pos hi, List.getD_eq_getElem?_getD, List.getElem?_eq_getElem (by omega)]
          rfl
        · rw [List.getElem?_eq_none (by omega), List.getElem?_eq_none (by simp; omega)]
    · rintro ⟨y, h, rfl⟩
      rw [List.map_map]
      apply List.map_congr_left
      intro i hi
      have hi := List.mem_range.1 hi
      have := ((apply_elements t x n y0 y).1 h).1 i hi
      rw [hp i hi] at this
      exact this
  · obtain ⟨c1, c2⟩ := a2 ys _ hk
    cases hr : t.apply x n y0 with
    | err => rfl
    | ok y =>
      have hall := ((apply_elements t x n y0 y).1 hr).1
      have : ((List.range n).map fun i => (BtPar.of (lower i) (upper i)).trans (x i)).countP isErr = 0 := by
        rw [List.countP_eq_zero]
        intro r hr
        obtain ⟨i, hi, rfl⟩ := List.mem_map.1 hr
        have := hall i (List.mem_range.1 hi)
        rw [hp i (List.mem_range.1 hi)] at this
        rw [this]
        simp [isErr]
      omega
    | ub =>
      obtain ⟨i, hi, e, -⟩ := s2 hr
      rw [hp i hi] at e
      exact absurd (List.mem_map.2 ⟨i, List.mem_range.2 hi, e⟩) c2
  · obtain ⟨i, hi, e, -⟩ := s2 hu
    rw [hp i hi] at e
    exact a3.2 (List.mem_map.2 ⟨i, List.mem_range.2 hi, e⟩)

/-- **C113, constructors.** Both reject equal bounds. A lower bound above the upper bound is only rejected by the C++ class. -/
theorem C113_constructors (lower upper : Nat → K) (n : Nat) (hn : n ≠ 0) :
    ((∃ i < n, Arith.eq (lower i) (upper i) = true) →
      btMake ((List.range n).map fun i => (lower i, upper i)) = .err ∧ BTrans.init (some lower) (some upper) n = .err) ∧
    ((∀ i < n, Arith.eq (lower i) (upper i) = false) → (∃ i < n, Arith.lt (upper i) (lower i) = true) →
      btMake ((List.range n).map fun i => (lower i, upper i)) = .err ∧ ∃ t, BTrans.init (some lower) (some upper) n = .ok t) := by
  have hne : ∀ bs : List (K × K), btMake bs ≠ .ub := by
    intro bs
    induction bs with
    | nil => intro h; cases h
    | cons b bs ih =>
      intro h
      rw [btMake] at h
      have hm : BtPar.make b.1 b.2 ≠ .ub := by unfold BtPar.make; split <;> simp
      cases h1 : BtPar.make b.1 b.2 with
      | ok p =>
        rw [h1, Res.ok_bind] at h
        cases h2 : btMake bs with
        | ok qs => rw [h2] at h; cases h
        | err => rw [h2] at h; cases h
        | ub => exact ih h2
      | err => rw [h1] at h; cases h
      | ub => exact hm h1
  have herr : (∃ i < n, Arith.eq (lower i) (upper i) = true ∨ Arith.lt (upper i) (lower i) = true) → btMake ((List.range n).map fun i => (lower i, upper i)) = .err := by
    rintro ⟨i, hi, h⟩
    cases hr : btMake ((List.range n).map fun i => (lower i, upper i)) with
    | ok ps =>
      have := ((btMake_iff _ _).1 hr).1 (lower i, upper i) (List.mem_map.2 ⟨i, List.mem_range.2 hi, rfl⟩)
      dsimp only at this
      rcases h with h | h <;> simp_all
    | err => rfl
    | ub => exact absurd hr (hne _)
  refine ⟨fun h => ⟨herr ?_, (init_spec lower upper n hn).2 h⟩, fun h1 h2 => ⟨herr ?_, ?_⟩⟩
  · obtain ⟨i, hi, h⟩ := h; exact ⟨i, hi, .inl h⟩
  · obtain ⟨i, hi, h⟩ := h2; exact ⟨i, hi, .inr h⟩
  · obtain ⟨t, ht, -⟩ := (init_spec lower upper n hn).1 h1; exact ⟨t, ht⟩

theorem inverse_loop (t : BTrans K) (x y0 : Nat → K) (m : Nat) : forUp 0 m (fun i y =>
    if Arith.lt (set1 y i (x i) i) (t.lower (t.index i) + t.al (t.index i)) = true then
      set1 (set1 y i (x i)) i (t.lower (t.index i) - t.al (t.index i) + lit 2 * Arith.sqrt (t.al (t.index i) * (set1 y i (x i) i - t.lower (t.index i))))
    else if Arith.lt (t.upper (t.index i) - t.au (t.index i)) (set1 y i (x i) i) = true then
      set1 (set1 y i (x i)) i (t.upper (t.index i) + t.au (t.index i) - lit 2 * Arith.sqrt (t.au (t.index i) * (t.upper (t.index i) - set1 y i (x i) i)))
    else set1 y i (x i)) y0 = fun j => if j < m then (t.par j).inverse (x j) else y0 j := by
  rw [← forUp_each (fun j _ => (t.par j).inverse (x j))]
  congr 1
  funext i y
  rw [set1_same, set1_set1, set1_set1]
  unfold BtPar.inverse
  dsimp only [BTrans.par]
  split
  · rename_i h; simp only [h, if_true]
  · rename_i h
    split
    · rename_i h2; simp only [h, h2, if_true, if_false, Bool.false_eq_true]
    · rename_i h2; simp only [h, h2, if_false, Bool.false_eq_true]

/-- **C113, inverse.** If the inverse transformation of the reference implementation returns, it has computed that of the C++ program (C58). -/
theorem C113_inverse (lower upper : Nat → K) (n : Nat) (hn : n ≠ 0) (t : BTrans K) (ht : BTrans.init (some lower) (some upper) n = .ok t) (x y0 y : Nat → K)
    (h : t.inverse x n y0 = .ok y) : ∀ i < n, y i = (BtPar.of (lower i) (upper i)).inverse (x i) := by
  have hall : ∀ i < n, Arith.eq (lower i) (upper i) = false := fun i hi => by
    by_contra hc
    rw [(init_spec lower upper n hn).2 ⟨i, hi, by simpa using hc⟩] at ht
    cases ht
  obtain ⟨t', g1, -, g3⟩ := (init_spec lower upper n hn).1 hall
  rw [g1] at ht
  cases ht
  have hp : ∀ i < n, t.par i = BtPar.of (lower i) (upper i) := fun i hi => by rw [g3 i, if_pos hi]
  unfold BTrans.inverse at h
  dsimp only at h
  obtain ⟨y1, h1, h2⟩ := Res.bind_eq_ok.1 h
  simp only [Res.ok.injEq] at h2
  intro i hi
  rw [← h2, forUp_each (fun j _ => _)]
  dsimp only
  rw [if_pos hi, ← hp i hi]
  rw [inverse_loop]
  exact if_pos hi

theorem trans_within {lb ub : ℝ} {p : BtPar ℝ} (hp : BtPar.make lb ub = .ok p) {x y : ℝ} (h : p.trans x = .ok y) : lb ≤ y ∧ y ≤ ub := by
  obtain ⟨hg, rfl, rfl⟩ := BtPar.make_good hp
  unfold BtPar.trans at h
  by_cases hi : p.InRange x
  · obtain ⟨u, hu, hr⟩ := (BtPar.shift_spec hg _).1 hi
    rw [hu, Res.ok_bind, BtPar.bug_false u hr.within, BtPar.squash_eq] at h
    simp only [Bool.false_eq_true, if_false, Res.ok.injEq] at h
    rw [← h]
    exact BtPar.bend_within hg hr.within
  · rw [(BtPar.shift_spec hg _).2 hi] at h
    cases h

/-- **C113, the promises of the header** (spot_test/c-cmaes/boundary_transformation.h:46-60), in exact arithmetic: what the transformation returns is within the bounds, and the inverse
transformation followed by the transformation has no effect on it. -/
theorem C113_promises (lower upper : Nat → ℝ) (n : Nat) (hn : n ≠ 0) (hb : ∀ i < n, lower i < upper i) : ∃ t, BTrans.init (some lower) (some upper) n = .ok t ∧
    ∀ x y0 y : Nat → ℝ, t.apply x n y0 = .ok y → (∀ i < n, lower i ≤ y i ∧ y i ≤ upper i) ∧
      ∀ z0 w0 : Nat → ℝ, ∃ z w, t.inverse y n z0 = .ok z ∧ t.apply z n w0 = .ok w ∧ ∀ i < n, w i = y i := by
  have hmake : ∀ i < n, BtPar.make (lower i) (upper i) = .ok (BtPar.of (lower i) (upper i)) := fun i hi =>
    (make_iff _ _ _).2 ⟨by rw [eq_real]; simpa using (hb i hi).ne, by rw [lt_real]; simpa using (hb i hi).le, rfl⟩
  obtain ⟨t, g1, -, g3⟩ := (init_spec lower upper n hn).1 fun i hi => by rw [eq_real]; simpa using (hb i hi).ne
  have hp : ∀ i < n, t.par i = BtPar.of (lower i) (upper i) := fun i hi => by rw [g3 i, if_pos hi]
  refine ⟨t, g1, fun x y0 y h => ?_⟩
  have hw : ∀ i < n, lower i ≤ y i ∧ y i ≤ upper i := fun i hi => by
    have := ((apply_elements t x n y0 y).1 h).1 i hi
    rw [hp i hi] at this
    exact trans_within (hmake i hi) this
  refine ⟨hw, fun z0 w0 => ?_⟩
  have hall : ∀ (z u0 : Nat → ℝ), (∀ i < n, z i = (BtPar.of (lower i) (upper i)).inverse (y i)) → ∃ w, t.apply z n u0 = .ok w ∧ ∀ i < n, w i = y i := by
    intro z u0 hz
    refine ⟨fun i => if i < n then y i else u0 i, (apply_elements t z n u0 _).2 ⟨fun i hi => ?_, fun i hi => if_neg (by omega)⟩, fun i hi => if_pos hi⟩
    rw [hp i hi, if_pos hi, hz i hi]
    exact C58_inverse (hmake i hi) (hw i hi).1 (hw i hi).2
  obtain ⟨z, hz⟩ : ∃ z, t.inverse y n z0 = .ok z := by
    unfold BTrans.inverse
    dsimp only
    rw [inverse_loop]
    obtain ⟨w, h1, -⟩ := hall (fun j => if j < n then (t.par j).inverse (y j) else z0 j) (fun j => if j < n then (t.par j).inverse (y j) else z0 j)
      (fun i hi => by rw [if_pos hi, hp i hi])
    rw [h1, Res.ok_bind]
    exact ⟨_, rfl⟩
  obtain ⟨w, h1, h2⟩ := hall z w0 (C113_inverse lower upper n hn t g1 y z0 z hz)
  exact ⟨z, w, hz, h1, h2⟩

theorem apply_congr (t t' : BTrans K) (x : Nat → K) (m : Nat) (y0 : Nat → K) (h : ∀ i < m, t.par i = t'.par i) : t.apply x m y0 = t'.apply x m y0 := by
  unfold BTrans.apply
  rw [shift_elements, shift_elements, forRes_congr (g := fun i y => ((t'.par i).shift (x i) >>= fun v => if (t'.par i).bug v then .err else .ok v) >>= fun v => .ok (set1 y i v)) m (fun i hi y => by rw [h i hi])]
  congr 1
  funext y
  rw [quadratic_elements, quadratic_elements]
  congr 1
  funext j
  by_cases hj : j < m
  · simp only [if_pos hj, h j hj]
  · simp only [if_neg hj]

/-- **C113, more variables than bounds.** The last bounds are used for all further variables: the program does what it would do if it had been given them again for each. -/
theorem C113_recycling (lower upper : Nat → K) (n m : Nat) (hn : n ≠ 0) (hm : n ≤ m) (t : BTrans K) (ht : BTrans.init (some lower) (some upper) n = .ok t) :
    ∃ t', BTrans.init (some fun i => if i < n then lower i else lower (n - 1)) (some fun i => if i < n then upper i else upper (n - 1)) m = .ok t' ∧
      ∀ x y0 : Nat → K, t.apply x m y0 = t'.apply x m y0 := by
  have hall : ∀ i < n, Arith.eq (lower i) (upper i) = false := fun i hi => by
    by_contra hc
    rw [(init_spec lower upper n hn).2 ⟨i, hi, by simpa using hc⟩] at ht
    cases ht
  obtain ⟨t1, g1, -, g3⟩ := (init_spec lower upper n hn).1 hall
  rw [g1] at ht
  cases ht
  obtain ⟨t', k1, -, k3⟩ := (init_spec (fun i => if i < n then lower i else lower (n - 1)) (fun i => if i < n then upper i else upper (n - 1)) m (by omega)).1 (by
    intro i _
    split
    · exact hall i (by assumption)
    · exact hall (n - 1) (by omega))
  refine ⟨t', k1, fun x y0 => apply_congr t t' x m y0 fun i hi => ?_⟩
  rw [g3, k3]
  simp only [if_pos hi]
  split <;> rfl

/-- What `cmaes_boundary_trans` makes of a value between two limits that no comparison reaches. -/
theorem trans_inside (p : BtPar K) (x : K) (h1 : Arith.lt x p.xlow = false) (h2 : Arith.lt p.xup x = false) (h3 : Arith.lt x (p.lb - p.al) = false) (h4 : Arith.lt (p.ub + p.au) x = false)
    (h5 : Arith.lt x (p.lb - p.al - lit (1 / 10 ^ 15)) = false) (h6 : Arith.lt (p.ub + p.au + lit (1 / 10 ^ 15)) x = false) (h7 : Arith.lt x (p.lb + p.al) = false)
    (h8 : Arith.lt (p.ub - p.au) x = false) : p.trans x = .ok x := by
  simp only [BtPar.trans, BtPar.shift, BtPar.up, BtPar.down, BtPar.mirror, BtPar.bug, BtPar.squash, h1, h2, h3, h4, h5, h6, h7, h8, Res.ok_bind, Bool.false_eq_true, if_false, Bool.or_false]

theorem not_lt_below {x a : Dbl} {q : ℚ} (hx : Dbl.le (.fin q) x = true) (ha : Dbl.le a (.fin q) = true) : Dbl.lt x a = false := by
  cases x <;> cases a <;> simp_all [Dbl.le, Dbl.lt]
  linarith

theorem not_lt_above {x a : Dbl} {q : ℚ} (hx : Dbl.le x (.fin q) = true) (ha : Dbl.le (.fin q) a = true) : Dbl.lt a x = false := by
  cases x <;> cases a <;> simp_all [Dbl.le, Dbl.lt]
  linarith

/-- The limits by default, in doubles. -/
def defaultPar : BtPar Dbl :=
  let lb := Dbl.ofQ (-(Dbl.maxQ / 100))
  let ub := Dbl.ofQ (Dbl.maxQ / 100)
  ⟨lb, ub, Dbl.div (Dbl.add (.ofQ 1) ub) (.ofQ 20), Dbl.div (Dbl.add (.ofQ 1) ub) (.ofQ 20)⟩

theorem default_limits : let p := defaultPar
    let d := Dbl.div (Dbl.sub p.ub p.lb) (.ofQ 2)
    Dbl.eq d d = true ∧ Dbl.eq p.al p.al = true ∧ Dbl.lt p.al d = true ∧ (if Dbl.lt p.lb (.ofQ 0) = true then Dbl.neg p.lb else p.lb) = p.ub ∧ (if Dbl.lt p.ub (.ofQ 0) = true then Dbl.neg p.ub else p.ub) = p.ub ∧
    Dbl.le (Dbl.sub (Dbl.sub p.lb (Dbl.mul (.ofQ 2) p.al)) d) (.fin (-10 ^ 306)) = true ∧ Dbl.le (.fin (10 ^ 306)) (Dbl.add (Dbl.add p.ub (Dbl.mul (.ofQ 2) p.au)) d) = true ∧
    Dbl.le (Dbl.sub p.lb p.al) (.fin (-10 ^ 306)) = true ∧ Dbl.le (.fin (10 ^ 306)) (Dbl.add p.ub p.au) = true ∧
    Dbl.le (Dbl.sub (Dbl.sub p.lb p.al) (.ofQ (1 / 10 ^ 15))) (.fin (-10 ^ 306)) = true ∧ Dbl.le (.fin (10 ^ 306)) (Dbl.add (Dbl.add p.ub p.au) (.ofQ (1 / 10 ^ 15))) = true ∧
    Dbl.le (Dbl.add p.lb p.al) (.fin (-10 ^ 306)) = true ∧ Dbl.le (.fin (10 ^ 306)) (Dbl.sub p.ub p.au) = true := by decide +kernel

/-- **C113, no bounds.** Without bounds (`len_of_bounds` 0 or two NULL pointers for one variable) the transformation leaves every vector of doubles between -1e306 and 1e306 as it is, of
whatever length. -/
theorem C113_default [Libm] (lower upper : Option (Nat → Dbl)) : ∃ t, BTrans.init (K := Dbl) lower upper 0 = .ok t ∧ BTrans.init (K := Dbl) none none 1 = .ok t ∧
    ∀ (x y0 : Nat → Dbl) (m : Nat), (∀ i < m, Dbl.le (.fin (-10 ^ 306)) (x i) = true ∧ Dbl.le (x i) (.fin (10 ^ 306)) = true) →
      ∃ y, t.apply x m y0 = .ok y ∧ ∀ i < m, y i = x i := by
  have he : ∀ i < 1, Arith.eq (defaultLower Dbl i) (defaultUpper Dbl i) = false := fun i _ => by
    show Dbl.eq (Dbl.ofQ _) (Dbl.ofQ _) = false
    decide +kernel
  obtain ⟨t, g1, -, g3⟩ := (init_spec (defaultLower Dbl) (defaultUpper Dbl) 1 (by omega)).1 he
  refine ⟨t, by rw [← g1]; rfl, by rw [← g1]; rfl, fun x y0 m hx => ?_⟩
  refine ⟨fun i => if i < m then x i else y0 i, (apply_elements t x m y0 _).2 ⟨fun i hi => ?_, fun i hi => if_neg (by omega)⟩, fun i hi => if_pos hi⟩
  rw [if_pos hi, g3 i]
  have hp : BtPar.of (defaultLower Dbl (if i < 1 then i else 1 - 1)) (defaultUpper Dbl (if i < 1 then i else 1 - 1)) = defaultPar := by
    have : (if i < 1 then i else 1 - 1) = 0 := by split <;> omega
    rw [this]
    obtain ⟨a1, a2, a3, a4, a5, -⟩ := default_limits
    have f : ∀ a b : Dbl, Dbl.eq a a = true → Dbl.eq b b = true → Dbl.lt b a = true → fmin a b = b := by
      intro a b h1 h2 h3
      unfold fmin
      rw [if_neg (by show ¬ (!Dbl.eq a a) = true; rw [h1]; decide), if_neg (by show ¬ (!Dbl.eq b b) = true; rw [h2]; decide), if_pos (show Arith.lt b a = true from h3)]
    unfold BtPar.of
    have e1 : (lit 1 + Arith.abs (defaultLower Dbl 0)) / lit 20 = defaultPar.al := by
      show Dbl.div (Dbl.add (.ofQ 1) (if Dbl.lt defaultPar.lb (.ofQ 0) = true then Dbl.neg defaultPar.lb else defaultPar.lb)) (.ofQ 20) = _
      rw [a4]; rfl
    have e2 : (lit 1 + Arith.abs (defaultUpper Dbl 0)) / lit 20 = defaultPar.al := by
      show Dbl.div (Dbl.add (.ofQ 1) (if Dbl.lt defaultPar.ub (.ofQ 0) = true then Dbl.neg defaultPar.ub else defaultPar.ub)) (.ofQ 20) = _
      rw [a5]; rfl
    rw [e1, e2, show (defaultUpper Dbl 0 - defaultLower Dbl 0) / lit 2 = Dbl.div (Dbl.sub defaultPar.ub defaultPar.lb) (.ofQ 2) from rfl, f _ _ a1 a2 a3]
    rfl
  rw [hp]
  obtain ⟨-, -, -, -, -, b1, b2, b3, b4, b5, b6, b7, b8⟩ := default_limits
  obtain ⟨l1, l2⟩ := hx i hi
  exact trans_inside _ _ (not_lt_below l1 b1) (not_lt_above l2 b2) (not_lt_below l1 b3) (not_lt_above l2 b4)
    (not_lt_below l1 b5) (not_lt_above l2 b6) (not_lt_below l1 b7) (not_lt_above l2 b8)

/-! ## Examples: the hypotheses can be met -/

/-- The transformer is constructed and logs nothing. -/
def returns [Libm] (m : Res (List (BtPar Dbl))) (xs : List Dbl) : Bool :=
  match m with
  | .ok ps =>
    match btApply ps xs with
    | .ok (_, 0) => true
    | _ => false
  | _ => false

/-- In doubles: two variables with the bounds [0, 1] and [-5, 5]; the first value is shifted, mirrored and transformed, the second is transformed near the bound. Nothing is logged. -/
example : letI : Libm := ⟨id, id, id, fun a _ => a⟩
    ∃ ps ys, btMake ((List.range 2).map fun i => ((if i = 0 then .fin 0 else .fin (-5) : Dbl), (if i = 0 then .fin 1 else .fin 5 : Dbl))) = .ok ps ∧
      btApply ps ((List.range 2).map fun i => (if i = 0 then .fin 2 else .fin 5 : Dbl)) = .ok (ys, 0) := by
  letI : Libm := ⟨id, id, id, fun a _ => a⟩
  have h : returns (btMake ((List.range 2).map fun i => ((if i = 0 then .fin 0 else .fin (-5) : Dbl), (if i = 0 then .fin 1 else .fin 5 : Dbl))))
      ((List.range 2).map fun i => (if i = 0 then .fin 2 else .fin 5 : Dbl)) = true := by decide +kernel
  unfold returns at h
  split at h
  · rename_i ps hp
    split at h
    · rename_i ys ha
      exact ⟨ps, ys, hp, ha⟩
    · cases h
  · cases h

/-- Three variables and no bounds. -/
example [Libm] : ∀ i < 3, Dbl.le (.fin (-10 ^ 306)) (Dbl.fin ((i : Nat) : ℚ)) = true ∧ Dbl.le (Dbl.fin ((i : Nat) : ℚ)) (.fin (10 ^ 306)) = true := by decide +kernel

/-- One pair of bounds for any number of variables. -/
example (m : Nat) (hm : 1 ≤ m) : ∃ t t', BTrans.init (K := ℝ) (some fun _ => 0) (some fun _ => 1) 1 = .ok t ∧ BTrans.init (K := ℝ) (some fun _ => 0) (some fun _ => 1) m = .ok t' ∧
    ∀ x y0, t.apply x m y0 = t'.apply x m y0 := by
  obtain ⟨t, ht, -⟩ := (init_spec (K := ℝ) (fun _ => 0) (fun _ => 1) 1 (by omega)).1 fun i hi => by rw [eq_real]; simp
  obtain ⟨t', ht', h⟩ := C113_recycling _ _ 1 m (by omega) hm t ht
  simp only [ite_self] at ht'
  exact ⟨t, t', ht, ht', h⟩

/-- In exact arithmetic, `n` variables with the bounds [0, 1], [1, 2], ...: the promises hold for a call that returns. -/
example (n : Nat) (hn : n ≠ 0) : ∃ t, BTrans.init (some fun i => ((i : Nat) : ℝ)) (some fun i => ((i : Nat) : ℝ) + 1) n = .ok t ∧ ∀ y0, ∃ y, t.apply (fun i => ((i : Nat) : ℝ) + 1 / 2) n y0 = .ok y := by
  obtain ⟨t, g1, -, g3⟩ := (init_spec (fun i => ((i : Nat) : ℝ)) (fun i => ((i : Nat) : ℝ) + 1) n hn).1 fun i hi => by rw [eq_real]; simp
  refine ⟨t, g1, fun y0 => ?_⟩
  have h : ∀ i < n, ∃ v, (t.par i).trans (((i : Nat) : ℝ) + 1 / 2) = .ok v := fun i hi => by
    have hm : BtPar.make (i : ℝ) ((i : ℝ) + 1) = .ok (t.par i) := by
      rw [g3 i, if_pos hi]
      exact (make_iff _ _ _).2 ⟨by rw [eq_real]; simp, by rw [lt_real]; simp, rfl⟩
    obtain ⟨hg, e1, e2⟩ := BtPar.make_good hm
    have h1 := hg.al_pos
    have h2 := hg.au_pos
    obtain ⟨y, hy, -⟩ := C58_inverse_of_trans hm (x := (i : ℝ) + 1 / 2) (by linarith) (by linarith)
    exact ⟨y, hy⟩
  refine ⟨fun i => if hi : i < n then (h i hi).choose else y0 i, (apply_elements t _ n y0 _).2 ⟨fun i hi => ?_, fun i hi => dif_neg (by omega)⟩⟩
  rw [dif_pos hi]
  exact (h i hi).choose_spec

end Spot.Ref
