import Verif.Model.CRef
import Verif.Lemmas.Loops
import Verif.Lemmas.Cma

/-! # The loops of the reference implementation in closed form -/

set_option linter.unusedSectionVars false

namespace Spot

section
variable {K : Type} [Arith K]

theorem range_finRange (n : Nat) : List.range n = (List.finRange n).map Fin.val := by
  exact (List.map_coe_finRange_eq_range (n := n)).symm

theorem forUp_sum (n : Nat) (f : Nat → K) : forUp 0 n (fun j s => s + f j) (lit 0) = sumFin fun j : Fin n => f j := by
  unfold forUp sumFin
  rw [Nat.sub_zero, ← List.range_eq_range', range_finRange, List.foldl_map]

theorem forUp_sumLoop (n : Nat) (f : Nat → K) : forUp 0 n (fun j s => s + f j) (lit 0) = sumLoop n f := by
  unfold forUp sumLoop
  rw [Nat.sub_zero, ← List.range_eq_range']

theorem sumLoop_congr {n : Nat} {f g : Nat → K} (h : ∀ k < n, f k = g k) : sumLoop n f = sumLoop n g := by
  unfold sumLoop
  have : ∀ (l : List Nat) (a : K), (∀ k ∈ l, f k = g k) → l.foldl (fun s i => s + f i) a = l.foldl (fun s i => s + g i) a := by
    intro l
    induction l with
    | nil => intros; rfl
    | cons x l ih =>
      intro a hl
      simp only [List.foldl_cons]
      rw [hl x (by simp), ih _ (fun k hk => hl k (by simp [hk]))]
  exact this _ _ fun k hk => h k (List.mem_range.1 hk)

theorem sumFin_congr {n : Nat} {f g : Fin n → K} (h : ∀ k, f k = g k) : sumFin f = sumFin g := by
  rw [funext h]

theorem drawN_length (G : GaussSrc K) : ∀ (k : Nat) (e : G.St), (drawN G k e).1.length = k
  | 0, _ => rfl
  | k + 1, e => by simp [drawN, drawN_length G k]

theorem getD_snoc_self {l : List K} {k : Nat} (h : l.length = k) (a d : K) : (l ++ [a]).getD k d = a := by
  subst h; simp

theorem getD_snoc_lt {l : List K} {k : Nat} (h : k < l.length) (a d : K) : (l ++ [a]).getD k d = l.getD k d := by
  simp [List.getD, List.getElem?_append_left h]

theorem drawN_last (G : GaussSrc K) : ∀ (k : Nat) (e : G.St), drawN G (k + 1) e =
    ((drawN G k e).1 ++ [(G.next (drawN G k e).2).1], (G.next (drawN G k e).2).2)
  | 0, e => rfl
  | k + 1, e => by
    rw [show drawN G (k + 1 + 1) e = ((G.next e).1 :: (drawN G (k + 1) (G.next e).2).1, (drawN G (k + 1) (G.next e).2).2) from rfl, drawN_last G k]
    rfl

/-- Two sources of Gaussian numbers that return the same numbers in related states. -/
def GaussSrc.Sim (G H : GaussSrc K) (R : G.St → H.St → Prop) : Prop := ∀ e d, R e d → (G.next e).1 = (H.next d).1 ∧ R (G.next e).2 (H.next d).2

theorem sim_drawN {G H : GaussSrc K} {R : G.St → H.St → Prop} (hR : G.Sim H R) : ∀ (k : Nat) (e : G.St) (d : H.St), R e d →
    (drawN G k e).1 = (drawN H k d).1 ∧ R (drawN G k e).2 (drawN H k d).2
  | 0, _, _, h => ⟨rfl, h⟩
  | k + 1, e, d, h => by
    obtain ⟨h1, h2⟩ := hR e d h
    obtain ⟨h3, h4⟩ := sim_drawN hR k _ _ h2
    exact ⟨by simp only [drawN]; rw [h1, h3], h4⟩

end

namespace Ref

variable {K : Type} [Arith K] {H : GaussSrc K}

/-- The product of `B` with `rgdTmp`, row `i`. -/
def Cmaes.bz (t : Cmaes H) (i : Nat) : K := sumFin fun j : Fin t.sp.N => t.B i j * t.rgdTmp j

theorem gaussLoop (m : Nat) (t : Cmaes H) :
    forUp 0 m (fun i (t : Cmaes H) => { t with rgdTmp := set1 t.rgdTmp i (t.rgD i * (H.next t.rand).1), rand := (H.next t.rand).2 }) t =
      { t with rgdTmp := fun i => if i < m then t.rgD i * (drawN H m t.rand).1.getD i (lit 0) else t.rgdTmp i, rand := (drawN H m t.rand).2 } := by
  refine forUp_inv (fun m u => u = { t with rgdTmp := fun i => if i < m then t.rgD i * (drawN H m t.rand).1.getD i (lit 0) else t.rgdTmp i
                                            rand := (drawN H m t.rand).2 }) (Nat.zero_le m) ?_ ?_
  · simp [drawN]
  · rintro i _ - - rfl
    simp only [drawN_last, Cmaes.mk.injEq, true_and, and_true]
    funext j
    have hl := drawN_length H i t.rand
    by_cases hj : j = i
    · subst hj
      rw [set1_same, if_pos (by omega), getD_snoc_self hl]
    · rw [set1_ne _ _ hj]
      by_cases h : j < i
      · rw [if_pos h, if_pos (by omega), getD_snoc_lt (by omega)]
      · rw [if_neg h, if_neg (by omega)]

theorem diagLoop (k m : Nat) (t : Cmaes H) :
    forUp 0 m (fun i (t : Cmaes H) => { t with rgrgx := set2 t.rgrgx k i (t.rgxmean i + t.sigma * t.rgD i * (H.next t.rand).1), rand := (H.next t.rand).2 }) t =
      { t with rgrgx := fun a i => if a = k ∧ i < m then t.rgxmean i + t.sigma * t.rgD i * (drawN H m t.rand).1.getD i (lit 0) else t.rgrgx a i
               rand := (drawN H m t.rand).2 } := by
  refine forUp_inv (fun m u => u = { t with
      rgrgx := fun a i => if a = k ∧ i < m then t.rgxmean i + t.sigma * t.rgD i * (drawN H m t.rand).1.getD i (lit 0) else t.rgrgx a i
      rand := (drawN H m t.rand).2 }) (Nat.zero_le m) ?_ ?_
  · simp [drawN]
  · rintro i _ - - rfl
    simp only [drawN_last, Cmaes.mk.injEq, true_and, and_true]
    funext a j
    have hl := drawN_length H i t.rand
    by_cases hj : a = k ∧ j = i
    · obtain ⟨rfl, rfl⟩ := hj
      rw [set2_same, if_pos ⟨rfl, by omega⟩, getD_snoc_self hl]
    · rw [set2_ne _ _ hj]
      by_cases h : a = k ∧ j < i
      · rw [if_pos h, if_pos ⟨h.1, by omega⟩, getD_snoc_lt (by omega)]
      · rw [if_neg h, if_neg (by omega)]

theorem mutate_eq (k : Nat) (t : Cmaes H) :
    t.mutate k = { t with rgrgx := fun a i => if a = k ∧ i < t.sp.N then t.rgxmean i + t.sigma * t.bz i else t.rgrgx a i } := by
  unfold Cmaes.mutate
  refine forUp_inv (fun m u => u = { t with rgrgx := fun a i => if a = k ∧ i < m then t.rgxmean i + t.sigma * t.bz i else t.rgrgx a i }) (Nat.zero_le _) ?_ ?_
  · simp
  · rintro i _ - - rfl
    simp only [forUp_sum, Cmaes.mk.injEq, true_and, and_true]
    funext a j
    by_cases hj : a = k ∧ j = i
    · obtain ⟨rfl, rfl⟩ := hj
      rw [set2_same, if_pos ⟨rfl, by omega⟩]
      rfl
    · rw [set2_ne _ _ hj]
      by_cases h : a = k ∧ j < i
      · rw [if_pos h, if_pos ⟨h.1, by omega⟩]
      · rw [if_neg h, if_neg (by omega)]

theorem assign_eq (f : Nat → Dbl) (t : Cmaes H) :
    t.assign f = { t with rgFuncValue := fun i => if i < t.sp.lambda.toNat then f i else t.rgFuncValue i } := by
  unfold Cmaes.assign
  refine forUp_inv (fun m u => u = { t with rgFuncValue := fun i => if i < m then f i else t.rgFuncValue i }) (Nat.zero_le _) ?_ ?_
  · simp
  · rintro i _ - - rfl
    simp only [Cmaes.mk.injEq, true_and, and_true]
    funext j
    by_cases hj : j = i
    · subst hj; simp
    · rw [set1_ne _ _ hj]
      by_cases h : j < i
      · rw [if_pos h, if_pos (by omega)]
      · rw [if_neg h, if_neg (by omega)]

theorem meanLoop (i m : Nat) (t : Cmaes H) :
    forUp 0 m (fun iNk (t : Cmaes H) => { t with rgxmean := set1 t.rgxmean i (t.rgxmean i + t.sp.weights iNk * t.rgrgx (t.index iNk) i) }) t =
      { t with rgxmean := set1 t.rgxmean i (forUp 0 m (fun k a => a + t.sp.weights k * t.rgrgx (t.index k) i) (t.rgxmean i)) } := by
  refine forUp_inv (fun m u => u = { t with rgxmean := set1 t.rgxmean i (forUp 0 m (fun k a => a + t.sp.weights k * t.rgrgx (t.index k) i) (t.rgxmean i)) }) (Nat.zero_le _) ?_ ?_
  · rw [forUp_of_le (Nat.le_refl 0)]
    have : set1 t.rgxmean i (t.rgxmean i) = t.rgxmean := by
      funext j
      by_cases h : j = i
      · subst h; simp
      · rw [set1_ne _ _ h]
    rw [this]
  · rintro k _ - - rfl
    simp only [Cmaes.mk.injEq, true_and, and_true, forUp_succ (Nat.zero_le k), set1_same]
    funext j
    by_cases h : j = i
    · subst h; simp
    · simp [set1_ne _ _ h]

/-- The weighted sum of the best individuals, coordinate `i`. -/
def Cmaes.centroid (t : Cmaes H) (i : Nat) : K := sumLoop t.sp.mu.toNat fun k => t.sp.weights k * t.rgrgx (t.index k) i

theorem step_if {α : Type} {i j : Nat} (h : ¬j = i) (a b : α) : (if j < i then a else b) = if j < i + 1 then a else b := by
  congr 1
  simp only [eq_iff_iff]
  omega

/-- `rgBDz[i]` after recombination. -/
def Cmaes.newBDz (t : Cmaes H) (i : Nat) : K := Arith.sqrt t.sp.mueff * (t.centroid i - t.rgxmean i) / t.sigma

theorem recombine_eq (t : Cmaes H) :
    t.recombine = { t with
      rgxold := fun i => if i < t.sp.N then t.rgxmean i else t.rgxold i
      rgxmean := fun i => if i < t.sp.N then t.centroid i else t.rgxmean i
      rgBDz := fun i => if i < t.sp.N then t.newBDz i else t.rgBDz i } := by
  unfold Cmaes.recombine
  refine forUp_inv (fun m u => u = { t with
      rgxold := fun i => if i < m then t.rgxmean i else t.rgxold i
      rgxmean := fun i => if i < m then t.centroid i else t.rgxmean i
      rgBDz := fun i => if i < m then t.newBDz i else t.rgBDz i }) (Nat.zero_le _) ?_ ?_
  · simp
  · rintro i _ - - rfl
    simp only [meanLoop, set1_same]
    simp only [Cmaes.mk.injEq, true_and, and_true, lt_irrefl, if_false, forUp_sumLoop]
    refine ⟨?_, ?_, ?_⟩ <;> funext j <;> by_cases h : j = i
    · subst h; simp [Cmaes.centroid]
    · simp only [set1_ne _ _ h, step_if h]
    · subst h; simp
    · simp only [set1_ne _ _ h, step_if h]
    · subst h; simp [Cmaes.centroid, Cmaes.newBDz]
    · simp only [set1_ne _ _ h, step_if h]

/-- `rgdTmp[i]` after whitening. -/
def Cmaes.white (t : Cmaes H) (d : Bool) (i : Nat) : K := (if !d then sumFin fun j : Fin t.sp.N => t.B j i * t.rgBDz j else t.rgBDz i) / t.rgD i

theorem whiten_eq (d : Bool) (t : Cmaes H) : t.whiten d = { t with rgdTmp := fun i => if i < t.sp.N then t.white d i else t.rgdTmp i } := by
  unfold Cmaes.whiten
  refine forUp_inv (fun m u => u = { t with rgdTmp := fun i => if i < m then t.white d i else t.rgdTmp i }) (Nat.zero_le _) ?_ ?_
  · simp
  · rintro i _ - - rfl
    simp only [forUp_sum, Cmaes.mk.injEq, true_and, and_true]
    funext j
    by_cases h : j = i
    · subst h; simp [Cmaes.white]
    · simp only [set1_ne _ _ h, step_if h]

/-- `rgps[i]` after cumulation. -/
def Cmaes.newPs (t : Cmaes H) (d : Bool) (i : Nat) : K := (lit 1 - t.sp.cs) * t.rgps i + Arith.sqrt (t.sp.cs * (lit 2 - t.sp.cs)) *
  (if !d then sumFin fun j : Fin t.sp.N => t.B i j * t.rgdTmp j else t.rgdTmp i)

theorem cumulateSigma_eq (d : Bool) (t : Cmaes H) : t.cumulateSigma d = { t with rgps := fun i => if i < t.sp.N then t.newPs d i else t.rgps i } := by
  unfold Cmaes.cumulateSigma
  refine forUp_inv (fun m u => u = { t with rgps := fun i => if i < m then t.newPs d i else t.rgps i }) (Nat.zero_le _) ?_ ?_
  · simp
  · rintro i _ - - rfl
    simp only [forUp_sum, Cmaes.mk.injEq, true_and, and_true, lt_irrefl, if_false]
    funext j
    by_cases h : j = i
    · subst h; simp [Cmaes.newPs]
    · simp only [set1_ne _ _ h, step_if h]

/-- `rgpc[i]` after cumulation. -/
def Cmaes.newPc (t : Cmaes H) (hs : Bool) (i : Nat) : K :=
  (lit 1 - t.sp.ccumcov) * t.rgpc i + lit (if hs then 1 else 0) * Arith.sqrt (t.sp.ccumcov * (lit 2 - t.sp.ccumcov)) * t.rgBDz i

theorem cumulateC_eq (hs : Bool) (t : Cmaes H) : t.cumulateC hs = { t with rgpc := fun i => if i < t.sp.N then t.newPc hs i else t.rgpc i } := by
  unfold Cmaes.cumulateC
  refine forUp_inv (fun m u => u = { t with rgpc := fun i => if i < m then t.newPc hs i else t.rgpc i }) (Nat.zero_le _) ?_ ?_
  · simp
  · rintro i _ - - rfl
    simp only [Cmaes.mk.injEq, true_and, and_true, lt_irrefl, if_false]
    funext j
    by_cases h : j = i
    · subst h; simp [Cmaes.newPc]
    · simp only [set1_ne _ _ h, step_if h]

/-- `ccov1` of `Adapt_C2`. -/
def Cmaes.ccov1 (t : Cmaes H) (d : Bool) : K :=
  douMin (t.sp.ccov * (lit 1 / t.sp.mucov) * (if d then (lit (t.sp.N : ℚ) + lit (3 / 2)) / lit 3 else lit 1)) (lit 1)
def Cmaes.ccovmu (t : Cmaes H) (d : Bool) : K :=
  douMin (t.sp.ccov * (lit 1 - lit 1 / t.sp.mucov) * (if d then (lit (t.sp.N : ℚ) + lit (3 / 2)) / lit 3 else lit 1)) (lit 1 - t.ccov1 d)

/-- The new element of the covariance matrix. -/
def Cmaes.newC (t : Cmaes H) (hs : Bool) (i j : Nat) : K :=
  forUp 0 t.sp.mu.toNat (fun k a => a + t.ccovmu t.flgdiag * t.sp.weights k * (t.rgrgx (t.index k) i - t.rgxold i) * (t.rgrgx (t.index k) j - t.rgxold j) / (t.sigma * t.sigma))
    ((lit 1 - t.ccov1 t.flgdiag - t.ccovmu t.flgdiag) * t.C i j + t.ccov1 t.flgdiag * (t.rgpc i * t.rgpc j +
        lit (1 - (if hs then 1 else 0)) * t.sp.ccumcov * (lit 2 - t.sp.ccumcov) * t.C i j))

theorem set2_id (V : Nat → Nat → K) (i j : Nat) : set2 V i j (V i j) = V := by
  funext a b
  by_cases h : a = i ∧ b = j
  · obtain ⟨rfl, rfl⟩ := h; simp
  · rw [set2_ne _ _ h]

theorem adaptLoop (t : Cmaes H) (i j m : Nat) (c s : K) :
    forUp 0 m (fun k (t : Cmaes H) => { t with C := set2 t.C i j (t.C i j + c * t.sp.weights k
        * (t.rgrgx (t.index k) i - t.rgxold i) * (t.rgrgx (t.index k) j - t.rgxold j) / s) }) t =
      { t with C := set2 t.C i j (forUp 0 m (fun k a => a + c * t.sp.weights k
        * (t.rgrgx (t.index k) i - t.rgxold i) * (t.rgrgx (t.index k) j - t.rgxold j) / s) (t.C i j)) } := by
  refine forUp_inv (fun m u => u = { t with C := set2 t.C i j (forUp 0 m (fun k a => a + c * t.sp.weights k
        * (t.rgrgx (t.index k) i - t.rgxold i) * (t.rgrgx (t.index k) j - t.rgxold j) / s) (t.C i j)) }) (Nat.zero_le _) ?_ ?_
  · rw [forUp_of_le (Nat.le_refl 0), set2_id]
  · rintro k _ - - rfl
    simp only [Cmaes.mk.injEq, true_and, and_true, forUp_succ (Nat.zero_le k), set2_same]
    funext a b
    by_cases h : a = i ∧ b = j
    · obtain ⟨rfl, rfl⟩ := h; simp
    · simp [set2_ne _ _ h]

theorem adaptC2_eq (hs : Bool) (t : Cmaes H) :
    t.adaptC2 hs = if Arith.eq t.sp.ccov (lit 0) then t else
      { t with flgEigensysIsUptodate := false, C := fun i j => if i < t.sp.N ∧ (if t.flgdiag then i else 0) ≤ j ∧ j ≤ i then t.newC hs i j else t.C i j } := by
  unfold Cmaes.adaptC2
  by_cases hc : Arith.eq t.sp.ccov (lit 0) = true
  · simp [hc]
  · simp only [hc, Bool.not_false, if_true, Bool.false_eq_true, if_false]
    refine forUp_inv (fun m u => u = { t with flgEigensysIsUptodate := false
                                              C := fun i j => if i < m ∧ (if t.flgdiag then i else 0) ≤ j ∧ j ≤ i then t.newC hs i j else t.C i j }) (Nat.zero_le _) ?_ ?_
    · simp
    · rintro i _ - - rfl
      have hle : (if t.flgdiag then i else 0) ≤ i + 1 := by split <;> omega
      refine (forUp_inv (fun m u => u = { t with
          flgEigensysIsUptodate := false
          C := fun a b => if (a < i ∧ (if t.flgdiag then a else 0) ≤ b ∧ b ≤ a) ∨ (a = i ∧ (if t.flgdiag then i else 0) ≤ b ∧ b < m) then t.newC hs a b else t.C a b }) hle ?_ ?_).trans ?_
      · congr 1
        funext a b
        congr 1
        simp only [eq_iff_iff]
        constructor
        · intro h; exact .inl h
        · rintro (h | h)
          · exact h
          · omega
      · rintro j _ h1 h2 rfl
        simp only [adaptLoop]
        simp only [set2_same, Cmaes.mk.injEq, true_and, and_true]
        funext a b
        by_cases h : a = i ∧ b = j
        · obtain ⟨rfl, rfl⟩ := h
          have e1 : ¬((a < a ∧ (if t.flgdiag then a else 0) ≤ b ∧ b ≤ a) ∨ ((if t.flgdiag then a else 0) ≤ b ∧ b < b)) := by omega
          have e2 : (a < a ∧ (if t.flgdiag then a else 0) ≤ b ∧ b ≤ a) ∨ (a = a ∧ (if t.flgdiag then a else 0) ≤ b ∧ b < b + 1) := .inr ⟨rfl, h1, by omega⟩
          rw [set2_same, if_pos e2, if_neg e1]
          rfl
        · rw [set2_ne _ _ h, set2_ne _ _ h]
          congr 1
          simp only [eq_iff_iff]
          omega
      · congr 1
        funext a b
        congr 1
        simp only [eq_iff_iff]
        constructor
        · rintro (h | ⟨rfl, h⟩)
          · exact ⟨by omega, h.2⟩
          · exact ⟨by omega, h.1, by omega⟩
        · rintro ⟨h1, h2⟩
          by_cases h : a = i
          · subst h; exact .inr ⟨rfl, h2.1, by omega⟩
          · exact .inl ⟨by omega, h2⟩

end Ref

end Spot
