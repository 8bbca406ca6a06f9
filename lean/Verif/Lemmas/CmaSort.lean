import Verif.Model.Cma
import Verif.Lemmas.Dbl
import Verif.Lemmas.Arith

/-! # `Sorted_index` is an insertion sort -/

namespace Spot

/-- Insertion into the ranks found so far, last rank first. -/
def insRev (f : Nat → Dbl) (i : Nat) : List Nat → List Nat
  | [] => [i]
  | k :: ks => if Dbl.lt (f k) (f i) then i :: k :: ks else k :: insRev f i ks

theorem insRev_perm (f : Nat → Dbl) (i : Nat) : ∀ l, (insRev f i l).Perm (i :: l)
  | [] => .refl _
  | k :: ks => by
    unfold insRev
    split
    · exact .refl _
    · exact ((insRev_perm f i ks).cons k).trans (.swap i k ks)

theorem dlt_trans {a b c : Dbl} (h1 : Dbl.lt a b = true) (h2 : Dbl.lt b c = true) : Dbl.lt a c = true := by
  cases a <;> cases b <;> cases c <;> simp_all [Dbl.lt]
  exact h1.trans h2

theorem insRev_sorted (f : Nat → Dbl) (i : Nat) : ∀ l, l.Pairwise (fun a b => Dbl.lt (f a) (f b) = false) →
    (insRev f i l).Pairwise (fun a b => Dbl.lt (f a) (f b) = false)
  | [], _ => by simp [insRev]
  | k :: ks, h => by
    rw [List.pairwise_cons] at h
    unfold insRev
    split
    · rename_i hk
      rw [List.pairwise_cons, List.pairwise_cons]
      refine ⟨fun x hx => ?_, h⟩
      by_contra hh
      rw [Bool.not_eq_false] at hh
      rcases List.mem_cons.1 hx with rfl | hx
      · have := dlt_trans hk hh
        cases hf : f x <;> simp_all [Dbl.lt]
      · have := dlt_trans hk hh
        rw [h.1 x hx] at this
        cases this
    · rename_i hk
      rw [List.pairwise_cons]
      refine ⟨fun x hx => ?_, insRev_sorted f i ks h.2⟩
      rcases List.mem_cons.1 ((insRev_perm f i ks).mem_iff.1 hx) with rfl | hx
      · simpa using hk
      · exact h.1 x hx

theorem sortInsert_eq (f : Nat → Dbl) (i : Nat) : ∀ (r : List Nat) (y : Nat) (q : List Nat),
    sortInsert f i r.length (r.reverse ++ y :: q) = (insRev f i r).reverse ++ q
  | [], y, q => by simp [sortInsert, insRev]
  | k :: ks, y, q => by
    have e : (k :: ks).reverse ++ y :: q = ks.reverse ++ k :: y :: q := by simp
    have e1 : (ks.reverse ++ k :: y :: q).getD ks.length 0 = k := by
      simp [List.getD_eq_getElem?_getD]
    have e2 : ∀ z, (ks.reverse ++ k :: y :: q).set (ks.length + 1) z = ks.reverse ++ k :: z :: q := by
      intro z
      rw [List.set_append_right _ _ (by simp)]
      simp
    rw [List.length_cons, e]
    unfold sortInsert
    rw [e1, e2, e2]
    unfold insRev
    split
    · simp
    · rw [sortInsert_eq f i ks k (k :: q)]
      simp

theorem sortOuter_spec (f : Nat → Dbl) : ∀ (k i : Nat) (r q : List Nat), r.length = i → q.length = k →
    r.Perm (List.range i) → r.Pairwise (fun a b => Dbl.lt (f a) (f b) = false) →
    ∃ r' : List Nat, sortOuter f k i (r.reverse ++ q) = r'.reverse ∧ r'.Perm (List.range (i + k)) ∧ r'.Pairwise (fun a b => Dbl.lt (f a) (f b) = false)
  | 0, i, r, q, h1, h2, h3, h4 => by
    rw [List.length_eq_zero_iff] at h2
    subst h2
    exact ⟨r, by simp [sortOuter], h3, h4⟩
  | k + 1, i, r, [], h1, h2, h3, h4 => by simp at h2
  | k + 1, i, r, y :: q, h1, h2, h3, h4 => by
    unfold sortOuter
    have := sortInsert_eq f i r y q
    rw [h1] at this
    rw [this]
    have hp : (insRev f i r).Perm (List.range (i + 1)) := by
      rw [List.range_succ]
      exact (insRev_perm f i r).trans ((h3.cons i).trans (List.perm_append_singleton i _).symm)
    obtain ⟨r', h5, h6, h7⟩ := sortOuter_spec f k (i + 1) (insRev f i r) q (by rw [hp.length_eq, List.length_range]) (by simpa using h2) hp
      (insRev_sorted f i r h4)
    exact ⟨r', h5, by rw [show i + (k + 1) = i + 1 + k by omega]; exact h6, h7⟩

theorem sortedIndex_spec (fs : List Dbl) (idx : List Nat) (n : Nat) (h : idx.length = n) :
    (sortedIndex fs idx n).Perm (List.range n) ∧ (sortedIndex fs idx n).Pairwise (fun a b => Dbl.lt (fitAt fs b) (fitAt fs a) = false) := by
  cases idx with
  | nil => simp at h; subst h; simp [sortedIndex, sortOuter]
  | cons y q =>
    obtain ⟨r, h1, h2, h3⟩ := sortOuter_spec (fitAt fs) (n - 1) 1 [0] q rfl (by simp at h; omega) (by decide) (by simp)
    have hn : 1 + (n - 1) = n := by simp at h; omega
    unfold sortedIndex
    rw [List.set_cons_zero]
    rw [show (0 :: q : List Nat) = [0].reverse ++ q from rfl, h1]
    rw [hn] at h2
    exact ⟨(List.reverse_perm r).trans h2, List.pairwise_reverse.2 h3⟩

end Spot
