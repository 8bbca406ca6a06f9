import Verif.Lemmas.Loops

/-! # The eigenvalue decomposition and NaN -/

namespace Spot

variable [Libm]

@[simp] theorem nan_add (x : Dbl) : (.nan + x : Dbl) = .nan := by cases x <;> rfl
@[simp] theorem add_nan (x : Dbl) : (x + .nan : Dbl) = .nan := by cases x <;> rfl
@[simp] theorem nan_sub (x : Dbl) : (.nan - x : Dbl) = .nan := by cases x <;> rfl
@[simp] theorem sub_nan (x : Dbl) : (x - .nan : Dbl) = .nan := by cases x <;> rfl
@[simp] theorem nan_mul (x : Dbl) : (.nan * x : Dbl) = .nan := by cases x <;> rfl
@[simp] theorem mul_nan (x : Dbl) : (x * .nan : Dbl) = .nan := by cases x <;> rfl
@[simp] theorem nan_div (x : Dbl) : (.nan / x : Dbl) = .nan := by cases x <;> rfl
@[simp] theorem div_nan (x : Dbl) : (x / .nan : Dbl) = .nan := by cases x <;> rfl
@[simp] theorem neg_nan : (-.nan : Dbl) = .nan := rfl
@[simp] theorem lt_nan (x : Dbl) : Arith.lt x .nan = false := by cases x <;> rfl
@[simp] theorem nan_lt (x : Dbl) : Arith.lt .nan x = false := by cases x <;> rfl
@[simp] theorem nan_le (x : Dbl) : Arith.le .nan x = false := by cases x <;> rfl
@[simp] theorem nan_eq (x : Dbl) : Arith.eq .nan x = false := by cases x <;> rfl
@[simp] theorem abs_nan : Arith.abs (.nan : Dbl) = .nan := by simp [Arith.abs]

theorem foldl_nan {α : Type} (f : α → Dbl) : ∀ (l : List α) (a : Dbl), (a = .nan ∨ ∃ x ∈ l, f x = .nan) → l.foldl (fun a x => a + f x) a = .nan := by
  intro l
  induction l with
  | nil => rintro a (h | ⟨x, hx, -⟩); exact h; cases hx
  | cons y l ih =>
    intro a h
    rw [List.foldl_cons]
    refine ih _ ?_
    rcases h with h | ⟨x, hx, hf⟩
    · rw [h]; exact .inl (by simp)
    · rcases List.mem_cons.1 hx with rfl | hx
      · rw [hf]; exact .inl (by simp)
      · exact .inr ⟨x, hx, hf⟩

theorem sumLoop_nan {n k : Nat} {f : Nat → Dbl} (hk : k < n) (h : f k = .nan) : sumLoop n f = .nan :=
  foldl_nan f _ _ (.inr ⟨k, List.mem_range.2 hk, h⟩)

theorem sumFin_nan {n : Nat} {f : Fin n → Dbl} (k : Fin n) (h : f k = .nan) : sumFin f = .nan :=
  foldl_nan f _ _ (.inr ⟨k, List.mem_finRange k, h⟩)

/-! ## Householder2 -/

theorem hhScale_nan (i : Nat) (hi : 1 ≤ i) (d : Nat → Dbl) : (∀ k, k < i → (hhScale i .nan d).1 k = .nan) ∧ (hhScale i .nan d).2 = .nan := by
  have := forUp_inv (fun m (x : (Nat → Dbl) × Dbl) => (∀ k, k < m → x.1 k = .nan) ∧ (0 < m → x.2 = .nan)) (Nat.zero_le i)
    (f := fun k x => (set1 x.1 k (x.1 k / .nan), x.2 + (x.1 k / .nan) * (x.1 k / .nan))) (s := (d, lit 0)) ⟨fun k h => by omega, fun h => by omega⟩ ?_
  · exact ⟨this.1, this.2 (by omega)⟩
  · rintro m x - - ⟨h1, -⟩
    refine ⟨fun k hk => ?_, fun _ => by simp⟩
    dsimp only
    by_cases h : k = m
    · rw [h, set1_same, div_nan]
    · rw [set1_ne _ _ h]; exact h1 k (by omega)

theorem hhDivide_nan (i : Nat) (d e : Nat → Dbl) : (∀ k, k < i → (hhDivide i .nan d e).1 k = .nan) ∧ ∀ k, i ≤ k → (hhDivide i .nan d e).1 k = e k := by
  refine forUp_inv (fun m (x : (Nat → Dbl) × Dbl) => (∀ k, k < m → x.1 k = .nan) ∧ ∀ k, i ≤ k → x.1 k = e k) (Nat.zero_le i) ⟨fun k h => by omega, fun _ _ => rfl⟩ ?_
  rintro m x - hm ⟨h1, h2⟩
  refine ⟨fun k hk => ?_, fun k hk => ?_⟩
  · dsimp only
    by_cases h : k = m
    · rw [h, set1_same, div_nan]
    · rw [set1_ne _ _ h]; exact h1 k (by omega)
  · dsimp only
    rw [set1_ne _ _ (by omega)]; exact h2 k hk

theorem hhReduce_nan (i : Nat) (hh : Dbl) (d e : Nat → Dbl) (he : ∀ k, k < i → e k = .nan) :
    (∀ k, k < i → hhReduce i hh d e k = .nan) ∧ ∀ k, i ≤ k → hhReduce i hh d e k = e k := by
  unfold hhReduce
  rw [forUp_set1 0 i (fun j x => x - hh * d j) e]
  refine ⟨fun k hk => ?_, fun k hk => ?_⟩
  · dsimp only; rw [if_pos ⟨Nat.zero_le _, hk⟩, he k hk, nan_sub]
  · dsimp only; rw [if_neg (by omega)]

theorem hhProduct_high (i : Nat) (d : Nat → Dbl) (V : Nat → Nat → Dbl) (e : Nat → Dbl) : ∀ k, i ≤ k → (hhProduct i d V e).2 k = e k := by
  unfold hhProduct
  refine forUp_inv (fun m (x : (Nat → Nat → Dbl) × (Nat → Dbl)) => ∀ k, i ≤ k → x.2 k = e k) (Nat.zero_le i) (fun _ _ => rfl) ?_
  intro j x _ hj hx k hk
  dsimp only
  rw [set1_ne _ _ (by omega)]
  have := forUp_inv (fun m (y : Dbl × (Nat → Dbl)) => ∀ k, i ≤ k → y.2 k = e k) (a := j + 1) (b := i) (by omega)
    (f := fun k y => (y.1 + set2 x.1 j i (d j) k j * d k, set1 y.2 k (y.2 k + set2 x.1 j i (d j) k j * d j))) (s := (x.2 j + set2 x.1 j i (d j) j j * d j, x.2)) hx ?_
  · exact this k hk
  · intro m y h1 h2 hy k hk
    dsimp only
    rw [set1_ne _ _ (by omega)]
    exact hy k hk

theorem hhUpdate_nan (i : Nat) (hi : 1 ≤ i) (e : Nat → Dbl) (V : Nat → Nat → Dbl) (d : Nat → Dbl) (he : ∀ k, k < i → e k = .nan) :
    (∀ a b, b ≤ a → a < i → (hhUpdate i e V d).1 a b = .nan) ∧ ∀ b, b < i → (hhUpdate i e V d).2 b = .nan := by
  unfold hhUpdate
  have := forUp_inv (fun m (x : (Nat → Nat → Dbl) × (Nat → Dbl)) => (∀ a b, b < m → b ≤ a → a < i → x.1 a b = .nan) ∧ ∀ b, b < m → x.2 b = .nan) (Nat.zero_le i)
    (f := fun j x =>
      let f := x.2 j
      let g := e j
      let V := forUp j i (fun k V => set2 V k j (V k j - (f * e k + g * x.2 k))) x.1
      (set2 V i j (lit 0), set1 x.2 j (V (i - 1) j))) (s := (V, d)) ⟨fun a b h => by omega, fun b h => by omega⟩ ?_
  · exact ⟨fun a b h1 h2 => this.1 a b (by omega) h1 h2, this.2⟩
  · rintro j x - hj ⟨h1, h2⟩
    dsimp only
    have hin := forUp_inv (fun m (W : Nat → Nat → Dbl) => (∀ a b, b < j → b ≤ a → a < i → W a b = .nan) ∧ ∀ a, j ≤ a → a < m → W a j = .nan) (a := j) (b := i) (by omega)
      (f := fun k V => set2 V k j (V k j - (x.2 j * e k + e j * x.2 k))) (s := x.1) ⟨h1, fun a h => by omega⟩ ?_
    · refine ⟨fun a b hb hba ha => ?_, fun b hb => ?_⟩
      · rw [set2_ne _ _ (by omega)]
        by_cases h : b = j
        · rw [h]; exact hin.2 a (by omega) ha
        · exact hin.1 a b (by omega) hba ha
      · by_cases h : b = j
        · rw [h, set1_same]; exact hin.2 _ (by omega) (by omega)
        · rw [set1_ne _ _ h]; exact h2 b (by omega)
    · rintro k W h3 h4 ⟨g1, g2⟩
      refine ⟨fun a b hb hba ha => ?_, fun a hja hak => ?_⟩
      · rw [set2_ne _ _ (by omega)]; exact g1 a b hb hba ha
      · by_cases h : a = k
        · rw [h, set2_same, he k h4]; simp
        · rw [set2_ne _ _ (by omega)]; exact g2 a hja (by omega)

theorem step_nan {i : Nat} {s : HH Dbl} {k : Nat} (hk : k < i) (hd : s.d k = .nan) :
    (s.step i).e i = .nan ∧ (∀ j, i < j → (s.step i).e j = s.e j) ∧ ∀ j, j < i → (s.step i).d j = .nan := by
  have hscale : sumLoop i (fun k => Arith.abs (s.d k)) = .nan := sumLoop_nan hk (by rw [hd, abs_nan])
  unfold HH.step
  simp only [hscale, nan_eq, Bool.false_eq_true, if_false]
  obtain ⟨h1, h2⟩ := hhScale_nan i (by omega) s.d
  rw [h2, nan_sub]
  set f := (hhScale i .nan s.d).1 (i - 1)
  set g := if Arith.lt (lit 0) f then -Arith.sqrt (.nan : Dbl) else Arith.sqrt .nan
  set d := set1 (hhScale i .nan s.d).1 (i - 1) (f - g)
  set e0 := forUp 0 i (fun j e => set1 e j (lit 0)) (set1 s.e i (.nan * g)) with he0
  have he : ∀ k, i ≤ k → e0 k = set1 s.e i (.nan * g) k := by
    intro k hk
    rw [he0, forUp_set1 0 i (fun _ _ => lit 0)]
    dsimp only
    rw [if_neg (by omega)]
  set y := hhProduct i d s.V e0 with hy
  have hye : ∀ k, i ≤ k → y.2 k = set1 s.e i (.nan * g) k := fun k hk => by rw [hy, hhProduct_high i d s.V e0 k hk, he k hk]
  obtain ⟨g1, g2⟩ := hhDivide_nan i d y.2
  set z := hhDivide i .nan d y.2 with hz
  obtain ⟨r1, r2⟩ := hhReduce_nan i (z.2 / (.nan + .nan)) d z.1 g1
  set e := hhReduce i (z.2 / (.nan + .nan)) d z.1
  obtain ⟨u1, u2⟩ := hhUpdate_nan i (by omega) e y.1 d r1
  refine ⟨?_, fun j hj => ?_, fun j hj => ?_⟩
  · rw [r2 i le_rfl, g2 i le_rfl, hye i le_rfl, set1_same, nan_mul]
  · rw [r2 j hj.le, g2 j hj.le, hye j hj.le, set1_ne _ _ (by omega)]
  · rw [set1_ne _ _ (by omega)]
    exact u2 j hj

theorem accum_e (n i : Nat) (s : HH Dbl) : (s.accum n i).e = s.e := rfl

theorem householder_nan {n : Nat} (s : HH Dbl) {k : Nat} (hk : k < n - 1) (h : s.V (n - 1) k = .nan) : ∀ j, 1 ≤ j → j < n → (householder2 n s).e j = .nan := by
  set s0 : HH Dbl := { s with d := forUp 0 n (fun j d => set1 d j (s.V (n - 1) j)) s.d } with hs0
  have hd0 : s0.d k = .nan := by
    show forUp 0 n (fun j d => set1 d j (s.V (n - 1) j)) s.d k = .nan
    rw [forUp_set1 0 n (fun j _ => s.V (n - 1) j)]
    dsimp only
    rw [if_pos (by omega), h]
  have hred : (∃ k, k < n - 1 ∧ s0.d k = .nan) := ⟨k, hk, hd0⟩
  have key := forDown_inv (fun m (t : HH Dbl) => (m = n ∧ t = s0) ∨ (m < n ∧ (∀ j, j < m → t.d j = .nan) ∧ ∀ j, m ≤ j → j < n → t.e j = .nan)) (a := 1) (b := n) (by omega)
    (f := HH.step) (s := s0) (.inl ⟨rfl, rfl⟩) ?_
  · have he : ∀ j, 1 ≤ j → j < n → (forDown 1 n HH.step s0).e j = .nan := by
      rcases key with ⟨h1, -⟩ | ⟨-, -, h2⟩
      · omega
      · exact h2
    intro j h1 h2
    unfold householder2
    dsimp only
    rw [set1_ne _ _ (by omega), ← hs0]
    have e1 : ∀ t : HH Dbl, (forUp 0 (n - 1) (HH.accum n) t).e = t.e := fun t =>
      forUp_inv (fun _ (u : HH Dbl) => u.e = t.e) (Nat.zero_le _) rfl fun i u _ _ hu => by rw [accum_e, hu]
    have e2 : ∀ t : HH Dbl, (forUp 0 n (fun j (s : HH Dbl) => { s with d := set1 s.d j (s.V (n - 1) j), V := set2 s.V (n - 1) j (lit 0) }) t).e = t.e := fun t =>
      forUp_inv (fun _ (u : HH Dbl) => u.e = t.e) (Nat.zero_le _) rfl fun i u _ _ hu => hu
    rw [e2, e1]
    exact he j h1 h2
  · intro i t h1 h2 ht
    refine .inr ⟨h2, ?_⟩
    rcases ht with ⟨hm, rfl⟩ | ⟨hm, hd, he⟩
    · obtain rfl : i = n - 1 := by omega
      obtain ⟨g1, g2, g3⟩ := step_nan hk hd0
      refine ⟨g3, fun j hj1 hj2 => ?_⟩
      rw [show j = n - 1 by omega]; exact g1
    · obtain ⟨g1, g2, g3⟩ := step_nan (s := t) (i := i) (k := 0) (by omega) (hd 0 (by omega))
      refine ⟨g3, fun j hj1 hj2 => ?_⟩
      by_cases hji : j = i
      · rw [hji]; exact g1
      · rw [g2 j (by omega)]; exact he j (by omega) hj2

/-! ## QLalgo2 -/

theorem myhypot_nan (a : Dbl) : myhypot a .nan = .nan := by
  unfold myhypot
  simp

theorem sweep_nan {n : Nat} (w : Sweep Dbl) {i : Nat} (h : w.e i = .nan) :
    (w.step n i).s = .nan ∧ (w.step n i).e (i + 1) = .nan ∧ ∀ j, j ≠ i + 1 → (w.step n i).e j = w.e j := by
  unfold Sweep.step
  simp only [h, myhypot_nan, nan_div, mul_nan, set1_same]
  exact ⟨trivial, trivial, fun j hj => set1_ne _ _ hj⟩

theorem iter_nan {n : Nat} (hn : 2 ≤ n) (q : QL Dbl) (he : ∀ j, j < n - 1 → q.e j = .nan) : (∀ j, j < n → (q.iter n 0 (n - 1)).e j = .nan) ∧ (q.iter n 0 (n - 1)).tst1 = q.tst1 := by
  refine ⟨?_, rfl⟩
  unfold QL.iter
  dsimp only
  generalize forUp (0 + 2) n _ _ = d
  have key := forDown_inv (fun m (w : Sweep Dbl) => (∀ j, j < n - 1 → w.e j = .nan) ∧ (m < n - 1 → w.s = .nan ∧ w.e (n - 1) = .nan)) (a := 0) (b := n - 1) (by omega)
    (f := Sweep.step n) (s := { d := d, e := q.e, V := q.V, p := d (n - 1), c := lit 1, c2 := lit 1, c3 := lit 1, s := lit 0, s2 := lit 0 }) ⟨he, fun h => by omega⟩ ?_
  · intro j hj
    obtain ⟨k1, k2⟩ := key
    obtain ⟨k3, k4⟩ := k2 (by omega)
    by_cases h0 : j = 0
    · rw [h0, set1_same, k3, nan_mul]
    · rw [set1_ne _ _ h0]
      by_cases h1 : j = n - 1
      · rw [h1]; exact k4
      · exact k1 j (by omega)
  · rintro i w - hi ⟨h1, h2⟩
    obtain ⟨g1, g2, g3⟩ := sweep_nan (n := n) w (h1 i hi)
    refine ⟨fun j hj => ?_, fun _ => ⟨g1, ?_⟩⟩
    · by_cases h : j = i + 1
      · rw [h]; exact g2
      · rw [g3 j h]; exact h1 j hj
    · by_cases h : n - 1 = i + 1
      · rw [h]; exact g2
      · rw [g3 _ h]; exact (h2 (by omega)).2

/-- With NaN among the off-diagonal elements of the tridiagonal matrix, `QLalgo2` leaves the arrays. -/
theorem ql_nan {n : Nat} (hn : 2 ≤ n) (s : HH Dbl) (he : ∀ j, 1 ≤ j → j < n → s.e j = .nan) (fuel : Nat) : qlAlgo2 n (fuel + 1) s = some .ub := by
  unfold qlAlgo2
  dsimp only
  set e : Nat → Dbl := set1 (forUp 1 n (fun i e => set1 e (i - 1) (e i)) s.e) (n - 1) (lit 0) with hed
  have hsh := forUp_inv (fun i (e : Nat → Dbl) => (∀ j, j < i - 1 → e j = .nan) ∧ ∀ j, i ≤ j → j < n → e j = .nan) (a := 1) (b := n) (by omega)
    (f := fun i e => set1 e (i - 1) (e i)) (s := s.e) ⟨fun j h => by omega, he⟩ (by
      rintro i e h1 h2 ⟨g1, g2⟩
      refine ⟨fun j hj => ?_, fun j hj hjn => ?_⟩
      · by_cases h : j = i - 1
        · rw [h, set1_same]; exact g2 i le_rfl h2
        · rw [set1_ne _ _ h]; exact g1 j (by omega)
      · rw [set1_ne _ _ (by omega)]; exact g2 j (by omega) hjn)
  have he1 : ∀ j, j < n - 1 → e j = .nan := fun j hj => by rw [hed, set1_ne _ _ (by omega)]; exact hsh.1 j hj
  have he2 : e (n - 1) = lit 0 := by rw [hed, set1_same]
  obtain ⟨k, rfl⟩ : ∃ k, n = k + 2 := ⟨n - 2, by omega⟩
  have hz : Arith.le (Arith.abs (lit 0 : Dbl)) (qlEps * lit 0) = true := by
    show Dbl.le (if Dbl.lt (Dbl.ofQ 0) (Dbl.ofQ 0) then Dbl.neg (Dbl.ofQ 0) else Dbl.ofQ 0) (Dbl.mul (Dbl.ofQ (222 / 10 ^ 18)) (Dbl.ofQ 0)) = true
    decide +kernel
  -- round 0
  have hc0 : ∃ t : QL Dbl, QL.column (k + 2) (fuel + 1) 0 { d := s.d, e := e, V := s.V, f := lit 0, tst1 := lit 0 } = some (.ok t) ∧
      (∀ j, 1 ≤ j → j < k + 2 → t.e j = .nan) := by
    unfold QL.column
    dsimp only
    rw [he1 0 (by omega)]
    simp only [abs_nan, add_nan, lt_nan, Bool.false_eq_true, if_false]
    set q : QL Dbl := { d := s.d, e := e, V := s.V, f := lit 0, tst1 := lit 0 } with hq
    have hsm : q.small (k + 2) 0 = k + 1 := by
      unfold QL.small
      have : (List.range' 0 (k + 2 - 0)).find? (fun m => Arith.le (Arith.abs (q.e m)) (qlEps * q.tst1)) = some (k + 1) := by
        rw [List.find?_range'_eq_some]
        refine ⟨?_, by rw [List.mem_range'_1]; omega, fun j _ hj => ?_⟩
        · show Arith.le (Arith.abs (e (k + 1))) (qlEps * lit 0) = true
          rw [show e (k + 1) = lit 0 from he2, hz]
        · show (!Arith.le (Arith.abs (e j)) (qlEps * lit 0)) = true
          rw [he1 j (by omega), abs_nan, nan_le]; rfl
      rw [this]; rfl
    rw [hsm, if_pos (by omega), if_neg (by omega)]
    obtain ⟨i1, i2⟩ := iter_nan (show 2 ≤ k + 2 by omega) q he1
    unfold QL.loop
    dsimp only
    rw [show k + 1 = k + 2 - 1 from rfl, i1 0 (by omega), abs_nan, lt_nan]
    refine ⟨_, rfl, fun j h1 h2 => ?_⟩
    dsimp only
    rw [set1_ne _ _ (by omega)]
    exact i1 j h2
  obtain ⟨t, ht, hte⟩ := hc0
  -- round 1
  have hc1 : t.column (k + 2) (fuel + 1) 1 = some .ub := by
    unfold QL.column
    dsimp only
    rw [hte 1 le_rfl (by omega)]
    simp only [abs_nan, add_nan, lt_nan, Bool.false_eq_true, if_false]
    have hsm : t.small (k + 2) 1 = k + 2 := by
      unfold QL.small
      have : (List.range' 1 (k + 2 - 1)).find? (fun m => Arith.le (Arith.abs (t.e m)) (qlEps * t.tst1)) = none := by
        rw [List.find?_eq_none]
        intro m hm
        rw [List.mem_range'_1] at hm
        rw [hte m hm.1 (by omega), abs_nan, nan_le]; simp
      rw [this]; rfl
    show (if 1 < t.small (k + 2) 1 then _ else _) = _
    rw [hsm, if_pos (by omega), if_pos rfl]
  have : QL.columns (k + 2) (fuel + 1) (k + 2) 0 { d := s.d, e := e, V := s.V, f := lit 0, tst1 := lit 0 } = some .ub := by
    unfold QL.columns
    rw [ht]
    dsimp only
    unfold QL.columns
    rw [hc1]
  rw [this]

end Spot
