import Verif.Props.Registry
import Verif.Lemmas.ParFile

/-!
# C12, C13, C18: parameter files
-/

namespace Spot
open Notation ObjInfo

/-! ## C12 -/

theorem view_exists {i : ObjInfo} (h : NamesUnique i) (n : Str) : ViewOf i n (viewFn i n) := (viewOf_iff h n _).2 rfl

theorem importRec_counts (st : ImportSettings) (i : ObjInfo) (a b : Nat) (r : Rec) :
    (importRec st (i, a, b) r).2 =
      if Passes st.incl st.excl r.name then (if importFinds (viewFn i r.name) r then (a + 1, b) else (a, b + 1)) else (a, b) := by
  simp only [importRec]
  by_cases ha : Passes st.incl st.excl r.name
  · simp only [(accepted_iff _ _ _).2 ha, Bool.not_true, Bool.false_eq_true, if_false, ha, if_true]
    by_cases hs : r.std = .fin 0
    · have : Dbl.eq r.std (.fin 0) = true := (eq_zero_iff _).2 hs
      simp only [this, if_true]
      rcases lock_cases i r.name r.value with ⟨e, hk⟩ | ⟨e, hf, hm⟩ | ⟨p, hf, e⟩
      · rw [e]
        have : viewFn i r.name = .absent := by rw [known_iff] at hk; simp at hk; simp [viewFn, hk.1, hk.2]
        simp [this, importFinds]
      · rw [e]
        obtain ⟨w, hw⟩ := Option.isSome_iff_exists.1 ((lookup_isSome_iff _ _).2 hm)
        have : viewFn i r.name = .locked w := by simp [viewFn, hf, tryGetLocked, hw]
        simp [this, importFinds, hs]
      · rw [e]
        have : viewFn i r.name = .free p := by simp [viewFn, hf]
        simp [this, importFinds]
    · have : Dbl.eq r.std (.fin 0) = false := by
        cases h3 : Dbl.eq r.std (.fin 0) with
        | false => rfl
        | true => exact absurd ((eq_zero_iff _).1 h3) hs
      simp only [this, Bool.false_eq_true, if_false]
      cases hf : i.find r.name with
      | some p =>
        have : viewFn i r.name = .free p := by simp [viewFn, hf]
        simp [this, importFinds]
      | none =>
        cases hl : i.tryGetLocked r.name with
        | some w =>
          have : viewFn i r.name = .locked w := by simp [viewFn, hf, hl]
          simp [this, importFinds, hs]
        | none =>
          have : viewFn i r.name = .absent := by simp [viewFn, hf, hl]
          simp [this, importFinds]
  · have : accepted st.incl st.excl r.name = false := by
      cases h3 : accepted st.incl st.excl r.name with
      | false => rfl
      | true => exact absurd ((accepted_iff _ _ _).1 h3) ha
    simp [this, ha]

theorem import_fold (st : ImportSettings) (rs : List Rec) : ∀ (i : ObjInfo) (a b : Nat), NamesUnique i →
    NamesUnique (rs.foldl (importRec st) (i, a, b)).1 ∧
    (∀ n, viewFn (rs.foldl (importRec st) (i, a, b)).1 n = importViews st n (viewFn i n) rs) ∧
    (rs.foldl (importRec st) (i, a, b)).2 =
      (a + (importCounts st (viewFn i) rs).1, b + (importCounts st (viewFn i) rs).2) := by
  induction rs with
  | nil => intro i a b h; exact ⟨h, fun n => rfl, rfl⟩
  | cons r rs ih =>
    intro i a b h
    have hu : NamesUnique (importRec st (i, a, b) r).1 := NamesUnique.importRec (x := (i, a, b)) h r
    have hc := importRec_counts st i a b r
    have hv := fun n => viewFn_importRec st (i, a, b) h r n
    rcases hx : importRec st (i, a, b) r with ⟨i', a', b'⟩
    rw [hx] at hu hc hv
    simp only at hu hc hv
    have := ih i' a' b' hu
    simp only [List.foldl_cons, hx]
    have hvf : viewFn i' = fun n => if Passes st.incl st.excl r.name ∧ r.name = n then importView st (viewFn i n) r else viewFn i n :=
      funext hv
    refine ⟨this.1, fun n => ?_, ?_⟩
    · rw [this.2.1 n, hv n]
      simp only [importViews, List.filter_cons]
      by_cases hp : Passes st.incl st.excl r.name ∧ r.name = n
      · simp only [if_pos hp, decide_eq_true hp, if_true, List.foldl_cons]
      · simp only [hp, if_false, decide_false, Bool.false_eq_true]
    · rw [this.2.2, importCounts, ← hvf]
      rcases importCounts st (viewFn i') rs with ⟨c, d⟩
      simp only
      split at hc
      · rename_i hp
        rw [if_pos hp]
        split at hc
        · rename_i hq
          simp only [Prod.mk.injEq] at hc
          rw [if_pos hq, hc.1, hc.2]; simp only [Prod.mk.injEq, and_true]; omega
        · rename_i hq
          simp only [Prod.mk.injEq] at hc
          rw [if_neg hq, hc.1, hc.2]; simp only [Prod.mk.injEq, true_and]; omega
      · rename_i hp
        simp only [Prod.mk.injEq] at hc
        rw [if_neg hp, hc.1, hc.2]

/-- What stays of the free parameters: name and bounds. -/
def frame (p : ParInfo) : Str × Dbl × Dbl := (p.name, p.min, p.max)

/-- The record locks parameters of name `n`. -/
def Locks (st : ImportSettings) (r : Rec) (n : Str) : Prop := Passes st.incl st.excl r.name ∧ r.name = n ∧ r.std = .fin 0

instance (st : ImportSettings) (r : Rec) (n : Str) : Decidable (Locks st r n) := inferInstanceAs (Decidable (_ ∧ _ ∧ _))

theorem map_frame_filter (l : List ParInfo) (q : Str → Bool) :
    (l.filter (fun p => q p.name)).map frame = (l.map frame).filter (fun x => q x.1) := by
  rw [List.filter_map]; rfl

theorem importRec_frame (st : ImportSettings) (i : ObjInfo) (a b : Nat) (h : NamesUnique i) (r : Rec) :
    (importRec st (i, a, b) r).1.pars.map frame = (i.pars.map frame).filter (fun x => !decide (Locks st r x.1)) := by
  simp only [importRec]
  by_cases ha : Passes st.incl st.excl r.name
  · simp only [(accepted_iff _ _ _).2 ha, Bool.not_true, Bool.false_eq_true, if_false]
    by_cases hs : r.std = .fin 0
    · have : Dbl.eq r.std (.fin 0) = true := (eq_zero_iff _).2 hs
      simp only [this, if_true]
      have hL : ∀ x : Str × Dbl × Dbl, (!decide (Locks st r x.1)) = decide (x.1 ≠ r.name) := by
        intro x; simp only [Locks, ha, hs, true_and, and_true, ne_eq, decide_not, eq_comm]
      simp only [hL]
      rcases lock_cases i r.name r.value with ⟨e, hk⟩ | ⟨e, hf, hm⟩ | ⟨p, hf, e⟩
      · rw [e]; simp only
        symm; rw [List.filter_eq_self]
        intro x hx
        obtain ⟨p, hp, rfl⟩ := List.mem_map.1 hx
        exact decide_eq_true ((not_known_of hk).1 p hp)
      · rw [e]; simp only
        symm; rw [List.filter_eq_self]
        intro x hx
        obtain ⟨p, hp, rfl⟩ := List.mem_map.1 hx
        exact decide_eq_true (find_none.1 hf p hp)
      · rw [e]; simp only [eraseP_eq_filter h.free]
        exact map_frame_filter i.pars (fun n => decide (n ≠ r.name))
    · have : Dbl.eq r.std (.fin 0) = false := by
        cases h3 : Dbl.eq r.std (.fin 0) with
        | false => rfl
        | true => exact absurd ((eq_zero_iff _).1 h3) hs
      simp only [this, Bool.false_eq_true, if_false]
      have hL : ∀ x : Str × Dbl × Dbl, (!decide (Locks st r x.1)) = true := by
        intro x; simp [Locks, hs]
      simp only [hL, List.filter_true]
      split
      · exact updateFirst_map frame r.name (importPar st r) (fun p => by
          have := importPar_name st r p; simp [frame, this.1, this.2.1, this.2.2]) i.pars
      · rfl
  · have : accepted st.incl st.excl r.name = false := by
      cases h3 : accepted st.incl st.excl r.name with
      | false => rfl
      | true => exact absurd ((accepted_iff _ _ _).1 h3) ha
    simp [this, Locks, ha]

theorem import_frame (st : ImportSettings) (rs : List Rec) : ∀ (i : ObjInfo) (a b : Nat), NamesUnique i →
    (rs.foldl (importRec st) (i, a, b)).1.pars.map frame = (i.pars.map frame).filter (fun x => !decide (∃ r ∈ rs, Locks st r x.1)) := by
  induction rs with
  | nil => intro i a b _; simp
  | cons r rs ih =>
    intro i a b h
    have hu : NamesUnique (importRec st (i, a, b) r).1 := NamesUnique.importRec (x := (i, a, b)) h r
    have hf := importRec_frame st i a b h r
    rcases hx : importRec st (i, a, b) r with ⟨i', a', b'⟩
    rw [hx] at hu hf
    simp only [List.foldl_cons, hx]
    rw [ih i' a' b' hu, hf, List.filter_filter]
    congr 1; funext x
    by_cases h1 : Locks st r x.1 <;> simp [h1]

/-- **C12.** Importing a file made of the records `rs`: the call succeeds; every name's view is changed exactly by the accepted
records of that name, in order, as `importView` says (in particular not at all if there is none); free parameters keep their
order, names and bounds, and only those locked by a record disappear; the counts are exact and add up to the number of accepted
records. -/
theorem C12_import_mean_std (R : Reader) (i : ObjInfo) (hi : NamesUnique i) (text : Str) (rs : List Rec) (r : Str)
    (ht : FileText R text rs r) (hr : Blank r) (st : ImportSettings) :
    ∃ j set notFound, i.importMeanStd R (some text) st = (j, .ok (set, notFound)) ∧
      (∀ n w, ViewOf i n w → ViewOf j n (importViews st n w rs)) ∧
      j.pars.map frame = (i.pars.map frame).filter (fun x => !decide (∃ r ∈ rs, Locks st r x.1)) ∧
      set + notFound = (rs.filter (fun r => decide (Passes st.incl st.excl r.name))).length ∧
      (∀ view, (∀ n, ViewOf i n (view n)) → (set, notFound) = importCounts st view rs) := by
  have hf := import_fold st rs i 0 0 hi
  have hfr := import_frame st rs i 0 0 hi
  rcases hx : rs.foldl (importRec st) (i, 0, 0) with ⟨j, a, b⟩
  rw [hx] at hf hfr
  simp only [Nat.zero_add, Prod.mk.injEq] at hf
  have hc : ∀ (rs : List Rec) (view : Str → View), (importCounts st view rs).1 + (importCounts st view rs).2 =
      (rs.filter (fun r => decide (Passes st.incl st.excl r.name))).length := by
    intro rs
    induction rs with
    | nil => intro _; rfl
    | cons r rs ih =>
      intro view
      rw [importCounts, List.filter_cons]
      have := ih (fun n => if Passes st.incl st.excl r.name ∧ r.name = n then importView st (view n) r else view n)
      by_cases hp : Passes st.incl st.excl r.name
      · simp only [hp, if_true, decide_true, List.length_cons, true_and] at *
        split <;> simp only <;> omega
      · simp only [hp, if_false, decide_false, Bool.false_eq_true, false_and] at *
        exact this
  refine ⟨j, a, b, ?_, ?_, hfr, ?_, ?_⟩
  · simp only [importMeanStd, scan_file ht hr, hx, Bool.false_eq_true, if_false]
  · intro n w hw
    rw [viewOf_iff hf.1, hf.2.1 n, (viewOf_iff hi n w).1 hw]
  · rw [hf.2.2.1, hf.2.2.2]; exact hc rs _
  · intro view hview
    have : view = viewFn i := funext fun n => ((viewOf_iff hi n _).1 (hview n)).symm
    rw [this, hf.2.2.1, hf.2.2.2]

/-- **C12.** A file that cannot be opened changes nothing; a malformed record throws after the records before it were applied. -/
theorem C12_import_errors (R : Reader) (i : ObjInfo) (st : ImportSettings) :
    i.importMeanStd R none st = (i, .err) ∧
    ∀ text rs r, NamesUnique i → FileText R text rs r → BadRec R r →
      ∃ j, i.importMeanStd R (some text) st = (j, .err) ∧ ∀ n w, ViewOf i n w → ViewOf j n (importViews st n w rs) := by
  refine ⟨rfl, fun text rs r hi ht hr => ?_⟩
  have hf := import_fold st rs i 0 0 hi
  rcases hx : rs.foldl (importRec st) (i, 0, 0) with ⟨j, a, b⟩
  rw [hx] at hf
  refine ⟨j, by simp only [importMeanStd, scan_file_bad ht hr, hx, if_true], fun n w hw => ?_⟩
  rw [viewOf_iff hf.1, hf.2.1 n, (viewOf_iff hi n w).1 hw]

/-! ## C13 -/

theorem lock_fold (incl excl : Matcher) (rs : List Rec) : ∀ (i : ObjInfo) (a b : Nat), NamesUnique i →
    NamesUnique (rs.foldl (lockRec incl excl) (i, a, b)).1 ∧
    (∀ n, viewFn (rs.foldl (lockRec incl excl) (i, a, b)).1 n =
      (rs.filter (fun r => decide (Passes incl excl r.name ∧ r.name = n))).foldl lockView (viewFn i n)) := by
  induction rs with
  | nil => intro i a b h; exact ⟨h, fun n => rfl⟩
  | cons r rs ih =>
    intro i a b h
    have hu : NamesUnique (lockRec incl excl (i, a, b) r).1 := NamesUnique.lockRec (x := (i, a, b)) h incl excl r
    have hv := fun n => viewFn_lockRec incl excl (i, a, b) h r n
    rcases hx : lockRec incl excl (i, a, b) r with ⟨i', a', b'⟩
    rw [hx] at hu hv
    simp only at hu hv
    have := ih i' a' b' hu
    simp only [List.foldl_cons, hx]
    refine ⟨this.1, fun n => ?_⟩
    rw [this.2 n, hv n, List.filter_cons]
    by_cases hp : Passes incl excl r.name ∧ r.name = n
    · simp only [if_pos hp, decide_eq_true hp, if_true, List.foldl_cons]
    · simp only [hp, if_false, decide_false, Bool.false_eq_true]

open Classical in
theorem lockRec_pars (incl excl : Matcher) (i : ObjInfo) (a b : Nat) (h : NamesUnique i) (r : Rec) :
    (lockRec incl excl (i, a, b) r).1.pars = i.pars.filter (fun p => !decide (Passes incl excl r.name ∧ r.name = p.name)) ∧
    (∀ n, Known (lockRec incl excl (i, a, b) r).1 n ↔ Known i n) ∧
    (lockRec incl excl (i, a, b) r).2 = if Passes incl excl r.name then (if Known i r.name then (a + 1, b) else (a, b + 1)) else (a, b) := by
  simp only [lockRec]
  by_cases ha : Passes incl excl r.name
  · simp only [(accepted_iff _ _ _).2 ha, Bool.not_true, Bool.false_eq_true, if_false, ha, if_true, true_and]
    rcases lock_cases i r.name r.value with ⟨e, hk⟩ | ⟨e, hf, hm⟩ | ⟨p, hf, e⟩
    · rw [e]; simp only [hk, if_false, implies_true, and_true]
      symm; rw [List.filter_eq_self]
      intro q hq
      simpa using fun h => (not_known_of hk).1 q hq h.symm
    · rw [e]; simp only
      refine ⟨?_, fun n => ?_, ?_⟩
      · symm; rw [List.filter_eq_self]
        intro q hq
        simpa using fun h => find_none.1 hf q hq h.symm
      · simp only [known_iff, tryGetLocked, lookup_mapSet]
        have : ∀ l, ObjInfo.find { i with locked := l } n = i.find n := fun _ => rfl
        rw [this]
        by_cases hn : n = r.name
        · subst hn
          simp only [if_true, Option.isSome_some, or_true, true_iff]
          right; exact (lookup_isSome_iff _ _).2 hm
        · simp only [hn, if_false]
      · have : Known i r.name := by rw [known_iff]; right; exact (lookup_isSome_iff _ _).2 hm
        simp [this]
    · rw [e]; simp only [eraseP_eq_filter h.free]
      refine ⟨?_, fun n => ?_, ?_⟩
      · congr 1; funext q; simp only [ne_eq, decide_not, eq_comm]
      · simp only [known_iff, tryGetLocked, lookup_mapSet]
        have hfn : ObjInfo.find { i with locked := mapSet i.locked r.name r.value, pars := i.pars.filter (fun p => p.name ≠ r.name) } n =
          if n = r.name then none else i.find n := find_filter_ne i.pars r.name n
        rw [hfn]
        by_cases hn : n = r.name
        · subst hn; simp [hf]
        · simp only [hn, if_false]
      · have : Known i r.name := by rw [known_iff, hf]; simp
        simp [this]
  · have : accepted incl excl r.name = false := by
      cases h3 : accepted incl excl r.name with
      | false => rfl
      | true => exact absurd ((accepted_iff _ _ _).1 h3) ha
    simp [this, ha]

theorem lock_fold_pars (incl excl : Matcher) (rs : List Rec) : ∀ (i : ObjInfo) (a b : Nat), NamesUnique i →
    (rs.foldl (lockRec incl excl) (i, a, b)).1.pars =
      i.pars.filter (fun p => !decide (∃ r ∈ rs, Passes incl excl r.name ∧ r.name = p.name)) ∧
    (∀ n, Known (rs.foldl (lockRec incl excl) (i, a, b)).1 n ↔ Known i n) ∧
    (∀ (K : Str → Bool), (∀ n, K n = true ↔ Known i n) → (rs.foldl (lockRec incl excl) (i, a, b)).2 =
      (a + (rs.filter (fun r => decide (Passes incl excl r.name) && K r.name)).length,
       b + (rs.filter (fun r => decide (Passes incl excl r.name) && !K r.name)).length)) := by
  induction rs with
  | nil => intro i a b _; simp
  | cons r rs ih =>
    intro i a b h
    have hu : NamesUnique (lockRec incl excl (i, a, b) r).1 := NamesUnique.lockRec (x := (i, a, b)) h incl excl r
    obtain ⟨h1, h2, h3⟩ := lockRec_pars incl excl i a b h r
    rcases hx : lockRec incl excl (i, a, b) r with ⟨i', a', b'⟩
    rw [hx] at hu h1 h2 h3
    simp only at hu h1 h2 h3
    obtain ⟨g1, g2, g3⟩ := ih i' a' b' hu
    simp only [List.foldl_cons, hx]
    refine ⟨?_, fun n => (g2 n).trans (h2 n), fun K hK => ?_⟩
    · rw [g1, h1, List.filter_filter]
      congr 1; funext p
      have e : (∃ q ∈ r :: rs, Passes incl excl q.name ∧ q.name = p.name) ↔
          (Passes incl excl r.name ∧ r.name = p.name) ∨ ∃ q ∈ rs, Passes incl excl q.name ∧ q.name = p.name := by simp
      simp only [decide_eq_decide.2 e, Bool.decide_or, Bool.not_or, Bool.and_comm]
    · rw [g3 K (fun n => (hK n).trans (h2 n).symm)]
      simp only [List.filter_cons]
      by_cases hp : Passes incl excl r.name
      · simp only [hp, if_true, decide_true, Bool.true_and] at h3 ⊢
        by_cases hk : Known i r.name
        · have : K r.name = true := (hK _).2 hk
          simp only [hk, if_true, Prod.mk.injEq] at h3
          simp only [this, if_true, Bool.not_true, Bool.false_eq_true, if_false, List.length_cons, h3.1, h3.2, Prod.mk.injEq, and_true]
          omega
        · have : K r.name = false := by
            cases hkk : K r.name with
            | false => rfl
            | true => exact absurd ((hK _).1 hkk) hk
          simp only [hk, if_false, Prod.mk.injEq] at h3
          simp only [this, if_true, Bool.not_false, Bool.false_eq_true, if_false, List.length_cons, h3.1, h3.2, Prod.mk.injEq, true_and]
          omega
      · simp only [hp, if_false, Prod.mk.injEq] at h3
        simp [hp, h3.1, h3.2]

/-- **C13.** `import_locked` on a file made of the records `rs`: each name in an accepted record that is known becomes locked to
its last value in the file, other names are untouched; the remaining free parameters are the old ones, unchanged and in their
order; no name appears or disappears; each accepted record is counted as locked if its name is known, else as not found. -/
theorem C13_import_locked (R : Reader) (i : ObjInfo) (hi : NamesUnique i) (text : Str) (rs : List Rec) (r : Str)
    (ht : FileText R text rs r) (hr : Blank r) (incl excl : Matcher) :
    ∃ j set notFound, i.importLocked R (some text) incl excl = (j, .ok (set, notFound)) ∧
      (∀ n w, ViewOf i n w → ViewOf j n
        ((rs.filter (fun r => decide (Passes incl excl r.name ∧ r.name = n))).foldl lockView w)) ∧
      j.pars = i.pars.filter (fun p => !decide (∃ r ∈ rs, Passes incl excl r.name ∧ r.name = p.name)) ∧
      (∀ n, Known j n ↔ Known i n) ∧
      (∀ K : Str → Bool, (∀ n, K n = true ↔ Known i n) →
        set = (rs.filter (fun r => decide (Passes incl excl r.name) && K r.name)).length ∧
        notFound = (rs.filter (fun r => decide (Passes incl excl r.name) && !K r.name)).length) := by
  have hf := lock_fold incl excl rs i 0 0 hi
  have hp := lock_fold_pars incl excl rs i 0 0 hi
  rcases hx : rs.foldl (lockRec incl excl) (i, 0, 0) with ⟨j, a, b⟩
  rw [hx] at hf hp
  refine ⟨j, a, b, ?_, fun n w hw => ?_, hp.1, hp.2.1, fun K hK => ?_⟩
  · simp only [importLocked, scan_file ht hr, hx, Bool.false_eq_true, if_false]
  · rw [viewOf_iff hf.1, hf.2 n, (viewOf_iff hi n w).1 hw]
  · simpa using hp.2.2 K hK

/-- The last record of a known name decides. -/
theorem C13_last_value (w : View) (hw : w ≠ .absent) (rs : List Rec) (r : Rec) : (rs ++ [r]).foldl lockView w = .locked r.value := by
  have : ∀ rs : List Rec, ∀ w, w ≠ .absent → rs.foldl lockView w ≠ .absent := by
    intro rs
    induction rs with
    | nil => intro w h; exact h
    | cons r rs ih => intro w h; exact ih _ (by cases w <;> simp_all [lockView])
  rw [List.foldl_append]
  have h := this rs w hw
  simp only [List.foldl_cons, List.foldl_nil]
  revert h; generalize rs.foldl lockView w = x; intro h
  cases x <;> first | rfl | exact absurd rfl h

/-- **C13.** Malformed files: earlier records stay applied, and still no name appears or disappears. -/
theorem C13_import_errors (R : Reader) (i : ObjInfo) (incl excl : Matcher) :
    i.importLocked R none incl excl = (i, .err) ∧
    ∀ text rs r, NamesUnique i → FileText R text rs r → BadRec R r →
      ∃ j, i.importLocked R (some text) incl excl = (j, .err) ∧ (∀ n, Known j n ↔ Known i n) ∧
        j.pars = i.pars.filter (fun p => !decide (∃ r ∈ rs, Passes incl excl r.name ∧ r.name = p.name)) := by
  refine ⟨rfl, fun text rs r hi ht hr => ?_⟩
  have hp := lock_fold_pars incl excl rs i 0 0 hi
  rcases hx : rs.foldl (lockRec incl excl) (i, 0, 0) with ⟨j, a, b⟩
  rw [hx] at hp
  exact ⟨j, by simp only [importLocked, scan_file_bad ht hr, hx, if_true], hp.2.1, hp.1⟩

/-! ## C18 -/

/-- The last value of a name in a list of records. -/
def lastValue (n : Str) (rs : List Rec) : Option Dbl := (rs.reverse.find? (fun r => decide (r.name = n))).map Rec.value

/-- The first value of a name in a list of records. -/
def firstValue (n : Str) (rs : List Rec) : Option Dbl := (rs.find? (fun r => decide (r.name = n))).map Rec.value

theorem lastValue_cons (n : Str) (r : Rec) (rs : List Rec) :
    lastValue n (r :: rs) = (lastValue n rs).or (if r.name = n then some r.value else none) := by
  simp only [lastValue, List.reverse_cons, List.find?_append]
  cases h : rs.reverse.find? (fun r => decide (r.name = n)) with
  | some x => simp
  | none => by_cases hn : r.name = n <;> simp [hn]

theorem load_fold (n : Str) (rs : List Rec) : ∀ s : StaticPars,
    (rs.foldl (fun m r => mapSet m r.name r.value) s).lookup n = (lastValue n rs).or (s.lookup n) := by
  induction rs with
  | nil => intro s; simp [lastValue]
  | cons r rs ih =>
    intro s
    rw [List.foldl_cons, ih, lookup_mapSet, lastValue_cons]
    cases lastValue n rs with
    | some v => simp
    | none =>
      by_cases hn : n = r.name
      · subst hn; simp
      · simp [hn, Ne.symm hn]

/-- The text is a (possibly truncated or malformed) parameter file starting with the records `rs`. -/
def StartsWithRecords (R : Reader) (text : Str) (rs : List Rec) : Prop := ∃ r, FileText R text rs r ∧ (Blank r ∨ BadRec R r)

theorem scanLenient_of {R : Reader} {text : Str} {rs : List Rec} (h : StartsWithRecords R text rs) : scanLenient R text = rs := by
  obtain ⟨r, h1, h2 | h2⟩ := h
  · simp [scanLenient, scan_file h1 h2]
  · simp [scanLenient, scan_file_bad h1 h2]

/-- **C18.** `load`: every name has its last value in the file, names not in the file keep their value. (Records from the first
malformed one on are silently ignored.) -/
theorem C18_load (R : Reader) (s : StaticPars) (text : Str) (rs : List Rec) (h : StartsWithRecords R text rs) (n : Str) :
    (s.load R text).lookup n = (lastValue n rs).or (s.lookup n) := by
  simp only [StaticPars.load, scanLenient_of h, load_fold]

theorem merge_overwrite (rs : List Rec) : ∀ x : StaticPars × Nat,
    rs.foldl (fun (x : StaticPars × Nat) r => if true || (x.1.lookup r.name).isNone then (mapSet x.1 r.name r.value, x.2 + 1) else x) x =
      (rs.foldl (fun m r => mapSet m r.name r.value) x.1, x.2 + rs.length) := by
  induction rs with
  | nil => intro x; rfl
  | cons r rs ih =>
    intro x
    rw [List.foldl_cons, ih]
    simp only [Bool.true_or, if_true, List.foldl_cons, List.length_cons, Prod.mk.injEq, true_and]; omega

/-- **C18.** `merge` with overwrite: as `load`, and the count is the number of records. -/
theorem C18_merge_overwrite (R : Reader) (s : StaticPars) (text : Str) (rs : List Rec) (h : StartsWithRecords R text rs) :
    s.merge R text true = (s.load R text, rs.length) := by
  simp only [StaticPars.merge, StaticPars.load, scanLenient_of h]
  rw [merge_overwrite]; simp

theorem merge_keep (n : Str) (rs : List Rec) : ∀ x : StaticPars × Nat,
    (rs.foldl (fun (x : StaticPars × Nat) r =>
      if false || (x.1.lookup r.name).isNone then (mapSet x.1 r.name r.value, x.2 + 1) else x) x).1.lookup n =
      (x.1.lookup n).or (firstValue n rs) := by
  induction rs with
  | nil => intro x; simp [firstValue]
  | cons r rs ih =>
    intro x
    rw [List.foldl_cons, ih]
    simp only [Bool.false_or]
    by_cases hr : (x.1.lookup r.name).isNone = true
    · rw [if_pos hr, lookup_mapSet]
      by_cases hn : n = r.name
      · subst hn
        have : x.1.lookup r.name = none := by simpa using hr
        simp [this, firstValue]
      · simp only [hn, if_false, firstValue, List.find?_cons, Ne.symm hn, decide_false]
    · rw [if_neg hr]
      by_cases hn : r.name = n
      · subst hn
        obtain ⟨v, hv⟩ : ∃ v, x.1.lookup r.name = some v := by
          cases h : x.1.lookup r.name with
          | none => simp [h] at hr
          | some v => exact ⟨v, rfl⟩
        simp [hv]
      · simp only [firstValue, List.find?_cons, hn, decide_false]

theorem merge_size (rs : List Rec) : ∀ x : StaticPars × Nat,
    (rs.foldl (fun (x : StaticPars × Nat) r =>
      if false || (x.1.lookup r.name).isNone then (mapSet x.1 r.name r.value, x.2 + 1) else x) x).1.length + x.2 =
    (rs.foldl (fun (x : StaticPars × Nat) r =>
      if false || (x.1.lookup r.name).isNone then (mapSet x.1 r.name r.value, x.2 + 1) else x) x).2 + x.1.length := by
  induction rs with
  | nil => intro x; simp; omega
  | cons r rs ih =>
    intro x
    rw [List.foldl_cons]
    simp only [Bool.false_or]
    by_cases hr : (x.1.lookup r.name).isNone = true
    · rw [if_pos hr]
      have := ih (mapSet x.1 r.name r.value, x.2 + 1)
      simp only [Bool.false_or] at this
      have hk := congrArg List.length (keys_mapSet x.1 r.name r.value)
      have hm : r.name ∉ x.1.map Prod.fst := by
        rw [← lookup_eq_none_iff']; simpa using hr
      rw [if_neg hm] at hk
      simp only [List.length_map, List.length_append, List.length_singleton] at hk
      rw [hk] at this; omega
    · rw [if_neg hr]
      have := ih x
      simpa only [Bool.false_or] using this

/-- **C18.** `merge` without overwrite: an existing value is kept, otherwise the first value in the file is taken; the count is
the number of names added. -/
theorem C18_merge_keep (R : Reader) (s : StaticPars) (text : Str) (rs : List Rec) (h : StartsWithRecords R text rs) :
    (∀ n, (s.merge R text false).1.lookup n = (s.lookup n).or (firstValue n rs)) ∧
    (s.merge R text false).1.length = s.length + (s.merge R text false).2 := by
  simp only [StaticPars.merge, scanLenient_of h]
  refine ⟨fun n => merge_keep n rs (s, 0), ?_⟩
  have := merge_size rs (s, 0)
  simp only at this; omega

/-- **C18.** Each name keeps exactly one value. -/
theorem C18_one_value (R : Reader) (s : StaticPars) (hs : (s.map Prod.fst).Nodup) (text : Str) (b : Bool) :
    ((s.load R text).map Prod.fst).Nodup ∧ ((s.merge R text b).1.map Prod.fst).Nodup := by
  constructor
  · exact foldl_inv (fun s : StaticPars => (s.map Prod.fst).Nodup) _ (fun a r h => nodup_mapSet h _ _) _ _ hs
  · refine foldl_inv (fun x : StaticPars × Nat => (x.1.map Prod.fst).Nodup) _ (fun a r h => ?_) _ _ hs
    split
    · exact nodup_mapSet h _ _
    · exact h

/-! ## Non-vacuity: a concrete file -/

section examples

/-- A file with two records and a trailing newline; one parameter is locked by its std 0. -/
def exText : Str := "a 1 2 3\nb 4 5 0\n".toList

def exRecs : List Rec := [⟨"a".toList, .fin 1, .fin 2, .fin 3⟩, ⟨"b".toList, .fin 4, .fin 5, .fin 0⟩]

theorem exFile : FileText strtodReader exText exRecs "\n".toList := by
  have h1 : RecText strtodReader exText ⟨"a".toList, .fin 1, .fin 2, .fin 3⟩ "\nb 4 5 0\n".toList :=
    RecText.mk (w := []) (n := "a".toList) (g := " ".toList) (t := "1 2 3\nb 4 5 0\n".toList) (t1 := " 2 3\nb 4 5 0\n".toList)
      (t2 := " 3\nb 4 5 0\n".toList) (by simp [Blank]) (by simp [FileName]; decide) (by simp [Gap, Blank]; decide)
      ⟨" ".toList, "1 2 3\nb 4 5 0\n".toList, rfl, by simp [Blank]; decide, ⟨_, _, rfl, by decide⟩, by decide +kernel⟩
      ⟨" ".toList, "2 3\nb 4 5 0\n".toList, rfl, by simp [Blank]; decide, ⟨_, _, rfl, by decide⟩, by decide +kernel⟩
      ⟨" ".toList, "3\nb 4 5 0\n".toList, rfl, by simp [Blank]; decide, ⟨_, _, rfl, by decide⟩, by decide +kernel⟩
  have h2 : RecText strtodReader "\nb 4 5 0\n".toList ⟨"b".toList, .fin 4, .fin 5, .fin 0⟩ "\n".toList :=
    RecText.mk (w := "\n".toList) (n := "b".toList) (g := " ".toList) (t := "4 5 0\n".toList) (t1 := " 5 0\n".toList)
      (t2 := " 0\n".toList) (by simp [Blank]; decide) (by simp [FileName]; decide) (by simp [Gap, Blank]; decide)
      ⟨" ".toList, "4 5 0\n".toList, rfl, by simp [Blank]; decide, ⟨_, _, rfl, by decide⟩, by decide +kernel⟩
      ⟨" ".toList, "5 0\n".toList, rfl, by simp [Blank]; decide, ⟨_, _, rfl, by decide⟩, by decide +kernel⟩
      ⟨" ".toList, "0\n".toList, rfl, by simp [Blank]; decide, ⟨_, _, rfl, by decide⟩, by decide +kernel⟩
  exact .cons h1 (.cons h2 .nil)

/-- Three free parameters. -/
def exInfo : ObjInfo :=
  { minimize := true, pars := ["c", "b", "a"].map fun n => ⟨n.toList, .fin 0, .fin 1, .ninf, .pinf⟩ }

example : NamesUnique exInfo ∧ FileText strtodReader exText exRecs "\n".toList ∧ Blank "\n".toList :=
  ⟨⟨by decide, by decide, by decide⟩, exFile, by simp [Blank]; decide⟩

-- `c` stays, `b` is locked to 4, `a` gets mean 2 and std 3
example : (exInfo.importMeanStd strtodReader (some exText) {}).1.pars =
    [⟨"c".toList, .fin 0, .fin 1, .ninf, .pinf⟩, ⟨"a".toList, .fin 2, .fin 3, .ninf, .pinf⟩] ∧
    (exInfo.importMeanStd strtodReader (some exText) {}).1.locked = [("b".toList, .fin 4)] ∧
    (exInfo.importMeanStd strtodReader (some exText) {}).2 = .ok (2, 0) := by decide +kernel

example : (exInfo.importLocked strtodReader (some exText) none none).1.locked = [("a".toList, .fin 1), ("b".toList, .fin 4)] := by
  decide +kernel

example : StartsWithRecords strtodReader exText exRecs := ⟨_, exFile, Or.inl (by simp [Blank]; decide)⟩

/-- A malformed second record. -/
example : FileText strtodReader "\nb 4 5 0\nq 1 x".toList [⟨"b".toList, .fin 4, .fin 5, .fin 0⟩] "\nq 1 x".toList ∧
    BadRec strtodReader "\nq 1 x".toList := by
  constructor
  · refine .cons (RecText.mk (w := "\n".toList) (n := "b".toList) (g := " ".toList) (t := "4 5 0\nq 1 x".toList) (t1 := " 5 0\nq 1 x".toList)
      (t2 := " 0\nq 1 x".toList) (by simp [Blank]; decide) (by simp [FileName]; decide) (by simp [Gap, Blank]; decide)
      ⟨" ".toList, "4 5 0\nq 1 x".toList, rfl, by simp [Blank]; decide, ⟨_, _, rfl, by decide⟩, by decide +kernel⟩
      ⟨" ".toList, "5 0\nq 1 x".toList, rfl, by simp [Blank]; decide, ⟨_, _, rfl, by decide⟩, by decide +kernel⟩
      ⟨" ".toList, "0\nq 1 x".toList, rfl, by simp [Blank]; decide, ⟨_, _, rfl, by decide⟩, by decide +kernel⟩) .nil
  · exact BadRec.mean (w := "\n".toList) (n := "q".toList) (g := " ".toList) (t := "1 x".toList) (v := .fin 1) (t1 := " x".toList)
      (by simp [Blank]; decide) (by simp [FileName]; decide) (by simp [Gap, Blank]; decide)
      ⟨" ".toList, "1 x".toList, rfl, by simp [Blank]; decide, ⟨_, _, rfl, by decide⟩, by decide +kernel⟩
      ⟨" ".toList, "x".toList, rfl, by simp [Blank]; decide, Or.inr ⟨_, _, rfl, by decide⟩, by decide +kernel⟩

end examples

end Spot
