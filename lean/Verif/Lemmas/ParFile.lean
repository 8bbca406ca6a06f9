import Verif.Spec.ParFile
import Verif.Lemmas.ObjInfo

namespace Spot
open Notation ObjInfo

/-! ## scanning -/

theorem word_of {w n g t : Str} (hw : Blank w) (hn : FileName n) (hg : Gap g ∨ (g = [] ∧ t = [])) :
    CS.word { rest := w ++ n ++ g ++ t } = (n, { rest := g ++ t }) := by
  obtain ⟨hne, hns⟩ := hn
  cases n with
  | nil => exact absurd rfl hne
  | cons c n =>
    have hc : isWs c = false := hns c (by simp)
    have h1 : skipWs (w ++ (c :: n) ++ g ++ t) = (c :: n) ++ (g ++ t) := by
      have := skipWs_append_solid (w := w) (c := c) (u := n ++ g ++ t) hw hc
      simpa using this
    have htw : ∀ (l : Str), (∀ c ∈ l, isWs c = false) →
        (l ++ (g ++ t)).takeWhile (fun c => !isWs c) = l ∧ (l ++ (g ++ t)).dropWhile (fun c => !isWs c) = g ++ t := by
      intro l
      induction l with
      | nil =>
        intro _
        rcases hg with hg | ⟨rfl, rfl⟩
        · cases g with
          | nil => exact absurd rfl hg.2
          | cons a g =>
            have : isWs a = true := hg.1 a (by simp)
            simp [this]
        · simp
      | cons a l ih =>
        intro h
        have ha : isWs a = false := h a (by simp)
        have := ih (fun c hc => h c (by simp [hc]))
        simp [ha, this]
    have h2 := htw (c :: n) hns
    simp only [CS.word, Bool.false_eq_true, if_false, h1, h2.1, h2.2, List.isEmpty_cons]

theorem readRec_of {R : Reader} {s : Str} {x : Rec} {r : Str} (h : RecText R s x r) : readRec R { rest := s } = (x, { rest := r }) := by
  cases h with
  | mk hw hn hg h1 h2 h3 =>
    simp only [readRec, word_of hw hn (Or.inl hg), num_of_number h1, num_of_number h2, num_of_number h3]

theorem number_length {R : Reader} {t r : Str} {v : Dbl} (h : Number R t v r) : r.length < t.length := by
  obtain ⟨w, u, rfl, _, _, hr⟩ := h
  have := rd_length hr
  simp; omega

theorem recText_length {R : Reader} {s : Str} {x : Rec} {r : Str} (h : RecText R s x r) : r.length + 4 ≤ s.length := by
  cases h with
  | mk hw hn hg h1 h2 h3 =>
    have e1 := number_length h1
    have e2 := number_length h2
    have e3 := number_length h3
    have e4 := List.length_pos_iff.2 hn.1
    simp at *; omega

theorem recText_good {R : Reader} {s : Str} {x : Rec} {r : Str} (h : RecText R s x r) : CS.good { rest := s } = true := by
  have := recText_length h
  cases s with
  | nil => simp at this
  | cons c s => rfl

/-- What the strict scanner does with the text after the last complete record. -/
theorem scanStrict_fileText {R : Reader} {s : Str} {rs : List Rec} {r : Str} (h : FileText R s rs r) :
    ∀ fuel, s.length < fuel → ∃ fuel', r.length < fuel' ∧
      scanStrict R fuel { rest := s } = ((rs ++ (scanStrict R fuel' { rest := r }).1), (scanStrict R fuel' { rest := r }).2) := by
  induction h with
  | nil => intro fuel hf; exact ⟨fuel, hf, by simp⟩
  | @cons s x t rs r h1 _ ih =>
    intro fuel hf
    cases fuel with
    | zero => omega
    | succ n =>
      have := recText_length h1
      obtain ⟨f', hf', e⟩ := ih n (by omega)
      refine ⟨f', hf', ?_⟩
      rw [scanStrict, if_pos (recText_good h1), readRec_of h1]
      simp only [Bool.false_eq_true, if_false, e]
      rfl

theorem scanStrict_blank {R : Reader} {r : Str} (h : Blank r) (fuel : Nat) : scanStrict R fuel { rest := r } = ([], false) := by
  cases fuel with
  | zero => rfl
  | succ n =>
    rw [scanStrict]
    split
    · have hw : CS.word { rest := r } = ([], { rest := [], failed := true }) := by
        simp [CS.word, skipWs_blank h]
      have : readRec R { rest := r } = (⟨[], .fin 0, .fin 0, .fin 0⟩, { rest := [], failed := true }) := by
        simp [readRec, hw, CS.num]
      rw [this]; rfl
    · rfl

theorem scanStrict_bad {R : Reader} {s : Str} (h : BadRec R s) (fuel : Nat) (hf : 0 < fuel) :
    scanStrict R fuel { rest := s } = ([], true) := by
  cases fuel with
  | zero => omega
  | succ n =>
    have key : ∀ {w n g t : Str}, FileName n → CS.good { rest := w ++ n ++ g ++ t } = true := by
      intro w n g t hn
      obtain ⟨hne, _⟩ := hn
      cases n with
      | nil => exact absurd rfl hne
      | cons c n => simp [CS.good]
    have nf : ∀ (R : Reader) (r : Str), CS.num R { rest := r, failed := true } = (.fin 0, { rest := r, failed := true }) := by
      intro R r; simp [CS.num]
    cases h with
    | value hw hn hg h1 =>
      rw [scanStrict, if_pos (key hn)]
      simp only [readRec, word_of hw hn hg, num_of_noNumber h1, nf]
      simp [hn.1]
    | mean hw hn hg h1 h2 =>
      rw [scanStrict, if_pos (key hn)]
      simp only [readRec, word_of hw hn (Or.inl hg), num_of_number h1, num_of_noNumber h2, nf]
      simp [hn.1]
    | std hw hn hg h1 h2 h3 =>
      rw [scanStrict, if_pos (key hn)]
      simp only [readRec, word_of hw hn (Or.inl hg), num_of_number h1, num_of_number h2, num_of_noNumber h3]
      simp [hn.1]

theorem scan_file {R : Reader} {s : Str} {rs : List Rec} {r : Str} (h : FileText R s rs r) (hr : Blank r) :
    scanStrict R (s.length + 1) { rest := s } = (rs, false) := by
  obtain ⟨f, _, e⟩ := scanStrict_fileText h (s.length + 1) (by omega)
  rw [e, scanStrict_blank hr]; simp

theorem scan_file_bad {R : Reader} {s : Str} {rs : List Rec} {r : Str} (h : FileText R s rs r) (hr : BadRec R r) :
    scanStrict R (s.length + 1) { rest := s } = (rs, true) := by
  obtain ⟨f, hf, e⟩ := scanStrict_fileText h (s.length + 1) (by omega)
  rw [e, scanStrict_bad hr f (by omega)]; simp

/-! ## views -/

/-- The view of a name, computed. -/
def viewFn (i : ObjInfo) (n : Str) : View :=
  match i.find n with
  | some p => .free p
  | none => match i.tryGetLocked n with
    | some v => .locked v
    | none => .absent

theorem viewOf_iff {i : ObjInfo} (h : NamesUnique i) (n : Str) (w : View) : ViewOf i n w ↔ viewFn i n = w := by
  unfold viewFn
  cases hf : i.find n with
  | some p =>
    have hp := find_some hf
    cases w with
    | absent => simp only [ViewOf, reduceCtorEq, iff_false, not_not]; exact Or.inl ⟨p, hp⟩
    | locked v => simp only [ViewOf, reduceCtorEq, iff_false]; intro hc; exact hc.2 p hp.1 hp.2
    | free q =>
      simp only [ViewOf, View.free.injEq]
      constructor
      · rintro ⟨h1, h2⟩; exact unique_par h.free hp.1 h1 (by rw [hp.2, h2])
      · rintro rfl; exact hp
  | none =>
    have hn := find_none.1 hf
    cases hl : i.tryGetLocked n with
    | some v =>
      have hv := mem_of_lookup hl
      cases w with
      | absent => simp only [ViewOf, reduceCtorEq, iff_false, not_not]; exact Or.inr ⟨v, hv⟩
      | locked v' =>
        simp only [ViewOf, View.locked.injEq]
        constructor
        · rintro ⟨h1, _⟩
          have := lookup_of_mem h.locked h1
          unfold tryGetLocked at hl; rw [hl] at this; exact Option.some.inj this
        · rintro rfl; exact ⟨hv, hn⟩
      | free q => simp only [ViewOf, reduceCtorEq, iff_false]; rintro ⟨h1, h2⟩; exact hn q h1 h2
    | none =>
      have hk : ¬ Known i n := by rw [known_iff, hf, hl]; simp
      cases w with
      | absent => simpa [ViewOf] using hk
      | locked v =>
        simp only [ViewOf, reduceCtorEq, iff_false]; rintro ⟨h1, _⟩; exact hk (Or.inr ⟨v, h1⟩)
      | free q => simp only [ViewOf, reduceCtorEq, iff_false]; rintro ⟨h1, h2⟩; exact hn q h1 h2

theorem find_filter_ne (l : List ParInfo) (m n : Str) :
    (l.filter (fun p => p.name ≠ m)).find? (fun p => p.name = n) = if n = m then none else l.find? (fun p => p.name = n) := by
  induction l with
  | nil => simp
  | cons p l ih =>
    rw [List.filter_cons]
    by_cases h : p.name = m
    · simp only [h, ne_eq, not_true_eq_false, decide_false, Bool.false_eq_true, if_false, ih]
      split
      · rfl
      · rename_i h'; rw [List.find?_cons]
        have : decide (p.name = n) = false := by simpa [h] using fun h'' => h' h''.symm
        rw [this]
    · simp only [ne_eq, h, not_false_eq_true, decide_true, if_true, List.find?_cons, ih]
      by_cases h2 : p.name = n
      · simp only [h2, decide_true]
        rw [if_neg (by rw [← h2]; exact h)]
      · simp only [h2, decide_false]

theorem find_updateFirst (l : List ParInfo) (m n : Str) (f : ParInfo → ParInfo) (hf : ∀ p, (f p).name = p.name) :
    (updateFirst m f l).find? (fun p => p.name = n) =
      if n = m then (l.find? (fun p => p.name = n)).map f else l.find? (fun p => p.name = n) := by
  induction l with
  | nil => simp [updateFirst]
  | cons p l ih =>
    rw [updateFirst]
    by_cases h : p.name = m
    · rw [if_pos h]
      simp only [List.find?_cons, hf]
      by_cases h2 : n = m
      · subst h2; simp [h]
      · have : decide (p.name = n) = false := by simpa [h] using fun h'' => h2 h''.symm
        simp [this, h2]
    · rw [if_neg h]
      simp only [List.find?_cons, ih]
      by_cases h2 : p.name = n
      · have : n ≠ m := by rw [← h2]; exact h
        simp [h2, this]
      · simp only [h2, decide_false]

theorem viewFn_lock {i : ObjInfo} (h : NamesUnique i) (m : Str) (v : Dbl) (n : Str) :
    viewFn (i.lock m v).1 n = if n = m then (match viewFn i n with | .absent => .absent | _ => .locked v) else viewFn i n := by
  rcases lock_cases i m v with ⟨e, hk⟩ | ⟨e, hf, hm⟩ | ⟨p, hf, e⟩
  · rw [e]
    by_cases hn : n = m
    · subst hn
      have : viewFn i n = .absent := by
        rw [known_iff] at hk; simp at hk; simp [viewFn, hk.1, hk.2]
      simp [this]
    · simp [hn]
  · rw [e]
    by_cases hn : n = m
    · subst hn
      have h1 : viewFn i n ≠ .absent := by
        obtain ⟨w, hw⟩ := Option.isSome_iff_exists.1 ((lookup_isSome_iff _ _).2 hm)
        simp [viewFn, hf, tryGetLocked, hw]
      have h2 : viewFn { i with locked := mapSet i.locked n v } n = .locked v := by
        have : ObjInfo.find { i with locked := mapSet i.locked n v } n = none := hf
        simp [viewFn, this, tryGetLocked, lookup_mapSet]
      simp only [h2, if_true]
    · have hfn : ObjInfo.find { i with locked := mapSet i.locked m v } n = i.find n := rfl
      simp [viewFn, hfn, tryGetLocked, lookup_mapSet, hn]
  · rw [e]
    simp only [eraseP_eq_filter h.free]
    have hfn : ObjInfo.find { i with locked := mapSet i.locked m v, pars := i.pars.filter (fun p => p.name ≠ m) } n =
        if n = m then none else i.find n := find_filter_ne i.pars m n
    by_cases hn : n = m
    · subst hn
      simp only [if_true] at hfn ⊢
      have : viewFn i n = .free p := by simp [viewFn, hf]
      rw [this]
      simp only [viewFn, hfn, tryGetLocked, lookup_mapSet, if_true]
    · simp only [hn, if_false] at hfn ⊢
      simp only [viewFn, hfn, tryGetLocked, lookup_mapSet, hn, if_false]

theorem accepted_iff (incl excl : Matcher) (n : Str) : accepted incl excl n = true ↔ Passes incl excl n := by
  unfold accepted Passes
  cases incl <;> cases excl <;> simp

theorem eq_zero_iff (x : Dbl) : Dbl.eq x (.fin 0) = true ↔ x = .fin 0 := by
  rw [Dbl.eq_iff]; constructor
  · exact fun h => h.1
  · rintro rfl; simp

theorem importPar_view (st : ImportSettings) (r : Rec) (p : ParInfo) (hr : r.std ≠ .fin 0) :
    importView st (.free p) r = .free (importPar st r p) := by
  have e : Dbl.eq st.stdFactor (.fin 1) = true ↔ st.stdFactor = .fin 1 := by
    rw [Dbl.eq_iff]; constructor
    · exact fun h => h.1
    · intro h; rw [h]; simp
  simp only [importView, hr, if_false, importPar]
  by_cases h1 : st.importStd = true
  · simp [h1]
  · simp only [h1, Bool.false_eq_true, if_false]
    by_cases h2 : st.stdFactor = .fin 1
    · simp [h2]
    · have : Dbl.eq st.stdFactor (.fin 1) = false := by
        cases h3 : Dbl.eq st.stdFactor (.fin 1) with
        | false => rfl
        | true => exact absurd (e.1 h3) h2
      simp [h2, this]

theorem importPar_name (st : ImportSettings) (r : Rec) (p : ParInfo) : (importPar st r p).name = p.name ∧
    (importPar st r p).min = p.min ∧ (importPar st r p).max = p.max := by
  simp only [importPar]; split <;> [exact ⟨rfl, rfl, rfl⟩; (split <;> exact ⟨rfl, rfl, rfl⟩)]

theorem viewFn_importRec (st : ImportSettings) (x : ObjInfo × Nat × Nat) (h : NamesUnique x.1) (r : Rec) (n : Str) :
    viewFn (importRec st x r).1 n =
      if Passes st.incl st.excl r.name ∧ r.name = n then importView st (viewFn x.1 n) r else viewFn x.1 n := by
  obtain ⟨i, a, b⟩ := x
  simp only [importRec]
  by_cases ha : Passes st.incl st.excl r.name
  · simp only [(accepted_iff _ _ _).2 ha, Bool.not_true, Bool.false_eq_true, if_false, ha, true_and]
    by_cases hs : r.std = .fin 0
    · have : Dbl.eq r.std (.fin 0) = true := (eq_zero_iff _).2 hs
      simp only [this, if_true]
      have hv := viewFn_lock h r.name r.value n
      rcases hl : i.lock r.name r.value with ⟨i', c⟩
      rw [hl] at hv
      have e : viewFn i' n = if r.name = n then importView st (viewFn i n) r else viewFn i n := by
        rw [hv]
        by_cases hn : n = r.name
        · subst hn; simp only [if_true]; cases viewFn i r.name <;> simp [importView, hs]
        · rw [if_neg hn, if_neg (fun h => hn h.symm)]
      cases c <;> exact e
    · have : Dbl.eq r.std (.fin 0) = false := by
        cases h3 : Dbl.eq r.std (.fin 0) with
        | false => rfl
        | true => exact absurd ((eq_zero_iff _).1 h3) hs
      simp only [this, Bool.false_eq_true, if_false]
      by_cases hf : (i.find r.name).isSome = true
      · rw [if_pos hf]
        obtain ⟨p, hp⟩ := Option.isSome_iff_exists.1 hf
        have hfn := find_updateFirst i.pars r.name n (importPar st r) (fun p => (importPar_name st r p).1)
        have hfn' : ObjInfo.find { i with pars := updateFirst r.name (importPar st r) i.pars } n =
          if n = r.name then (i.find n).map (importPar st r) else i.find n := hfn
        by_cases hn : r.name = n
        · subst hn
          simp only [if_true] at hfn' ⊢
          rw [hp] at hfn'
          have h1 : viewFn i r.name = .free p := by simp [viewFn, hp]
          rw [h1, importPar_view st r p hs]
          simp only [viewFn, hfn', Option.map_some]
        · have hn' : n ≠ r.name := fun h => hn h.symm
          simp only [hn', if_false] at hfn'
          simp only [hn, if_false, viewFn, hfn']
          rfl
      · rw [if_neg hf]
        simp only
        by_cases hn : r.name = n
        · subst hn
          simp only [if_true]
          have : i.find r.name = none := by simpa using hf
          simp only [viewFn, this]
          cases i.tryGetLocked r.name <;> simp [importView, hs]
        · simp [hn]
  · have : accepted st.incl st.excl r.name = false := by
      cases h3 : accepted st.incl st.excl r.name with
      | false => rfl
      | true => exact absurd ((accepted_iff _ _ _).1 h3) ha
    simp [this, ha]

theorem viewFn_lockRec (incl excl : Matcher) (x : ObjInfo × Nat × Nat) (h : NamesUnique x.1) (r : Rec) (n : Str) :
    viewFn (lockRec incl excl x r).1 n =
      if Passes incl excl r.name ∧ r.name = n then lockView (viewFn x.1 n) r else viewFn x.1 n := by
  obtain ⟨i, a, b⟩ := x
  simp only [lockRec]
  by_cases ha : Passes incl excl r.name
  · simp only [(accepted_iff _ _ _).2 ha, Bool.not_true, Bool.false_eq_true, if_false, ha, true_and]
    have hv := viewFn_lock h r.name r.value n
    rcases hl : i.lock r.name r.value with ⟨i', c⟩
    rw [hl] at hv
    have e : viewFn i' n = if r.name = n then lockView (viewFn i n) r else viewFn i n := by
      rw [hv]
      by_cases hn : n = r.name
      · subst hn; simp only [if_true]; cases viewFn i r.name <;> rfl
      · rw [if_neg hn, if_neg (fun h => hn h.symm)]
    cases c <;> exact e
  · have : accepted incl excl r.name = false := by
      cases h3 : accepted incl excl r.name with
      | false => rfl
      | true => exact absurd ((accepted_iff _ _ _).1 h3) ha
    simp [this, ha]

end Spot
