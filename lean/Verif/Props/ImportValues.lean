import Verif.Props.Points

/-!
# C111: the values of a point from any file
-/

namespace Spot
open Notation ObjInfo

/-! ## specification -/

/-- The value of a parameter that had the value `old`, after the records `rs`: that of the last record with its name. -/
def newValue (n : Str) (old : Dbl) (rs : List Rec) : Dbl := (((rs.filter fun r => r.name = n).map Rec.value).getLast?).getD old

/-- The records that are taken from a file with the records `rs`, followed by the text `r`: the last one must be followed by something. -/
def takenRecs (rs : List Rec) (r : Str) : List Rec := if r = [] then rs.dropLast else rs

/-- The number of records that name a parameter. -/
def namedCount (i : ObjInfo) (rs : List Rec) : Nat := rs.countP fun r => i.pars.any fun p => p.name = r.name

/-! ## scanning -/

theorem scanGood_failed {R : Reader} {s : Str} (fuel : Nat) : scanGood R fuel { rest := s, failed := true } = [] := by
  cases fuel with
  | zero => rfl
  | succ n => rw [scanGood, if_neg (by simp [CS.good])]

theorem scanGood_empty {R : Reader} (fuel : Nat) : scanGood R fuel { rest := [] } = [] := scanGood_blank (by simp [Blank]) fuel

theorem scanGood_bad {R : Reader} {s : Str} (h : BadRec R s) (fuel : Nat) : scanGood R fuel { rest := s } = [] := by
  cases fuel with
  | zero => rfl
  | succ n =>
    have hf : (readRec R { rest := s }).2.failed = true := by
      have nf : ∀ (R : Reader) (r : Str), CS.num R { rest := r, failed := true } = (.fin 0, { rest := r, failed := true }) := by
        intro R r; simp [CS.num]
      cases h with
      | value hw hn hg h1 => simp only [readRec, word_of hw hn hg, num_of_noNumber h1, nf]
      | mean hw hn hg h1 h2 => simp only [readRec, word_of hw hn (Or.inl hg), num_of_number h1, num_of_noNumber h2, nf]
      | std hw hn hg h1 h2 h3 => simp only [readRec, word_of hw hn (Or.inl hg), num_of_number h1, num_of_number h2, num_of_noNumber h3]
    rw [scanGood]
    split
    · rcases hx : readRec R { rest := s } with ⟨x, t, b⟩
      rw [hx] at hf
      dsimp only at hf ⊢
      subst hf
      rw [if_neg (by simp [CS.good])]
      exact scanGood_failed n
    · rfl

theorem scanGood_fileText {R : Reader} {s : Str} {rs : List Rec} {r : Str} (h : FileText R s rs r) (hr : Blank r ∨ BadRec R r) :
    ∀ fuel, s.length < fuel → scanGood R fuel { rest := s } = takenRecs rs r := by
  have hr0 : ∀ fuel, scanGood R fuel { rest := r } = [] := fun fuel => hr.elim (fun h => scanGood_blank h fuel) fun h => scanGood_bad h fuel
  induction h with
  | nil => intro fuel _; rw [hr0]; unfold takenRecs; split <;> rfl
  | @cons s x t rs r h1 h2 ih =>
    intro fuel hf
    cases fuel with
    | zero => omega
    | succ n =>
      have := recText_length h1
      rw [scanGood, if_pos (recText_good h1), readRec_of h1]
      dsimp only
      cases t with
      | nil =>
        generalize ht : ([] : Str) = t' at h2
        cases h2 with
        | nil => subst ht; rw [if_neg (by simp [CS.good]), scanGood_empty]; rfl
        | cons h3 _ => subst ht; have := recText_length h3; simp at this
      | cons c t =>
        rw [if_pos (by simp [CS.good]), ih hr hr0 n (by omega)]
        unfold takenRecs
        split
        · rename_i hr'
          cases rs with
          | nil => cases h2; cases hr'
          | cons y rs => rfl
        · rfl

/-! ## applying -/

theorem newValue_cons {n : Str} {old : Dbl} {x : Rec} {rs : List Rec} : newValue n old (x :: rs) = newValue n (if x.name = n then x.value else old) rs := by
  unfold newValue
  by_cases h : x.name = n
  · rw [if_pos h, List.filter_cons_of_pos (by simpa using h), List.map_cons, List.getLast?_cons]
    rfl
  · rw [if_neg h, List.filter_cons_of_neg (by simpa using h)]

theorem import_values_fold {i : ObjInfo} (h : (i.pars.map ParInfo.name).Nodup) (rs : List Rec) : ∀ (vs : List Dbl) (a b : Nat), vs.length = i.dim →
    ∃ ws, rs.foldl SearchPoint.importRec (⟨i, vs⟩, a, b) = (⟨i, ws⟩, a + namedCount i rs, b + (rs.length - namedCount i rs)) ∧ ws.length = i.dim ∧
      ∀ (k : Nat) (p : ParInfo) (v : Dbl), i.pars[k]? = some p → vs[k]? = some v → ws[k]? = some (newValue p.name v rs) := by
  induction rs with
  | nil => intro vs a b hl; exact ⟨vs, rfl, hl, fun k p v _ hv => hv⟩
  | cons x rs ih =>
    intro vs a b hl
    have hle : namedCount i rs ≤ rs.length := List.countP_le_length
    cases hf : i.findIndex x.name with
    | some k =>
      obtain ⟨q, hq, hqn⟩ := findIndex_some hf
      obtain ⟨ws, h1, h2, h3⟩ := ih (vs.set k x.value) (a + 1) b (by rw [List.length_set, hl])
      have hc : namedCount i (x :: rs) = namedCount i rs + 1 := by
        unfold namedCount
        rw [List.countP_cons_of_pos]
        rw [List.any_eq_true]
        exact ⟨q, List.mem_of_getElem? hq, by simpa using hqn.1⟩
      refine ⟨ws, ?_, h2, fun j p v hp hv => ?_⟩
      · simp only [List.foldl_cons, SearchPoint.importRec, hf]
        rw [h1, hc, List.length_cons]
        have e1 : a + 1 + namedCount i rs = a + (namedCount i rs + 1) := by omega
        have e2 : rs.length + 1 - (namedCount i rs + 1) = rs.length - namedCount i rs := by omega
        rw [e1, e2]
      · rw [newValue_cons]
        by_cases hj : x.name = p.name
        · rw [if_pos hj]
          have hjk : j = k := by
            have := findIndex_of_get h hp
            rw [← hj, hf] at this
            exact (Option.some.inj this).symm
          subst hjk
          refine h3 j p x.value hp ?_
          rw [List.getElem?_set_self (by have := (List.getElem?_eq_some_iff.1 hv).1; exact this)]
        · rw [if_neg hj]
          refine h3 j p v hp ?_
          rw [List.getElem?_set_ne, hv]
          intro hkj
          subst hkj
          rw [hq] at hp
          cases hp
          exact hj hqn.1.symm
    | none =>
      have hn := findIndex_none.1 hf
      obtain ⟨ws, h1, h2, h3⟩ := ih vs a (b + 1) hl
      have hc : namedCount i (x :: rs) = namedCount i rs := by
        unfold namedCount
        rw [List.countP_cons_of_neg]
        rw [Bool.not_eq_true, List.any_eq_false]
        intro p hp
        simpa using hn p hp
      refine ⟨ws, ?_, h2, fun j p v hp hv => ?_⟩
      · simp only [List.foldl_cons, SearchPoint.importRec, hf]
        rw [h1, hc, List.length_cons]
        have e2 : b + 1 + (rs.length - namedCount i rs) = b + (rs.length + 1 - namedCount i rs) := by omega
        rw [e2]
      · rw [newValue_cons, if_neg fun he => hn p (List.mem_of_getElem? hp) he.symm]
        exact h3 j p v hp hv

/-- **C111.** `import_values` from any file, of which `rs` are the records up to its end or up to the first record that is malformed: it succeeds; a parameter gets the value of the last record with
its name, to all its digits, and keeps its value if there is none; other parameters of the file are counted as skipped. A record at the very end of the file, without a character after it,
is ignored; a malformed record ends the import without an error. -/
theorem C111_import_values (R : Reader) (s : SearchPoint) (hs : s.WF) (hu : (s.info.pars.map ParInfo.name).Nodup) (text : Str) (rs : List Rec) (r : Str) (ht : FileText R text rs r)
    (hr : Blank r ∨ BadRec R r) (hne : text ≠ []) :
    ∃ t set skipped, s.importValues R (some text) = (t, .ok (set, skipped)) ∧ t.info = s.info ∧ t.WF ∧
      (∀ (k : Nat) (p : ParInfo) (v : Dbl), s.info.pars[k]? = some p → s.values[k]? = some v → t.values[k]? = some (newValue p.name v (takenRecs rs r))) ∧
      set = namedCount s.info (takenRecs rs r) ∧ set + skipped = (takenRecs rs r).length := by
  obtain ⟨i, vs⟩ := s
  obtain ⟨ws, h1, h2, h3⟩ := import_values_fold hu (takenRecs rs r) vs 0 0 hs
  refine ⟨⟨i, ws⟩, namedCount i (takenRecs rs r), (takenRecs rs r).length - namedCount i (takenRecs rs r), ?_, rfl, h2, h3, rfl, ?_⟩
  · simp only [SearchPoint.importValues]
    rw [if_neg (by simpa using hne), scanGood_fileText ht hr _ (by omega), h1, Nat.zero_add, Nat.zero_add]
  · have : namedCount i (takenRecs rs r) ≤ (takenRecs rs r).length := List.countP_le_length
    omega

/-- **C111.** A point constructed from a file: the values of the file, and for the other parameters the mean at 8 digits. -/
theorem C111_from_file (R : Reader) (i : ObjInfo) (hu : (i.pars.map ParInfo.name).Nodup) (text : Str) (rs : List Rec) (r : Str) (ht : FileText R text rs r)
    (hr : Blank r ∨ BadRec R r) (hne : text ≠ []) :
    ∃ t, SearchPoint.ofFile R i (some text) = .ok t ∧ t.info = i ∧ t.WF ∧
      ∀ (k : Nat) (p : ParInfo), i.pars[k]? = some p → t.values[k]? = some (newValue p.name (rounded p.mean) (takenRecs rs r)) := by
  obtain ⟨t, a, b, h1, h2, h3, h4, -⟩ := C111_import_values R (SearchPoint.ofInfo i) (by simp [SearchPoint.WF, SearchPoint.ofInfo, dim]) hu text rs r ht hr hne
  refine ⟨t, ?_, h2, h3, fun k p hp => h4 k p _ hp ?_⟩
  · unfold SearchPoint.ofFile; rw [h1]
  · simp [SearchPoint.ofInfo, hp]

/-- **C111.** A file that cannot be read, or that is empty, throws and leaves the point as it was; a point is not constructed from it. -/
theorem C111_unreadable (R : Reader) (s : SearchPoint) (i : ObjInfo) (file : Option Str) (h : file = none ∨ file = some []) :
    s.importValues R file = (s, .err) ∧ SearchPoint.ofFile R i file = .err := by
  rcases h with rfl | rfl <;> exact ⟨rfl, rfl⟩

/-! ## every file -/

theorem number_total (R : Reader) (t : Str) : (∃ v r, Number R t v r) ∨ NoNumber R t := by
  have hw : Blank (t.takeWhile isWs) := fun c hc => List.all_eq_true.1 (List.all_takeWhile (p := isWs) (l := t)) c hc
  have hu : t.dropWhile isWs = [] ∨ StartsSolid (t.dropWhile isWs) := by
    cases h : t.dropWhile isWs with
    | nil => exact .inl rfl
    | cons c u =>
      refine .inr ⟨c, u, rfl, ?_⟩
      have := List.head_dropWhile_not isWs (l := t) (by rw [h]; simp)
      simpa [h] using this
  cases h : R.rd (t.dropWhile isWs) with
  | none => exact .inr ⟨_, _, List.takeWhile_append_dropWhile.symm, hw, hu, h⟩
  | some x =>
    refine .inl ⟨x.1, x.2, _, _, List.takeWhile_append_dropWhile.symm, hw, hu.resolve_left fun h0 => ?_, h⟩
    rw [h0] at h
    obtain ⟨p, hp, he⟩ := R.consumes _ _ _ h
    cases p with
    | nil => exact hp rfl
    | cons => cases he

/-- Every text begins with a record, or is blank, or begins with a malformed record. -/
theorem record_total (R : Reader) (s : Str) : (∃ x r, RecText R s x r) ∨ Blank s ∨ BadRec R s := by
  have e1 : s = s.takeWhile isWs ++ s.dropWhile isWs := List.takeWhile_append_dropWhile.symm
  have hw : Blank (s.takeWhile isWs) := fun c hc => List.all_eq_true.1 (List.all_takeWhile (p := isWs) (l := s)) c hc
  generalize s.takeWhile isWs = w at e1 hw
  have hu : s.dropWhile isWs = [] ∨ StartsSolid (s.dropWhile isWs) := by
    cases h : s.dropWhile isWs with
    | nil => exact .inl rfl
    | cons c u =>
      refine .inr ⟨c, u, rfl, ?_⟩
      have := List.head_dropWhile_not isWs (l := s) (by rw [h]; simp)
      simpa [h] using this
  generalize s.dropWhile isWs = u at e1 hu
  rcases hu with rfl | ⟨c, u', rfl, hc⟩
  · exact .inr (.inl (by rw [e1, List.append_nil]; exact hw))
  have e2 : c :: u' = (c :: u').takeWhile (fun c => !isWs c) ++ (c :: u').dropWhile (fun c => !isWs c) := List.takeWhile_append_dropWhile.symm
  have hn : FileName ((c :: u').takeWhile fun c => !isWs c) := by
    refine ⟨by simp [hc], fun d hd => ?_⟩
    have := List.all_eq_true.1 (List.all_takeWhile (p := fun c => !isWs c) (l := c :: u')) d hd
    simpa using this
  generalize (c :: u').takeWhile (fun c => !isWs c) = n at e2 hn
  have ht : (c :: u').dropWhile (fun c => !isWs c) = [] ∨ ∃ d v, (c :: u').dropWhile (fun c => !isWs c) = d :: v ∧ isWs d = true := by
    cases h : (c :: u').dropWhile (fun c => !isWs c) with
    | nil => exact .inl rfl
    | cons d v =>
      refine .inr ⟨d, v, rfl, ?_⟩
      have := List.head_dropWhile_not (fun c => !isWs c) (l := c :: u') (by rw [h]; simp)
      simpa [h] using this
  generalize (c :: u').dropWhile (fun c => !isWs c) = t at e2 ht
  rw [e2] at e1
  have split : ∀ g t', (Gap g ∨ (g = [] ∧ t' = [])) → t = g ++ t' → (∃ x r, RecText R s x r) ∨ Blank s ∨ BadRec R s := by
    intro g t' hg he
    rw [he] at e1
    have e3 : s = w ++ n ++ g ++ t' := by rw [e1]; simp
    rw [e3]
    rcases number_total R (g ++ t') with ⟨v, t1, h1⟩ | h1
    · have hg' : Gap g := by
        rcases hg with hg | ⟨rfl, rfl⟩
        · exact hg
        · obtain ⟨a, b, h, -, ⟨d, b', rfl, -⟩, -⟩ := h1
          simp at h
      rcases number_total R t1 with ⟨m, t2, h2⟩ | h2
      · rcases number_total R t2 with ⟨d, r, h3⟩ | h3
        · exact .inl ⟨_, _, .mk hw hn hg' h1 h2 h3⟩
        · exact .inr (.inr (.std hw hn hg' h1 h2 h3))
      · exact .inr (.inr (.mean hw hn hg' h1 h2))
    · exact .inr (.inr (.value hw hn hg h1))
  rcases ht with rfl | ⟨d, v, rfl, hd⟩
  · exact split [] [] (.inr ⟨rfl, rfl⟩) rfl
  · refine split [d] v (.inl ⟨fun c hc => ?_, by simp⟩) rfl
    rw [List.mem_singleton.1 hc]
    exact hd

/-- **C111 / C12.** Every text is a sequence of records followed by white space or by a malformed record: what is proved of the readers of par files holds for all files. -/
theorem C111_every_file (R : Reader) (text : Str) : ∃ rs r, FileText R text rs r ∧ (Blank r ∨ BadRec R r) := by
  have : ∀ n (text : Str), text.length ≤ n → ∃ rs r, FileText R text rs r ∧ (Blank r ∨ BadRec R r) := by
    intro n
    induction n with
    | zero =>
      intro text h
      have : text = [] := List.length_eq_zero_iff.1 (by omega)
      subst this
      exact ⟨[], [], .nil, .inl (by simp [Blank])⟩
    | succ n ih =>
      intro text h
      rcases record_total R text with ⟨x, t, h1⟩ | h1
      · obtain ⟨rs, r, h2, h3⟩ := ih t (by have := recText_length h1; omega)
        exact ⟨x :: rs, r, .cons h1 h2, h3⟩
      · exact ⟨[], text, .nil, h1⟩
  exact this _ text (Nat.le_refl _)

/-! ## concrete cases -/

/-- Two parameters, and a locked one. -/
def ivInfo : ObjInfo := { pars := [{ name := "a".toList, mean := .fin (1 / 3), std := .fin 1, min := .fin (-5), max := .fin 5 },
  { name := "b".toList, mean := .fin 2, std := .fin 1, min := .fin (-5), max := .fin 5 }], locked := [("c".toList, .fin 7)] }

/-- The record of `b` is at the end of the file, `c` is locked, and the second record of `a` is the one that counts. -/
example : (SearchPoint.ofInfo ivInfo).importValues strtodReader (some "a 1 0 1\nc 5 0 1\na 2.5 0 1\nb 4 0 1".toList) =
    (⟨ivInfo, [.fin (5 / 2), .fin 2]⟩, .ok (2, 1)) := by decide +kernel

/-- With a newline `b` is set, too. -/
example : SearchPoint.ofFile strtodReader ivInfo (some "a 1 0 1\nb 4 0 1\n".toList) = .ok ⟨ivInfo, [.fin 1, .fin 4]⟩ := by decide +kernel

/-- **C111 (finding).** An imported value is not rounded to the digits with which points are stored and written: saving the point and loading it gives another value. -/
theorem C111_not_rounded : ∃ s t, SearchPoint.ofFile strtodReader ivInfo (some "a 0.123456789 0 1\n".toList) = .ok s ∧
    SearchPoint.ofFile strtodReader ivInfo (some (s.write fmt8)) = .ok t ∧ s.values ≠ t.values := by
  have h : (match SearchPoint.ofFile strtodReader ivInfo (some "a 0.123456789 0 1\n".toList) with
    | .ok s => (match SearchPoint.ofFile strtodReader ivInfo (some (s.write fmt8)) with
      | .ok t => decide (s.values ≠ t.values)
      | _ => false)
    | _ => false) = true := by decide +kernel
  split at h
  · rename_i s hs
    split at h
    · rename_i t ht
      exact ⟨s, t, hs, ht, by simpa using h⟩
    · cases h
  · cases h

end Spot
