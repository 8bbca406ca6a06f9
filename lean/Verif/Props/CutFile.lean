import Verif.Props.FileCrash
import Verif.Props.Points

/-!
# C115: reading a par file that was cut off by a crash
-/

namespace Spot
open Notation ObjInfo

theorem import_fold_prefix {i : ObjInfo} (h : (i.pars.map ParInfo.name).Nodup) (rs : List Rec) :
    ∀ (k : Nat) (done todo : List Dbl) (a b : Nat), rs.map Rec.name <+: (i.pars.drop k).map ParInfo.name → done.length = k → rs.length ≤ todo.length →
      rs.foldl SearchPoint.importRec (⟨i, done ++ todo⟩, a, b) = (⟨i, done ++ rs.map Rec.value ++ todo.drop rs.length⟩, a + rs.length, b) := by
  induction rs with
  | nil => intro k done todo a b _ _ _; simp
  | cons r rs ih =>
    intro k done todo a b hn hk ht
    cases todo with
    | nil => simp at ht
    | cons x todo =>
      have hlt : k < i.pars.length := by
        by_contra hc
        rw [List.drop_eq_nil_of_le (by omega)] at hn
        simp at hn
      rw [List.drop_eq_getElem_cons hlt] at hn
      simp only [List.map_cons, List.cons_prefix_cons] at hn
      have hf : i.findIndex r.name = some k := by
        rw [hn.1]; exact findIndex_of_get h (List.getElem?_eq_getElem hlt)
      simp only [List.foldl_cons, SearchPoint.importRec, hf]
      have hset : (done ++ x :: todo).set k r.value = (done ++ [r.value]) ++ todo := by
        rw [← hk]; simp [List.set_append_right]
      rw [hset, ih (k + 1) (done ++ [r.value]) todo (a + 1) b hn.2 (by simp [hk]) (by simpa using ht)]
      simp only [List.map_cons, List.length_cons, List.append_assoc, List.cons_append, List.nil_append, List.drop_succ_cons, Prod.mk.injEq, true_and, and_true]
      omega

/-- The first `k` lines of a par file. -/
def firstLines (fmt : Dbl → Str) (s : SearchPoint) (k : Nat) : Str :=
  (((s.info.pars.zip s.values).take k).map fun x => SearchPoint.line fmt (SearchPoint.nameWidth s.info) x.1 x.2).flatten

/-- It is something that a crash can leave. -/
theorem firstLines_prefix (fmt : Dbl → Str) (s : SearchPoint) (k : Nat) : firstLines fmt s k <+: s.write fmt := by
  refine ⟨(((s.info.pars.zip s.values).drop k).map fun x => SearchPoint.line fmt (SearchPoint.nameWidth s.info) x.1 x.2).flatten, ?_⟩
  unfold firstLines SearchPoint.write
  rw [← List.flatten_append, ← List.map_append, List.take_append_drop]

/-- **C115** (finding). When a file was cut off after `k` of its lines (each line is written at once), `import_values` does not notice: the first `k` values are read exactly, the others stay as they
were, and it reports `k` values set and none missing. Only an empty file is an error. -/
theorem C115_cut_file (R : Reader) (fmt : Dbl → Str) (s t : SearchPoint) (hu : NamesUnique s.info) (hi : t.info = s.info)
    (hs : s.WF) (ht : t.WF) (hst : s.Stored) (hn : ∀ p ∈ s.info.pars, FileName p.name)
    (hv : ∀ v ∈ s.values, PrintsAs R fmt v (rounded v))
    (hp : ∀ p ∈ s.info.pars, (∃ m, PrintsAs R fmt p.mean m) ∧ ∃ d, PrintsAs R fmt p.std d) (k : Nat) (hk : k ≤ s.info.dim) :
    t.importValues R (some (firstLines fmt s k)) = if k = 0 then (t, .err) else ({ t with values := s.values.take k ++ t.values.drop k }, .ok (k, 0)) := by
  classical
  obtain ⟨i, vs⟩ := s
  obtain ⟨i', ws⟩ := t
  simp only at hi; subst hi
  simp only [SearchPoint.WF, dim] at hs ht
  simp only [dim] at hk
  by_cases hk0 : k = 0
  · subst hk0
    simp [firstLines, SearchPoint.importValues]
  rw [if_neg hk0]
  let mf : ParInfo → Dbl := fun p => if h : ∃ m, PrintsAs R fmt p.mean m then h.choose else .nan
  let df : ParInfo → Dbl := fun p => if h : ∃ m, PrintsAs R fmt p.std m then h.choose else .nan
  have hmf : ∀ p ∈ i'.pars, PrintsAs R fmt p.mean (mf p) := by
    intro p h; have := (hp p h).1; simp only [mf, dif_pos this]; exact this.choose_spec
  have hdf : ∀ p ∈ i'.pars, PrintsAs R fmt p.std (df p) := by
    intro p h; have := (hp p h).2; simp only [df, dif_pos this]; exact this.choose_spec
  let l : List (ParInfo × Dbl × Dbl × Dbl × Dbl) := ((i'.pars.zip vs).take k).map fun x => (x.1, x.2, x.2, mf x.1, df x.1)
  have hl : ∀ x ∈ l, FileName x.1.name ∧ PrintsAs R fmt x.2.1 x.2.2.1 ∧ PrintsAs R fmt x.1.mean x.2.2.2.1 ∧
      PrintsAs R fmt x.1.std x.2.2.2.2 := by
    intro x hx
    obtain ⟨⟨p, v⟩, hz, rfl⟩ := List.mem_map.1 hx
    have hz := List.mem_of_mem_take hz
    have h1 := (List.of_mem_zip hz).1
    have h2 := (List.of_mem_zip hz).2
    refine ⟨hn p h1, ?_, hmf p h1, hdf p h1⟩
    have := hv v h2
    rwa [hst v h2] at this
  have hw : firstLines fmt ⟨i', vs⟩ k = (l.map fun x => SearchPoint.line fmt (SearchPoint.nameWidth i') x.1 x.2.1).flatten := by
    simp only [firstLines, l, List.map_map]; rfl
  have hscan := scanGood_lines l hl (w := SearchPoint.nameWidth i') [] ((firstLines fmt ⟨i', vs⟩ k).length + 1)
    (by simp [Blank]) (by rw [hw]; simp)
  rw [List.nil_append, ← hw] at hscan
  have hlen : l.length = k := by simp [l, hs]; omega
  have hne : (firstLines fmt ⟨i', vs⟩ k).isEmpty = false := by
    rw [hw]
    cases hll : l with
    | nil => rw [hll] at hlen; simp at hlen; omega
    | cons x l' =>
      simp [SearchPoint.line]
  simp only [SearchPoint.importValues, hne, Bool.false_eq_true, if_false, hscan]
  have := import_fold_prefix hu.free (l.map fun x => (⟨x.1.name, x.2.2.1, x.2.2.2.1, x.2.2.2.2⟩ : Rec)) 0 [] ws 0 0
    (by simp only [l, List.map_map, List.drop_zero]
        have : (fun x : ParInfo × Dbl => x.1.name) = ParInfo.name ∘ Prod.fst := rfl
        change ((i'.pars.zip vs).take k).map (fun x => x.1.name) <+: _
        rw [this, ← List.map_map, List.map_take, List.map_fst_zip (by omega)]
        exact (List.take_prefix _ _).map _)
    rfl (by simp only [List.length_map]; rw [hlen]; omega)
  simp only [List.nil_append, List.length_map] at this
  rw [this, hlen]
  have hvals : l.map (fun x => x.2.2.1) = vs.take k := by
    simp only [l, List.map_map]
    change ((i'.pars.zip vs).take k).map (fun x => x.2) = vs.take k
    rw [List.map_take]
    congr 1
    exact List.map_snd_zip (by omega)
  simp only [List.map_map, Nat.zero_add]
  change (SearchPoint.mk i' (l.map (fun x => x.2.2.1) ++ _), _) = _
  rw [hvals]

/-- A point with two parameters, and the file cut after the first line. -/
def cutInfo : ObjInfo := { minimize := true, pars := [⟨"ab".toList, .fin 0, .fin 1, .ninf, .pinf⟩, ⟨"c".toList, .fin (1 / 2), .fin (1 / 4), .ninf, .pinf⟩] }
def cutPoint : SearchPoint := ⟨cutInfo, [.fin (3 / 4), .fin 7]⟩

example : (SearchPoint.ofInfo cutInfo).importValues strtodReader (some (firstLines fmt8 cutPoint 1)) = (⟨cutInfo, [.fin (3 / 4), .fin (1 / 2)]⟩, .ok (1, 0)) := by decide +kernel

/-- **C115** (finding). A file that was cut off inside a number can be imported without an error, with a wrong number: `import_mean_std` reports that both parameters were set, but the standard deviation
of the second is 0.2 and not 0.25. -/
theorem C115_cut_number : ∃ text, text <+: cutPoint.write fmt8 ∧ text ≠ cutPoint.write fmt8 ∧
    (cutInfo.importMeanStd strtodReader (some (cutPoint.write fmt8)) {}).2 = .ok (2, 0) ∧
    (cutInfo.importMeanStd strtodReader (some (cutPoint.write fmt8)) {}).1.pars.map ParInfo.std = [.fin 1, .fin (1 / 4)] ∧
    (cutInfo.importMeanStd strtodReader (some text) {}).2 = .ok (2, 0) ∧
    (cutInfo.importMeanStd strtodReader (some text) {}).1.pars.map ParInfo.std = [.fin 1, .ofQ (1 / 5)] :=
  ⟨(cutPoint.write fmt8).take ((cutPoint.write fmt8).length - 3), List.take_prefix _ _, by decide +kernel, by decide +kernel, by decide +kernel, by decide +kernel, by decide +kernel⟩

end Spot
