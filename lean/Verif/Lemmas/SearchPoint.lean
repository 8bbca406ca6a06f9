import Verif.Lemmas.ParFile
import Verif.Lemmas.Rounded
import Verif.Model.SearchPoint
import Verif.Props.Registry

namespace Spot
open Notation ObjInfo

/-- Printing `v` and reading the text back, when a tab follows, yields `v'`. -/
structure PrintsAs (R : Reader) (fmt : Dbl → Str) (v v' : Dbl) : Prop where
  solid : StartsSolid (fmt v)
  reads : ∀ t, R.rd (fmt v ++ '\t' :: t) = some (v', '\t' :: t)

theorem PrintsAs.number {R : Reader} {fmt : Dbl → Str} {v v' : Dbl} (h : PrintsAs R fmt v v') {w : Str} (hw : Blank w) (t : Str) :
    Number R (w ++ (fmt v ++ '\t' :: t)) v' ('\t' :: t) := by
  refine ⟨w, _, rfl, hw, ?_, h.reads t⟩
  obtain ⟨c, u, e, hc⟩ := h.solid
  exact ⟨c, u ++ '\t' :: t, by rw [e]; rfl, hc⟩

theorem line_recText {R : Reader} {fmt : Dbl → Str} {p : ParInfo} {v v' m' d' : Dbl} (hn : FileName p.name)
    (hv : PrintsAs R fmt v v') (hm : PrintsAs R fmt p.mean m') (hd : PrintsAs R fmt p.std d') {b : Str} (hb : Blank b) (w : Nat) (t : Str) :
    RecText R (b ++ (SearchPoint.line fmt w p v ++ t)) ⟨p.name, v', m', d'⟩ ('\t' :: '\n' :: t) := by
  have h1 : Blank ['\t'] := by simp [Blank, isWs]
  have hg : Gap (List.replicate (w - p.name.length) ' ' ++ ['\t']) := by
    refine ⟨?_, by simp⟩
    intro c hc
    simp only [List.mem_append, List.mem_replicate, List.mem_singleton] at hc
    rcases hc with ⟨_, rfl⟩ | rfl <;> decide
  have := RecText.mk (R := R) (w := b) (n := p.name) (g := List.replicate (w - p.name.length) ' ' ++ ['\t'])
    (t := fmt v ++ '\t' :: (fmt p.mean ++ '\t' :: (fmt p.std ++ '\t' :: '\n' :: t))) hb hn hg
    (hv.number hg.1 _) (hm.number h1 _) (hd.number h1 _)
  simpa [SearchPoint.line] using this

theorem scanGood_blank {R : Reader} {b : Str} (h : Blank b) (fuel : Nat) : scanGood R fuel { rest := b } = [] := by
  cases fuel with
  | zero => rfl
  | succ n =>
    rw [scanGood]
    split
    · have hw : CS.word { rest := b } = ([], { rest := [], failed := true }) := by
        simp [CS.word, skipWs_blank h]
      have : readRec R { rest := b } = (⟨[], .fin 0, .fin 0, .fin 0⟩, { rest := [], failed := true }) := by
        simp [readRec, hw, CS.num]
      rw [this]
      cases n <;> simp [scanGood, CS.good]
    · rfl

/-- The records read back from written lines. -/
theorem scanGood_lines {R : Reader} {fmt : Dbl → Str} {w : Nat} (l : List (ParInfo × Dbl × Dbl × Dbl × Dbl))
    (h : ∀ x ∈ l, FileName x.1.name ∧ PrintsAs R fmt x.2.1 x.2.2.1 ∧ PrintsAs R fmt x.1.mean x.2.2.2.1 ∧ PrintsAs R fmt x.1.std x.2.2.2.2) :
    ∀ (b : Str) (fuel : Nat), Blank b →
      (b ++ (l.map fun x => SearchPoint.line fmt w x.1 x.2.1).flatten).length < fuel →
      scanGood R fuel { rest := b ++ (l.map fun x => SearchPoint.line fmt w x.1 x.2.1).flatten } =
        l.map fun x => ⟨x.1.name, x.2.2.1, x.2.2.2.1, x.2.2.2.2⟩ := by
  induction l with
  | nil => intro b fuel hb hf; simp only [List.map_nil, List.flatten_nil, List.append_nil]; exact scanGood_blank hb fuel
  | cons x l ih =>
    intro b fuel hb hf
    obtain ⟨h1, h2, h3, h4⟩ := h x (by simp)
    have hr := line_recText h1 h2 h3 h4 hb w ((l.map fun x => SearchPoint.line fmt w x.1 x.2.1).flatten)
    simp only [List.map_cons, List.flatten_cons] at hf ⊢
    cases fuel with
    | zero => omega
    | succ n =>
      rw [scanGood, if_pos (recText_good hr), readRec_of hr]
      have hl := recText_length hr
      simp only [List.length_cons] at hl
      have hg : CS.good { rest := '\t' :: '\n' :: (l.map fun x => SearchPoint.line fmt w x.1 x.2.1).flatten } = true := rfl
      simp only [hg, if_true]
      congr 1
      exact ih (fun y hy => h y (by simp [hy])) ['\t', '\n'] n (by simp [Blank, isWs]) (by simp only [List.length_append, List.length_cons, List.length_nil] at *; omega)

theorem findIndex_of_get {i : ObjInfo} (h : (i.pars.map ParInfo.name).Nodup) {k : Nat} {p : ParInfo} (hp : i.pars[k]? = some p) :
    i.findIndex p.name = some k := by
  cases hf : i.findIndex p.name with
  | none =>
    exact absurd rfl (findIndex_none.1 hf p (List.mem_of_getElem? hp))
  | some k' =>
    obtain ⟨q, hq, hn⟩ := findIndex_some hf
    have h1 : (i.pars.map ParInfo.name)[k]? = some p.name := by simp [hp]
    have h2 : (i.pars.map ParInfo.name)[k']? = some p.name := by simp [hq, hn]
    obtain ⟨hk, e1⟩ := List.getElem?_eq_some_iff.1 h1
    obtain ⟨hk', e2⟩ := List.getElem?_eq_some_iff.1 h2
    congr 1
    exact (List.Nodup.getElem_inj_iff h).1 (e2.trans e1.symm)

theorem import_fold_values {i : ObjInfo} (h : (i.pars.map ParInfo.name).Nodup) (rs : List Rec) :
    ∀ (k : Nat) (done todo : List Dbl) (a b : Nat), rs.map Rec.name = (i.pars.drop k).map ParInfo.name → done.length = k →
      todo.length = rs.length →
      rs.foldl SearchPoint.importRec (⟨i, done ++ todo⟩, a, b) = (⟨i, done ++ rs.map Rec.value⟩, a + rs.length, b) := by
  induction rs with
  | nil =>
    intro k done todo a b _ _ ht
    have : todo = [] := by simpa using ht
    simp [this]
  | cons r rs ih =>
    intro k done todo a b hn hk ht
    cases todo with
    | nil => simp at ht
    | cons x todo =>
      have hlt : k < i.pars.length := by
        by_contra hc
        rw [List.drop_eq_nil_of_le (by omega)] at hn
        simp at hn
      rw [List.drop_eq_getElem_cons hlt] at hn
      simp only [List.map_cons, List.cons.injEq] at hn
      have hf : i.findIndex r.name = some k := by
        rw [hn.1]; exact findIndex_of_get h (List.getElem?_eq_getElem hlt)
      simp only [List.foldl_cons, SearchPoint.importRec, hf]
      have hset : (done ++ x :: todo).set k r.value = (done ++ [r.value]) ++ todo := by
        rw [← hk]; simp [List.set_append_right]
      rw [hset, ih (k + 1) (done ++ [r.value]) todo (a + 1) b hn.2 (by simp [hk]) (by simpa using ht)]
      simp only [List.map_cons, List.length_cons, List.append_assoc, List.cons_append, List.nil_append, Prod.mk.injEq, true_and, and_true]
      omega

end Spot
