import Verif.Props.Files
import Verif.Lemmas.SearchPoint

/-! # A search point whose objective_info changes (C95)

`search_point::info_` is a reference (spot/search_point.h:43): what a search point answers depends on the objective_info as it is at that time. A point `s` after its objective_info
has become `j` is `{ s with info := j }`. -/

namespace Spot

open Notation ObjInfo

/-- The search point `s` seen after its objective_info has changed to `j`. -/
def Spec.after (s : SearchPoint) (j : ObjInfo) : SearchPoint := { s with info := j }

theorem tryGet_at {j : ObjInfo} (hj : NamesUnique j) (s : SearchPoint) {k : Nat} {p : ParInfo} (hp : j.pars[k]? = some p) :
    (Spec.after s j).tryGet p.name = match s.values[k]? with | some v => .ok (some v) | none => .ub := by
  unfold SearchPoint.tryGet
  rw [show (Spec.after s j).info = j from rfl, findIndex_of_get hj.free hp]
  rfl

/-- **C95.** If parameters are requested on the objective_info after a search point was made for it, the search point still answers with its own values for all parameters it was made
for, but a request for a parameter that was added reads outside of its vector of values. -/
theorem C95_growing (env : Env) (io : IOState) (g : Prog) (s : SearchPoint) (hn : NamesUnique s.info) (hs : s.values.length = s.info.dim) :
    let j := (exec oiBackend env g io s.info).2.1
    (∀ p ∈ s.info.pars, (Spec.after s j).tryGet p.name = s.tryGet p.name) ∧
    (∀ p ∈ j.pars, p ∉ s.info.pars → (Spec.after s j).tryGet p.name = .ub) := by
  intro j
  have hj : NamesUnique j := exec_inv oiBackend env NamesUnique (fun s p hs => hs.add p) g io s.info hn
  obtain ⟨-, -, hst⟩ := C07_registered_parameters_stable env io g s.info
  constructor
  · intro p hp
    obtain ⟨k, hk⟩ := List.getElem?_of_mem hp
    rw [tryGet_at hj s (hst k p hk)]
    exact (tryGet_at hn s hk).symm
  · intro p hp hnp
    obtain ⟨k, hk⟩ := List.getElem?_of_mem hp
    rw [tryGet_at hj s hk]
    have : s.values[k]? = none := by
      rw [List.getElem?_eq_none_iff]
      by_contra hlt
      have hlt : k < s.info.pars.length := by rw [hs] at hlt; exact not_le.1 hlt
      have h1 := hst k _ (List.getElem?_eq_getElem hlt)
      rw [show (exec oiBackend env g io s.info).2.1 = j from rfl, hk] at h1
      exact hnp (Option.some.inj h1 ▸ List.getElem_mem hlt)
    rw [this]

theorem filter_index {α : Type} (q : α → Bool) : ∀ (l : List α) (k : Nat) (x : α), l[k]? = some x → q x = true →
    (l.filter q)[((l.take k).filter q).length]? = some x := by
  intro l
  induction l with
  | nil => intro k x h; simp at h
  | cons y l ih =>
    intro k x h hq
    cases k with
    | zero =>
      simp only [List.getElem?_cons_zero, Option.some.injEq] at h
      subst h
      simp [hq]
    | succ k =>
      rw [List.getElem?_cons_succ] at h
      have := ih k x h hq
      rw [List.take_succ_cons]
      by_cases hy : q y = true
      · rw [List.filter_cons_of_pos hy, List.filter_cons_of_pos hy, List.length_cons, List.getElem?_cons_succ]
        exact this
      · rw [List.filter_cons_of_neg hy, List.filter_cons_of_neg hy]
        exact this

/-- **C95 (finding).** If parameters are locked by `import_locked` after a search point was made, the search point answers for a parameter that stays free with the value at the number of
parameters before it that stay free: with the value of another parameter, whenever a parameter before it was locked. -/
theorem C95_locking (R : Reader) (s : SearchPoint) (hn : NamesUnique s.info) (text : Str) (rs : List Rec) (r : Str) (ht : FileText R text rs r) (hr : Blank r)
    (incl excl : Matcher) :
    let j := (s.info.importLocked R (some text) incl excl).1
    let locked : ParInfo → Bool := fun p => decide (∃ r ∈ rs, Passes incl excl r.name ∧ r.name = p.name)
    ∀ (k : Nat) (p : ParInfo), s.info.pars[k]? = some p → locked p = false →
      (Spec.after s j).tryGet p.name = match s.values[((s.info.pars.take k).filter fun p => !locked p).length]? with | some v => .ok (some v) | none => .ub := by
  intro j locked k p hp hl
  obtain ⟨j', a, b, hj, -, hpars, -⟩ := C13_import_locked R s.info hn text rs r ht hr incl excl
  have hj' : j = j' := by simp only [j, hj]
  have hu : NamesUnique j := hn.apply (.importLocked R (some text) incl excl)
  refine tryGet_at hu s ?_
  rw [hj', hpars]
  exact filter_index (fun p => !locked p) s.info.pars k p hp (by rw [hl]; rfl)

/-- Without a locked parameter before it, that is its own value. -/
theorem C95_locking_later (R : Reader) (s : SearchPoint) (hn : NamesUnique s.info) (text : Str) (rs : List Rec) (r : Str) (ht : FileText R text rs r) (hr : Blank r)
    (incl excl : Matcher) (k : Nat) (p : ParInfo) (hp : s.info.pars[k]? = some p)
    (hl : ∀ p' ∈ s.info.pars.take (k + 1), ∀ r ∈ rs, Passes incl excl r.name → r.name ≠ p'.name) :
    (Spec.after s (s.info.importLocked R (some text) incl excl).1).tryGet p.name = s.tryGet p.name := by
  have hk : k < s.info.pars.length := (List.getElem?_eq_some_iff.1 hp).1
  have hpt : p ∈ s.info.pars.take (k + 1) := by
    rw [List.mem_take_iff_getElem]
    exact ⟨k, by omega, (List.getElem?_eq_some_iff.1 hp).2⟩
  have h := C95_locking R s hn text rs r ht hr incl excl k p hp (by
    rw [decide_eq_false_iff_not]
    rintro ⟨r, h1, h2, h3⟩
    exact hl p hpt r h1 h2 h3)
  have h2 := tryGet_at (j := s.info) hn s hp
  rw [show Spec.after s s.info = s from rfl] at h2
  rw [h, h2]
  have : (s.info.pars.take k).filter (fun p => !decide (∃ r ∈ rs, Passes incl excl r.name ∧ r.name = p.name)) = s.info.pars.take k := by
    rw [List.filter_eq_self]
    intro q hq
    rw [Bool.not_eq_true', decide_eq_false_iff_not]
    rintro ⟨r, h1, h2, h3⟩
    exact hl q ((List.take_subset_take_left _ (by omega)) hq) r h1 h2 h3
  rw [this, List.length_take, Nat.min_eq_left hk.le]

/-- A concrete case: the parameters `c`, `b`, `a` with the values 10, 20, 30. -/
def stalePoint : SearchPoint := ⟨exInfo, [.fin 10, .fin 20, .fin 30]⟩

/-- After the file locked `a` and `b`, everything is right: `c` is before them. -/
example : (Spec.after stalePoint (exInfo.importLocked strtodReader (some exText) none none).1).tryGet "c".toList = .ok (some (.fin 10)) := by decide +kernel

/-- **C95 (finding).** After `import_mean_std` locked `b` because of its std 0, the point answers 20, the value of `b`, for `a`. -/
theorem C95_wrong_value :
    stalePoint.tryGet "a".toList = .ok (some (.fin 30)) ∧
    (Spec.after stalePoint (exInfo.importMeanStd strtodReader (some exText) {}).1).tryGet "a".toList = .ok (some (.fin 20)) := by
  constructor <;> decide +kernel

/-- Growing: `d` is added. -/
example : (Spec.after stalePoint (exec oiBackend env0 (.num "d".toList (.fin 3) (.fin 1) (.fin 0) (.fin 10)) .init exInfo).2.1).tryGet "d".toList = .ub ∧
    (Spec.after stalePoint (exec oiBackend env0 (.num "d".toList (.fin 3) (.fin 1) (.fin 0) (.fin 10)) .init exInfo).2.1).tryGet "a".toList = .ok (some (.fin 30)) := by
  constructor <;> decide +kernel

end Spot
