import Verif.Model.ParIO
import Verif.Spec.Registry
import Verif.Lemmas.Dbl
import Verif.Props.ParInfo
import Mathlib.Data.List.Nodup
import Mathlib.Data.List.Basic

namespace Spot

section map
variable {β : Type}

theorem lookup_cons' (a : Str) (b : β) (m : List (Str × β)) (k : Str) :
    ((a, b) :: m).lookup k = if k = a then some b else m.lookup k := by
  rw [List.lookup_cons]
  by_cases h : k = a
  · subst h; simp
  · have : (k == a) = false := by simpa using h
    rw [this, if_neg h]

theorem lookup_mapSet (m : List (Str × β)) (k k' : Str) (v : β) :
    (mapSet m k v).lookup k' = if k' = k then some v else m.lookup k' := by
  induction m with
  | nil => simp only [mapSet, lookup_cons', List.lookup_nil]
  | cons a m ih =>
    obtain ⟨a, b⟩ := a
    simp only [mapSet]
    split
    · rename_i h; subst h
      simp only [lookup_cons']
      by_cases h : k' = k
      · simp [h]
      · simp [h]
    · rename_i h
      simp only [lookup_cons', ih]
      by_cases h' : k' = a
      · subst h'; simp [Ne.symm h]
      · simp [h']

theorem keys_mapSet (m : List (Str × β)) (k : Str) (v : β) :
    (mapSet m k v).map Prod.fst = if k ∈ m.map Prod.fst then m.map Prod.fst else m.map Prod.fst ++ [k] := by
  induction m with
  | nil => simp [mapSet]
  | cons a m ih =>
    obtain ⟨a, b⟩ := a
    simp only [mapSet]
    split
    · rename_i h; simp [h]
    · rename_i h
      simp only [List.map_cons, ih, List.mem_cons, h, false_or]
      split <;> simp_all

theorem lookup_isSome_iff (m : List (Str × β)) (k : Str) : (m.lookup k).isSome = true ↔ k ∈ m.map Prod.fst := by
  induction m with
  | nil => simp
  | cons a m ih =>
    obtain ⟨a, b⟩ := a
    simp only [lookup_cons', List.map_cons, List.mem_cons]
    by_cases h : k = a
    · simp [h]
    · simp [h, ih]

theorem lookup_eq_none_iff' (m : List (Str × β)) (k : Str) : m.lookup k = none ↔ k ∉ m.map Prod.fst := by
  rw [← lookup_isSome_iff]; cases m.lookup k <;> simp

theorem mem_of_lookup {m : List (Str × β)} {k : Str} {v : β} (h : m.lookup k = some v) : (k, v) ∈ m := by
  induction m with
  | nil => simp at h
  | cons a m ih =>
    obtain ⟨a, b⟩ := a
    simp only [lookup_cons'] at h
    by_cases h' : k = a
    · simp [h'] at h; simp [h', h]
    · simp [h'] at h; simp [ih h]

theorem lookup_of_mem {m : List (Str × β)} (hn : (m.map Prod.fst).Nodup) {k : Str} {v : β} (h : (k, v) ∈ m) :
    m.lookup k = some v := by
  induction m with
  | nil => simp at h
  | cons a m ih =>
    obtain ⟨a, b⟩ := a
    simp only [List.map_cons, List.nodup_cons] at hn
    simp only [lookup_cons']
    rcases List.mem_cons.1 h with h1 | h2
    · simp only [Prod.mk.injEq] at h1; obtain ⟨rfl, rfl⟩ := h1; simp
    · have : k ≠ a := by
        rintro rfl; exact hn.1 (List.mem_map.2 ⟨(k, v), h2, rfl⟩)
      simp [this, ih hn.2 h2]

theorem nodup_mapSet {m : List (Str × β)} (hn : (m.map Prod.fst).Nodup) (k : Str) (v : β) :
    ((mapSet m k v).map Prod.fst).Nodup := by
  rw [keys_mapSet]
  split
  · exact hn
  · rename_i h
    exact List.nodup_append.2 ⟨hn, by simp, by
      intro a ha b hb; simp only [List.mem_singleton] at hb; subst hb; rintro rfl; exact h ha⟩

end map

namespace ObjInfo

theorem find_some {i : ObjInfo} {n : Str} {p : ParInfo} (h : i.find n = some p) : p ∈ i.pars ∧ p.name = n :=
  ⟨List.mem_of_find?_eq_some h, by simpa using List.find?_some h⟩

theorem find_none {i : ObjInfo} {n : Str} : i.find n = none ↔ ∀ p ∈ i.pars, p.name ≠ n := by
  simp [find, List.find?_eq_none]

theorem known_iff (i : ObjInfo) (n : Str) : Known i n ↔ (i.find n).isSome = true ∨ (i.tryGetLocked n).isSome = true := by
  unfold Known tryGetLocked
  rw [lookup_isSome_iff]
  constructor
  · rintro (⟨p, hp, hn⟩ | ⟨v, hv⟩)
    · left
      cases h : i.find n with
      | some _ => rfl
      | none => exact absurd hn (find_none.1 h p hp)
    · right; exact List.mem_map.2 ⟨_, hv, rfl⟩
  · rintro (h | h)
    · obtain ⟨p, hp⟩ := Option.isSome_iff_exists.1 h
      exact Or.inl ⟨p, find_some hp⟩
    · obtain ⟨⟨a, v⟩, h1, h2⟩ := List.mem_map.1 h
      exact Or.inr ⟨v, by simp at h2; rwa [← h2]⟩

theorem tryGet_isSome (i : ObjInfo) (n : Str) : (i.tryGet n).isSome = true ↔ Known i n := by
  rw [known_iff]; unfold tryGet
  cases h : i.find n <;> simp

theorem tryGet_none (i : ObjInfo) (n : Str) : i.tryGet n = none ↔ ¬ Known i n := by
  rw [← tryGet_isSome]; cases i.tryGet n <;> simp

theorem unique_par {i : ObjInfo} (h : (i.pars.map ParInfo.name).Nodup) {p q : ParInfo} (hp : p ∈ i.pars) (hq : q ∈ i.pars)
    (he : p.name = q.name) : p = q := List.inj_on_of_nodup_map h hp hq he

theorem find_eq {i : ObjInfo} (h : (i.pars.map ParInfo.name).Nodup) {p : ParInfo} (hp : p ∈ i.pars) : i.find p.name = some p := by
  cases hf : i.find p.name with
  | none => exact absurd rfl (find_none.1 hf p hp)
  | some q =>
    have := find_some hf
    rw [unique_par h this.1 hp this.2]

/-- All outcomes of `add`. -/
theorem add_cases (i : ObjInfo) (p : ParInfo) :
    (i.add p = (i, .err) ∧ (Known i p.name ∨ badName p.name = true)) ∨
    (i.add p = ({ i with locked := mapSet i.locked p.name p.mean }, .ok p.mean) ∧ ¬ Known i p.name ∧ badName p.name = false ∧
      p.isConstant = true) ∨
    (i.add p = ({ i with pars := i.pars ++ [p] }, .ok p.mean) ∧ ¬ Known i p.name ∧ badName p.name = false ∧
      p.isConstant = false) := by
  unfold add
  rw [known_iff]
  split
  · simp_all
  · split
    · simp_all
    · split
      · simp_all
      · split <;> simp_all

end ObjInfo

open ObjInfo

theorem not_known_of {i : ObjInfo} {n : Str} (h : ¬ Known i n) : (∀ p ∈ i.pars, p.name ≠ n) ∧ n ∉ i.locked.map Prod.fst := by
  constructor
  · intro p hp he; exact h (Or.inl ⟨p, hp, he⟩)
  · intro hm
    obtain ⟨⟨a, v⟩, h1, h2⟩ := List.mem_map.1 hm
    exact h (Or.inr ⟨v, by simp at h2; rwa [← h2]⟩)

theorem NamesUnique.add {i : ObjInfo} (h : NamesUnique i) (p : ParInfo) : NamesUnique (i.add p).1 := by
  rcases add_cases i p with ⟨e, _⟩ | ⟨e, hk, _, _⟩ | ⟨e, hk, _, _⟩
  · rw [e]; exact h
  · rw [e]
    have hk := not_known_of hk
    refine ⟨h.free, nodup_mapSet h.locked _ _, ?_⟩
    intro q hq
    simp only [keys_mapSet, hk.2, if_false, List.mem_append, List.mem_singleton, not_or]
    exact ⟨h.disjoint q hq, hk.1 q hq⟩
  · rw [e]
    have hk := not_known_of hk
    refine ⟨?_, h.locked, ?_⟩
    · simp only [List.map_append, List.map_cons, List.map_nil]
      refine List.nodup_append.2 ⟨h.free, by simp, ?_⟩
      intro a ha b hb
      obtain ⟨q, hq, rfl⟩ := List.mem_map.1 ha
      simp at hb
      rw [hb]; exact hk.1 q hq
    · intro q hq
      rcases List.mem_append.1 hq with hq | hq
      · exact h.disjoint q hq
      · simp at hq; rw [hq]; exact hk.2

/-- All outcomes of `lock_parameter`. -/
theorem lock_cases (i : ObjInfo) (n : Str) (v : Dbl) :
    (i.lock n v = (i, false) ∧ ¬ Known i n) ∨
    (i.lock n v = ({ i with locked := mapSet i.locked n v }, true) ∧ i.find n = none ∧ n ∈ i.locked.map Prod.fst) ∨
    (∃ p, i.find n = some p ∧
      i.lock n v = ({ i with locked := mapSet i.locked n v, pars := i.pars.eraseP (fun p => p.name = n) }, true)) := by
  unfold lock
  rw [known_iff]
  cases hf : i.find n with
  | some p => right; right; refine ⟨p, rfl, ?_⟩; simp only [(find_some hf).2]
  | none =>
    simp only
    split
    · rename_i h; right; left; exact ⟨rfl, by simp, (lookup_isSome_iff _ _).1 h⟩
    · rename_i h; left; exact ⟨rfl, by simpa using h⟩

/-- With unique names erasing the first parameter of a name is filtering the name out. -/
theorem eraseP_eq_filter {l : List ParInfo} (h : (l.map ParInfo.name).Nodup) (n : Str) :
    l.eraseP (fun p => p.name = n) = l.filter (fun p => p.name ≠ n) := by
  induction l with
  | nil => rfl
  | cons p l ih =>
    simp only [List.map_cons, List.nodup_cons] at h
    by_cases hp : p.name = n
    · rw [List.eraseP_cons_of_pos (by simpa using hp), List.filter_cons_of_neg (by simpa using hp)]
      symm; rw [List.filter_eq_self]
      intro q hq
      simp only [decide_eq_true_eq, ne_eq, decide_not, Bool.not_eq_eq_eq_not, Bool.not_true, decide_eq_false_iff_not]
      intro he
      exact h.1 (List.mem_map.2 ⟨q, hq, by rw [he, hp]⟩)
    · rw [List.eraseP_cons_of_neg (by simpa using hp), List.filter_cons_of_pos (by simpa using hp), ih h.2]

theorem NamesUnique.lock {i : ObjInfo} (h : NamesUnique i) (n : Str) (v : Dbl) : NamesUnique (i.lock n v).1 := by
  rcases lock_cases i n v with ⟨e, _⟩ | ⟨e, _, hm⟩ | ⟨p, hf, e⟩
  · rw [e]; exact h
  · rw [e]
    refine ⟨h.free, nodup_mapSet h.locked _ _, ?_⟩
    simp only [keys_mapSet, hm, if_true]
    exact h.disjoint
  · rw [e]
    simp only [eraseP_eq_filter h.free]
    refine ⟨h.free.sublist (List.Sublist.map _ List.filter_sublist), nodup_mapSet h.locked _ _, ?_⟩
    intro q hq
    simp only [List.mem_filter, decide_eq_true_eq] at hq
    simp only [keys_mapSet]
    split
    · exact h.disjoint q hq.1
    · simp only [List.mem_append, List.mem_singleton, not_or]
      exact ⟨h.disjoint q hq.1, hq.2⟩

theorem NamesUnique.of_map {i : ObjInfo} (h : NamesUnique i) (l : List ParInfo) (hl : l.map ParInfo.name = i.pars.map ParInfo.name) :
    NamesUnique { i with pars := l } := by
  refine ⟨by simpa [hl] using h.free, h.locked, ?_⟩
  intro p hp
  have : p.name ∈ i.pars.map ParInfo.name := hl ▸ List.mem_map_of_mem hp
  obtain ⟨q, hq, he⟩ := List.mem_map.1 this
  rw [← he]; exact h.disjoint q hq

theorem updateFirst_map {γ : Type} (g : ParInfo → γ) (n : Str) (f : ParInfo → ParInfo) (hg : ∀ p, g (f p) = g p)
    (l : List ParInfo) : (updateFirst n f l).map g = l.map g := by
  induction l with
  | nil => rfl
  | cons p l ih => rw [updateFirst]; split <;> simp [hg, ih]

theorem zipMeanStd_map {γ : Type} (g : ParInfo → γ) (hg : ∀ (p : ParInfo) m s, g { p with mean := m, std := s } = g p)
    (l : List ParInfo) (ms ss : List Dbl) : (zipMeanStd l ms ss).map g = l.map g := by
  induction l generalizing ms ss with
  | nil => simp [zipMeanStd]
  | cons p l ih =>
    cases ms <;> cases ss <;> simp [zipMeanStd, ih]
    exact hg _ _ _

/-- Requests preserve whatever `add` preserves. -/
theorem exec_inv {σ : Type} (B : Backend σ) (env : Env) (P : σ → Prop)
    (h : ∀ s p, P s → P (B.add s p).1) (g : Prog) : ∀ io s, P s → P (exec B env g io s).2.1 := by
  have hnode : ∀ io s n pn, P s → P (getNode B env io s n pn).1 := by
    intro io s n pn hs
    unfold getNode addNew
    cases io.opts with
    | ok o =>
      simp only
      cases B.tryGet s (aliased env o (io.prefixText ++ n)) with
      | ok r =>
        cases r with
        | some v => exact hs
        | none =>
          simp only
          split
          · exact hs
          · split
            · exact hs
            · cases ParInfo.parse env.R (aliased env o (io.prefixText ++ n)) pn o with
              | ok p => simp only; split; exact hs; exact h _ _ hs
              | err => exact hs
              | ub => exact hs
      | err => exact hs
      | ub => exact hs
    | err => exact hs
    | ub => exact hs
  induction g with
  | skip => intro io s hs; exact hs
  | seq a b iha ihb =>
    intro io s hs
    simp only [exec]
    have h1 := iha io s hs
    rcases hx : exec B env a io s with ⟨io1, s1, r1⟩
    rw [hx] at h1
    cases r1 with
    | ok vs =>
      simp only
      have h2 := ihb io1 s1 h1
      rcases hy : exec B env b io1 s1 with ⟨io2, s2, r2⟩
      rw [hy] at h2
      cases r2 <;> exact h2
    | err => exact h1
    | ub => exact h1
  | num n m d l u =>
    intro io s hs
    simp only [exec, one, getNum]
    cases B.tryGet s (io.prefixText ++ n) with
    | ok r =>
      cases r with
      | some v => exact hs
      | none =>
        simp only
        cases ParInfo.make (io.prefixText ++ n) m d l u with
        | ok p => exact h _ _ hs
        | err => exact hs
        | ub => exact hs
    | err => exact hs
    | ub => exact hs
  | node n pn => intro io s hs; exact hnode io s n pn hs
  | tryNode n c d =>
    intro io s hs
    cases c with
    | none => exact hs
    | some pn => exact hnode io s n pn hs
  | scope p dot b ih =>
    intro io s hs
    have h1 := ih { io with prefixes := scopeSeg p dot :: io.prefixes } s hs
    simp only [exec]
    rcases hx : exec B env b { io with prefixes := scopeSeg p dot :: io.prefixes } s with ⟨io1, s1, r1⟩
    rw [hx] at h1
    simp only
    cases io1.prefixes <;> exact h1
  | opts ov b ih =>
    intro io s hs
    simp only [exec]
    rcases io with ⟨pre, os⟩
    cases os with
    | nil => exact hs
    | cons o os =>
      simp only
      have h1 := ih { prefixes := pre, options := ov.apply o :: o :: os } s hs
      rcases hx : exec B env b { prefixes := pre, options := ov.apply o :: o :: os } s with ⟨io1, s1, r1⟩
      rw [hx] at h1
      simp only
      cases io1.options <;> exact h1

/-- Scopes are restored. -/
theorem exec_io {σ : Type} (B : Backend σ) (env : Env) (g : Prog) : ∀ io s, (exec B env g io s).1 = io := by
  induction g with
  | skip => intro io s; rfl
  | seq a b iha ihb =>
    intro io s
    simp only [exec]
    have h1 := iha io s
    rcases hx : exec B env a io s with ⟨io1, s1, r1⟩
    rw [hx] at h1
    simp only at h1
    subst h1
    cases r1 with
    | ok vs =>
      simp only
      have h2 := ihb io1 s1
      rcases hy : exec B env b io1 s1 with ⟨io2, s2, r2⟩
      rw [hy] at h2
      cases r2 <;> exact h2
    | err => rfl
    | ub => rfl
  | num n m d l u => intro io s; rfl
  | node n pn => intro io s; rfl
  | tryNode n c d => intro io s; rfl
  | scope p dot b ih =>
    intro io s
    have h1 := ih { io with prefixes := scopeSeg p dot :: io.prefixes } s
    simp only [exec]
    rcases hx : exec B env b { io with prefixes := scopeSeg p dot :: io.prefixes } s with ⟨io1, s1, r1⟩
    rw [hx] at h1
    simp only at h1
    subst h1
    rfl
  | opts ov b ih =>
    intro io s
    simp only [exec]
    rcases io with ⟨pre, os⟩
    cases os with
    | nil => rfl
    | cons o os =>
      simp only
      have h1 := ih { prefixes := pre, options := ov.apply o :: o :: os } s
      rcases hx : exec B env b { prefixes := pre, options := ov.apply o :: o :: os } s with ⟨io1, s1, r1⟩
      rw [hx] at h1
      simp only at h1
      subst h1
      rfl

end Spot
