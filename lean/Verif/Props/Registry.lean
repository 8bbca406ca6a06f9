import Verif.Lemmas.ObjInfo
import Verif.Model.Strtod

/-!
# C04–C11: the parameter registry (objective_info), search points as parameter sources, references and scopes
-/

namespace Spot
open ObjInfo

/-- Calls on an objective_info. `run` is any well-nested sequence of get requests under any prefix and options. -/
inductive OIOp
  | add (p : ParInfo)
  | run (env : Env) (io : IOState) (g : Prog)
  | importMeanStd (R : Reader) (file : Option Str) (st : ImportSettings)
  | importLocked (R : Reader) (file : Option Str) (incl excl : Matcher)
  | setMeanStd (mean std : List Dbl)
  | setStdMinimum (value factor : Dbl)

/-- State after a call, whatever its outcome. -/
def OIOp.apply (i : ObjInfo) : OIOp → ObjInfo
  | .add p => (i.add p).1
  | .run env io g => (exec oiBackend env g io i).2.1
  | .importMeanStd R f st => (i.importMeanStd R f st).1
  | .importLocked R f a b => (i.importLocked R f a b).1
  | .setMeanStd m s => (i.setMeanStd m s).1
  | .setStdMinimum v f => i.setStdMinimum v f

theorem NamesUnique.importRec {st : ImportSettings} {x : ObjInfo × Nat × Nat} (h : NamesUnique x.1) (r : Rec) :
    NamesUnique (importRec st x r).1 := by
  obtain ⟨i, a, b⟩ := x
  simp only [Spot.importRec]
  split
  · exact h
  · split
    · have := h.lock r.name r.value
      rcases hl : i.lock r.name r.value with ⟨i', c⟩
      rw [hl] at this
      cases c <;> exact this
    · split
      · refine h.of_map _ (updateFirst_map _ _ _ ?_ _)
        intro p; simp only [importPar]; split <;> [rfl; (split <;> rfl)]
      · exact h

theorem NamesUnique.lockRec {x : ObjInfo × Nat × Nat} (h : NamesUnique x.1) (incl excl : Matcher) (r : Rec) :
    NamesUnique (lockRec incl excl x r).1 := by
  obtain ⟨i, a, b⟩ := x
  simp only [Spot.lockRec]
  split
  · exact h
  · have := h.lock r.name r.value
    rcases hl : i.lock r.name r.value with ⟨i', c⟩
    rw [hl] at this
    cases c <;> exact this

theorem foldl_inv {α β : Type} (P : α → Prop) (f : α → β → α) (h : ∀ a b, P a → P (f a b)) (l : List β) :
    ∀ a, P a → P (l.foldl f a) := by
  induction l with
  | nil => intro a ha; exact ha
  | cons b l ih => intro a ha; exact ih _ (h a b ha)

theorem NamesUnique.apply {i : ObjInfo} (h : NamesUnique i) (op : OIOp) : NamesUnique (op.apply i) := by
  cases op with
  | add p => exact h.add p
  | run env io g => exact exec_inv oiBackend env NamesUnique (fun s p hs => hs.add p) g io i h
  | importMeanStd R f st =>
    cases f with
    | none => exact h
    | some t => exact foldl_inv (fun x : ObjInfo × Nat × Nat => NamesUnique x.1) _ (fun x r hx => hx.importRec r) _ _ h
  | importLocked R f a b =>
    cases f with
    | none => exact h
    | some t => exact foldl_inv (fun x : ObjInfo × Nat × Nat => NamesUnique x.1) _ (fun x r hx => hx.lockRec a b r) _ _ h
  | setMeanStd m s =>
    simp only [OIOp.apply, ObjInfo.setMeanStd]
    split
    · exact h.of_map _ (zipMeanStd_map _ (fun _ _ _ => rfl) _ _ _)
    · exact h
  | setStdMinimum v f =>
    refine h.of_map _ ?_
    simp

/-- C04: whatever calls are made on an initially empty objective_info, in whatever order and with whatever outcomes, names stay
unique and no name is both free and locked. -/
theorem C04_names_unique (minimize : Bool) (ops : List OIOp) :
    NamesUnique (ops.foldl OIOp.apply { minimize := minimize }) :=
  foldl_inv NamesUnique OIOp.apply (fun _ op h => h.apply op) ops _ ⟨by simp, by simp, by simp⟩

/-- C04, without the claim that a call starts from an empty registry: any state with unique names keeps them. -/
theorem C04_names_unique_from (i : ObjInfo) (h : NamesUnique i) (ops : List OIOp) : NamesUnique (ops.foldl OIOp.apply i) :=
  foldl_inv NamesUnique OIOp.apply (fun _ op h => h.apply op) ops _ h

/-- The hypothesis is needed: the vector constructor (spot/objective_info.h:20) checks nothing. -/
theorem C04_vector_constructor_unchecked :
    ∃ ps : List ParInfo, ¬ NamesUnique { pars := ps } :=
  ⟨[⟨[], .fin 0, .fin 1, .fin 0, .fin 1⟩, ⟨[], .fin 0, .fin 1, .fin 0, .fin 1⟩], fun h => by simpa using h.free⟩

/-! ## C05 -/

/-- C05: adding a new parameter with non-zero std appends it and changes nothing else. -/
theorem C05_add_free (i : ObjInfo) (p : ParInfo) (hk : ¬ Known i p.name)
    (hn : ∀ c ∈ p.name, c ≠ ' ' ∧ c ≠ '\t' ∧ c ≠ '"') (hs : p.std ≠ .fin 0) :
    ∃ j, i.add p = (j, .ok p.mean) ∧ j.dim = i.dim + 1 ∧ j.pars[i.dim]? = some p ∧
      (∀ k < i.dim, j.pars[k]? = i.pars[k]?) ∧ j.locked = i.locked ∧ j.minimize = i.minimize ∧ j.findIndex p.name = some i.dim := by
  have hb : badName p.name = false := by
    unfold badName; rw [List.any_eq_false]; intro c hc; obtain ⟨h1, h2, h3⟩ := hn c hc; simp [h1, h2, h3]
  have hc : p.isConstant = false := by
    unfold ParInfo.isConstant
    cases h : Dbl.eq p.std (.fin 0) with
    | false => rfl
    | true => exact absurd ((Dbl.eq_iff _ _).1 h).1 hs
  rcases add_cases i p with ⟨e, h⟩ | ⟨e, _, _, h⟩ | ⟨e, _⟩
  · rcases h with h | h
    · exact absurd h hk
    · simp [hb] at h
  · simp [hc] at h
  · refine ⟨_, e, by simp [dim], by simp [dim], ?_, rfl, rfl, ?_⟩
    · intro k hk; simp only [dim] at hk; simp [List.getElem?_append_left hk]
    · simp only [findIndex, dim]
      rw [List.findIdx?_append]
      have : List.findIdx? (fun q : ParInfo => decide (q.name = p.name)) i.pars = none := by
        rw [List.findIdx?_eq_none_iff]
        intro q hq; simpa using (not_known_of hk).1 q hq
      rw [this]; simp

/-- C05: adding a new parameter with std 0 locks it to its mean and changes nothing else. -/
theorem C05_add_constant (i : ObjInfo) (p : ParInfo) (hk : ¬ Known i p.name)
    (hn : ∀ c ∈ p.name, c ≠ ' ' ∧ c ≠ '\t' ∧ c ≠ '"') (hs : p.std = .fin 0) :
    ∃ j, i.add p = (j, .ok p.mean) ∧ j.dim = i.dim ∧ j.pars = i.pars ∧ j.tryGetLocked p.name = some p.mean ∧
      (∀ n, n ≠ p.name → j.tryGetLocked n = i.tryGetLocked n) ∧ j.minimize = i.minimize := by
  have hb : badName p.name = false := by
    unfold badName; rw [List.any_eq_false]; intro c hc; obtain ⟨h1, h2, h3⟩ := hn c hc; simp [h1, h2, h3]
  have hc : p.isConstant = true := by simp [ParInfo.isConstant, hs]
  rcases add_cases i p with ⟨e, h⟩ | ⟨e, _⟩ | ⟨e, _, _, h⟩
  · rcases h with h | h
    · exact absurd h hk
    · simp [hb] at h
  · refine ⟨_, e, rfl, rfl, ?_, ?_, rfl⟩
    · simp [tryGetLocked, lookup_mapSet]
    · intro n hn; simp [tryGetLocked, lookup_mapSet, hn]
  · simp [hc] at h

/-- C05: adding a parameter whose name is taken (free or locked), or contains a space, tab or quote, throws and changes nothing. -/
theorem C05_add_rejected (i : ObjInfo) (p : ParInfo)
    (h : Known i p.name ∨ ∃ c ∈ p.name, c = ' ' ∨ c = '\t' ∨ c = '"') : i.add p = (i, .err) := by
  have hb : (∃ c ∈ p.name, c = ' ' ∨ c = '\t' ∨ c = '"') → badName p.name = true := by
    rintro ⟨c, hc, h⟩; unfold badName; rw [List.any_eq_true]; refine ⟨c, hc, ?_⟩; rcases h with h | h | h <;> simp [h]
  rcases add_cases i p with ⟨e, _⟩ | ⟨_, h1, h2, _⟩ | ⟨_, h1, h2, _⟩
  · exact e
  all_goals
    rcases h with h | h
    · exact absurd h h1
    · rw [hb h] at h2; cases h2

/-! ## C06 -/

theorem tryGet_add_ok {i j : ObjInfo} {p : ParInfo} {v : Dbl} (h : i.add p = (j, .ok v)) : j.tryGet p.name = some v := by
  rcases add_cases i p with ⟨e, _⟩ | ⟨e, hk, _⟩ | ⟨e, hk, _⟩
  · rw [e] at h; simp at h
  · rw [e] at h; simp only [Prod.mk.injEq, Res.ok.injEq] at h
    obtain ⟨rfl, rfl⟩ := h
    have : ObjInfo.find { i with locked := mapSet i.locked p.name p.mean } p.name = none :=
      find_none.2 (not_known_of hk).1
    simp [tryGet, this, tryGetLocked, lookup_mapSet]
  · rw [e] at h; simp only [Prod.mk.injEq, Res.ok.injEq] at h
    obtain ⟨rfl, rfl⟩ := h
    have hf : List.find? (fun q : ParInfo => decide (q.name = p.name)) i.pars = none := find_none.2 (not_known_of hk).1
    have : ObjInfo.find { i with pars := i.pars ++ [p] } p.name = some p := by
      simp [ObjInfo.find, List.find?_append, hf]
    simp [tryGet, this]

theorem getNum_idem (io : IOState) (i j : ObjInfo) (n : Str) (m d l u v : Dbl)
    (h : getNum oiBackend io i n m d l u = (j, .ok v)) : getNum oiBackend io j n m d l u = (j, .ok v) := by
  unfold getNum at h ⊢
  simp only [oiBackend] at h ⊢
  cases ht : i.tryGet (io.prefixText ++ n) with
  | some w =>
    rw [ht] at h; simp only [Prod.mk.injEq, Res.ok.injEq] at h
    obtain ⟨rfl, rfl⟩ := h; rw [ht]
  | none =>
    rw [ht] at h
    simp only at h
    cases hp : ParInfo.make (io.prefixText ++ n) m d l u with
    | ok p =>
      rw [hp] at h
      have hn : p.name = io.prefixText ++ n := by
        rw [C01_constructor] at hp; split at hp <;> cases hp; rfl
      rw [← hn, tryGet_add_ok h]
    | err => simp [hp] at h
    | ub => simp [hp] at h

/-- C06: repeating a numeric request returns the same value and changes nothing. -/
theorem C06_get_twice (io : IOState) (i j : ObjInfo) (n : Str) (m d l u v : Dbl)
    (h : getNum oiBackend io i n m d l u = (j, .ok v)) : getNum oiBackend io j n m d l u = (j, .ok v) :=
  getNum_idem io i j n m d l u v h

theorem parse_name {R : Reader} {full : Str} {pn : PNode} {o : ParOptions} {p : ParInfo}
    (h : ParInfo.parse R full pn o = .ok p) : p.name = full := by
  rcases C01_from_prop_node R full pn o with ⟨q, hq, _, hn, _⟩ | he
  · rw [hq] at h; cases h; exact hn
  · rw [he] at h; cases h

/-- C06: repeating a prop_node request (text, children, reference or constant) returns the same value and changes nothing. -/
theorem C06_get_node_twice (env : Env) (io : IOState) (i j : ObjInfo) (n : Str) (pn : PNode) (v : Dbl)
    (h : getNode oiBackend env io i n pn = (j, .ok v)) : getNode oiBackend env io j n pn = (j, .ok v) := by
  unfold getNode at h ⊢
  cases ho : io.opts with
  | err => rw [ho] at h; simp at h
  | ub => rw [ho] at h; simp at h
  | ok o =>
    rw [ho] at h
    simp only [oiBackend] at h ⊢
    set full := aliased env o (io.prefixText ++ n) with hfull
    cases ht : i.tryGet full with
    | some w =>
      rw [ht] at h; simp only [Prod.mk.injEq, Res.ok.injEq] at h
      obtain ⟨rfl, rfl⟩ := h; rw [ht]
    | none =>
      rw [ht] at h
      simp only at h
      by_cases hr : isRef pn.str = true
      · rw [if_pos hr] at h
        have hj : j = i := by simp only [Prod.mk.injEq] at h; exact h.1.symm
        subst hj
        rw [ht]; simp only; rw [if_pos hr]; exact h
      · rw [if_neg hr] at h
        unfold addNew at h
        by_cases hq : env.needsQuotes full = true
        · rw [if_pos hq] at h; simp at h
        · rw [if_neg hq] at h
          cases hp : ParInfo.parse env.R full pn o with
          | ok p =>
            rw [hp] at h
            simp only at h
            by_cases hc : p.isConstant = true
            · rw [if_pos hc] at h
              have hj : j = i := by simp only [Prod.mk.injEq] at h; exact h.1.symm
              subst hj
              rw [ht]; simp only; rw [if_neg hr]
              unfold addNew; rw [if_neg hq, hp]; simp only; rw [if_pos hc]; exact h
            · rw [if_neg hc] at h
              rw [← parse_name hp, tryGet_add_ok h]
          | err => simp [hp] at h
          | ub => simp [hp] at h

/-! ## C07 -/

/-- `j` extends `i`: all free parameters of `i` are the first ones of `j`, unchanged; locked values are kept. -/
structure Extends (i j : ObjInfo) : Prop where
  free : i.pars <+: j.pars
  locked : ∀ n v, i.tryGetLocked n = some v → j.tryGetLocked n = some v
  minimize : j.minimize = i.minimize

theorem Extends.refl (i : ObjInfo) : Extends i i := ⟨List.prefix_refl _, fun _ _ h => h, rfl⟩

theorem Extends.trans {i j k : ObjInfo} (h : Extends i j) (h' : Extends j k) : Extends i k :=
  ⟨h.free.trans h'.free, fun n v hv => h'.locked n v (h.locked n v hv), by rw [h'.minimize, h.minimize]⟩

theorem extends_add (i : ObjInfo) (p : ParInfo) : Extends i (i.add p).1 := by
  rcases add_cases i p with ⟨e, _⟩ | ⟨e, hk, _⟩ | ⟨e, hk, _⟩
  · rw [e]; exact .refl i
  · rw [e]
    refine ⟨List.prefix_refl _, ?_, rfl⟩
    intro n v hv
    simp only [tryGetLocked, lookup_mapSet] at hv ⊢
    split
    · rename_i h; subst h
      exact absurd ((lookup_isSome_iff _ _).1 (by rw [hv]; rfl)) (not_known_of hk).2
    · exact hv
  · rw [e]; exact ⟨List.prefix_append _ _, fun _ _ h => h, rfl⟩

/-- C07: whatever requests follow, under whatever prefixes and options and whether or not they throw, registered parameters keep
their index, mean, std and bounds, locked ones their value, and the dimension never decreases. -/
theorem C07_registered_parameters_stable (env : Env) (io : IOState) (g : Prog) (i : ObjInfo) :
    Extends i (exec oiBackend env g io i).2.1 ∧ i.dim ≤ (exec oiBackend env g io i).2.1.dim ∧
      ∀ (k : Nat) (p : ParInfo), i.pars[k]? = some p → (exec oiBackend env g io i).2.1.pars[k]? = some p := by
  have h := exec_inv oiBackend env (Extends i) (fun s p hs => hs.trans (extends_add s p)) g io i (.refl i)
  refine ⟨h, h.free.length_le, ?_⟩
  intro k p hp
  obtain ⟨t, ht⟩ := h.free
  have : k < i.pars.length := by
    by_contra hc; rw [List.getElem?_eq_none (by omega)] at hp; cases hp
  rw [← ht, List.getElem?_append_left this]; exact hp

/-! ## C08, C09 -/

theorem Known.mono {i j : ObjInfo} (h : Extends i j) {n : Str} (hk : Known i n) : Known j n := by
  rw [known_iff] at hk
  rcases hk with hk | hk
  · obtain ⟨p, hp⟩ := Option.isSome_iff_exists.1 hk
    obtain ⟨h1, h2⟩ := find_some hp
    exact Or.inl ⟨p, h.free.subset h1, h2⟩
  · obtain ⟨v, hv⟩ := Option.isSome_iff_exists.1 hk
    rw [known_iff]; right; rw [h.locked n v hv]; rfl

theorem known_add {i j : ObjInfo} {p : ParInfo} {v : Dbl} (h : i.add p = (j, .ok v)) : Known j p.name := by
  rw [← tryGet_isSome, tryGet_add_ok h]; rfl

/-- A search point over an info: as many values as parameters. -/
def SearchPoint.WF (s : SearchPoint) : Prop := s.values.length = s.info.dim

theorem findIndex_some {i : ObjInfo} {n : Str} {k : Nat} (h : i.findIndex n = some k) :
    ∃ p, i.pars[k]? = some p ∧ p.name = n ∧ k < i.dim := by
  unfold findIndex at h
  rw [List.findIdx?_eq_some_iff_getElem] at h
  obtain ⟨hk, h1, _⟩ := h
  exact ⟨i.pars[k], by simp [hk], by simpa using h1, hk⟩

theorem findIndex_none {i : ObjInfo} {n : Str} : i.findIndex n = none ↔ ∀ p ∈ i.pars, p.name ≠ n := by
  unfold findIndex; rw [List.findIdx?_eq_none_iff]; simp

theorem sp_tryGet_known {s : SearchPoint} (hs : s.WF) {n : Str} (hk : Known s.info n) : ∃ v, s.tryGet n = .ok (some v) := by
  unfold SearchPoint.tryGet
  cases hf : s.info.findIndex n with
  | some k =>
    obtain ⟨_, _, _, hlt⟩ := findIndex_some hf
    have : k < s.values.length := by rw [hs]; exact hlt
    simp [List.getElem?_eq_getElem this]
  | none =>
    have h1 := findIndex_none.1 hf
    rcases (known_iff _ _).1 hk with h | h
    · obtain ⟨p, hp⟩ := Option.isSome_iff_exists.1 h
      exact absurd (find_some hp).2 (h1 p (find_some hp).1)
    · obtain ⟨v, hv⟩ := Option.isSome_iff_exists.1 h
      exact ⟨v, by simp [hv]⟩

theorem sp_tryGet_unknown {s : SearchPoint} {n : Str} (hk : ¬ Known s.info n) : s.tryGet n = .ok none := by
  have h := not_known_of hk
  unfold SearchPoint.tryGet
  rw [findIndex_none.2 h.1]
  simp only [tryGetLocked]
  rw [(lookup_eq_none_iff' _ _).2 h.2]

theorem sp_tryGet_total {s : SearchPoint} (hs : s.WF) (n : Str) : ∃ r, s.tryGet n = .ok r := by
  by_cases h : Known s.info n
  · obtain ⟨v, hv⟩ := sp_tryGet_known hs h; exact ⟨_, hv⟩
  · exact ⟨_, sp_tryGet_unknown h⟩

/-- The names a reference can stand for, most specific first: under the full prefix, each shorter one, and none. -/
def refCandidates (prefixes : List Str) (ref : Str) : List Str :=
  prefixes.tails.map fun t => t.reverse.flatten ++ ref

theorem refCandidates_cons (p : Str) (ps : List Str) (ref : Str) :
    refCandidates (p :: ps) ref = (segText (p :: ps) ++ ref) :: refCandidates ps ref := by
  simp [refCandidates, segText, List.tails]

/-- First name in the list that has a value. -/
def firstOf (tg : Str → Option Dbl) (l : List Str) : Option Dbl := l.findSome? tg

theorem refLoop_then (tg : Str → Res (Option Dbl)) (f : Str → Option Dbl) (htg : ∀ n, tg n = .ok (f n)) (ref : Str) (ps : List Str) :
    (refLoop tg ref ps >>= fun r => match r with
      | some v => .ok v
      | none => tg ref >>= fun r => match r with | some v => Res.ok v | none => Res.err) =
    match firstOf f (refCandidates ps ref) with | some v => .ok v | none => .err := by
  induction ps with
  | nil =>
    simp only [refLoop, Res.ok_bind, htg, refCandidates, List.tails, List.map_cons, List.map_nil, List.reverse_nil, List.flatten_nil,
      List.nil_append, firstOf, List.findSome?_cons, List.findSome?_nil]
    cases f ref <;> rfl
  | cons p ps ih =>
    rw [refCandidates_cons, refLoop, htg]
    simp only [firstOf, List.findSome?_cons]
    cases h : f (segText (p :: ps) ++ ref) with
    | some v => rfl
    | none => exact ih

theorem getRef_eq (tg : Str → Res (Option Dbl)) (f : Str → Option Dbl) (htg : ∀ n, tg n = .ok (f n)) (io : IOState) (ref : Str) :
    getRef tg io ref = match firstOf f (refCandidates io.prefixes ref) with | some v => .ok v | none => .err := by
  unfold getRef
  by_cases he : io.prefixText.isEmpty = true
  · rw [if_pos he]
    have hall : ∀ ps : List Str, (segText ps).isEmpty = true → ∀ c ∈ refCandidates ps ref, c = ref := by
      intro ps
      induction ps with
      | nil => intro _ c hc; simp [refCandidates, List.tails] at hc; exact hc
      | cons p ps ih =>
        intro h c hc
        rw [refCandidates_cons] at hc
        have h0 : segText (p :: ps) = [] := by simpa using h
        have h1 : segText ps = [] := by
          simp only [segText, List.reverse_cons, List.flatten_append, List.append_eq_nil_iff] at h0 ⊢; exact h0.1
        rcases List.mem_cons.1 hc with rfl | hc
        · rw [h0]; rfl
        · exact ih (by simp [h1]) c hc
    have hmem : ref ∈ refCandidates io.prefixes ref := by
      unfold refCandidates
      refine List.mem_map.2 ⟨[], by simp, rfl⟩
    have : firstOf f (refCandidates io.prefixes ref) = f ref := by
      unfold firstOf
      have hl := hall io.prefixes he
      generalize refCandidates io.prefixes ref = l at hl hmem
      induction l with
      | nil => simp at hmem
      | cons c l ih =>
        have hc := hl c (by simp)
        subst hc
        rw [List.findSome?_cons]
        cases hf : f c with
        | some v => rfl
        | none =>
          cases hfs : List.findSome? f l with
          | none => rfl
          | some v =>
            obtain ⟨a, ha, hav⟩ := List.exists_of_findSome?_eq_some hfs
            rw [hl a (by simp [ha]), hf] at hav; cases hav
    rw [this]
    simp only [Res.ok_bind, htg]
    cases f ref <;> rfl
  · rw [if_neg he]
    exact refLoop_then tg f htg ref io.prefixes

/-- C10: a reference resolves to the value of the first existing parameter among: the name under the current prefix, under each
shorter prefix, and the bare name; if none exists, `get` throws. The registry is not changed. -/
theorem C10_reference_resolution (env : Env) (io : IOState) (i : ObjInfo) (o : ParOptions) (os : List ParOptions) (name : Str)
    (pn : PNode) (ho : io.options = o :: os) (hnew : ¬ Known i (aliased env o (io.prefixText ++ name)))
    (c : Char) (rest : Str) (hr : pn.str = c :: rest) (hc : c.isAlpha = true) :
    getNode oiBackend env io i name pn =
      (i, match (io.prefixes.tails.map fun t => t.reverse.flatten ++ pn.str).findSome? i.tryGet with
        | some v => .ok v
        | none => .err) := by
  have h1 : io.opts = .ok o := by simp [IOState.opts, ho]
  have h2 := (tryGet_none _ _).2 hnew
  have h3 : isRef pn.str = true := by simp [isRef, hr, hc]
  unfold getNode
  rw [h1]
  simp only [oiBackend, h2, h3, if_true]
  rw [getRef_eq _ i.tryGet (fun _ => rfl)]
  rfl

/-- The same for search points (values instead of means). -/
theorem C10_reference_resolution_point (env : Env) (io : IOState) (s : SearchPoint) (o : ParOptions)
    (os : List ParOptions) (name : Str) (pn : PNode) (ho : io.options = o :: os)
    (hnew : ¬ Known s.info (aliased env o (io.prefixText ++ name)))
    (c : Char) (rest : Str) (hr : pn.str = c :: rest) (hc : c.isAlpha = true)
    (val : Str → Option Dbl) (hval : ∀ n, s.tryGet n = .ok (val n)) :
    getNode spBackend env io s name pn =
      (s, match (io.prefixes.tails.map fun t => t.reverse.flatten ++ pn.str).findSome? val with
        | some v => .ok v
        | none => .err) := by
  have h1 : io.opts = .ok o := by simp [IOState.opts, ho]
  have h2 := sp_tryGet_unknown hnew
  have h3 : isRef pn.str = true := by simp [isRef, hr, hc]
  unfold getNode
  rw [h1]
  simp only [spBackend, h2, h3, if_true]
  rw [getRef_eq _ val hval]
  rfl

theorem getRef_sp_ok {i : ObjInfo} {s : SearchPoint} (hs : s.WF) (hk : ∀ n, Known i n → Known s.info n) {io : IOState} {ref : Str}
    {v : Dbl} (h : getRef (oiBackend.tryGet i) io ref = .ok v) : ∃ w, getRef (spBackend.tryGet s) io ref = .ok w := by
  rw [getRef_eq (oiBackend.tryGet i) i.tryGet (fun _ => rfl)] at h
  choose f hf using sp_tryGet_total hs
  rw [getRef_eq (spBackend.tryGet s) f hf]
  cases hi : firstOf i.tryGet (refCandidates io.prefixes ref) with
  | none => rw [hi] at h; cases h
  | some v =>
    obtain ⟨a, ha, hav⟩ := List.exists_of_findSome?_eq_some hi
    have hka : Known s.info a := hk a ((tryGet_isSome i a).1 (by rw [hav]; rfl))
    obtain ⟨w, hw⟩ := sp_tryGet_known hs hka
    cases hs' : firstOf f (refCandidates io.prefixes ref) with
    | some w => exact ⟨w, rfl⟩
    | none =>
      have := List.findSome?_eq_none_iff.1 hs' a ha
      rw [hf a, this] at hw; cases hw

theorem getNode_sp_ok {env : Env} {io : IOState} {i j : ObjInfo} {n : Str} {pn : PNode} {v : Dbl}
    (h : getNode oiBackend env io i n pn = (j, .ok v)) {s : SearchPoint} (hs : s.WF) (hk : ∀ n, Known j n → Known s.info n) :
    ∃ w, getNode spBackend env io s n pn = (s, .ok w) := by
  have hij : Extends i j := by
    have := exec_inv oiBackend env (Extends i) (fun s p hs => hs.trans (extends_add s p)) (.node n pn) io i (.refl i)
    simpa [exec, one, h] using this
  have hki : ∀ n, Known i n → Known s.info n := fun n hn => hk n (hn.mono hij)
  unfold getNode at h ⊢
  cases ho : io.opts with
  | err => rw [ho] at h; simp at h
  | ub => rw [ho] at h; simp at h
  | ok o =>
    rw [ho] at h
    simp only at h ⊢
    set full := aliased env o (io.prefixText ++ n) with hfull
    by_cases hks : Known s.info full
    · obtain ⟨w, hw⟩ := sp_tryGet_known hs hks
      exact ⟨w, by simp [spBackend, hw]⟩
    · have hi : i.tryGet full = none := (tryGet_none _ _).2 fun hc => hks (hki _ hc)
      simp only [oiBackend, hi] at h
      simp only [spBackend, sp_tryGet_unknown hks]
      by_cases hr : isRef pn.str = true
      · rw [if_pos hr] at h ⊢
        simp only [Prod.mk.injEq] at h
        obtain ⟨w, hw⟩ := getRef_sp_ok hs hki h.2
        exact ⟨w, by rw [← hw]; rfl⟩
      · rw [if_neg hr] at h ⊢
        unfold addNew at h ⊢
        by_cases hq : env.needsQuotes full = true
        · rw [if_pos hq] at h; simp at h
        · rw [if_neg hq] at h ⊢
          cases hp : ParInfo.parse env.R full pn o with
          | ok p =>
            rw [hp] at h
            simp only at h ⊢
            by_cases hc : p.isConstant = true
            · exact ⟨p.mean, by rw [if_pos hc]⟩
            · rw [if_neg hc] at h
              exact absurd (hk _ (known_add h)) (by rw [parse_name hp]; exact hks)
          | err => simp [hp] at h
          | ub => simp [hp] at h

theorem getNum_sp_ok {io : IOState} {i j : ObjInfo} {n : Str} {m d l u v : Dbl}
    (h : getNum oiBackend io i n m d l u = (j, .ok v)) {s : SearchPoint} (hs : s.WF) (hk : ∀ n, Known j n → Known s.info n) :
    ∃ w, getNum spBackend io s n m d l u = (s, .ok w) := by
  have hidem := getNum_idem io i j n m d l u v h
  have hkn : Known j (io.prefixText ++ n) := by
    by_contra hc
    unfold getNum at h
    have hi : i.tryGet (io.prefixText ++ n) = none := by
      rw [tryGet_none]; intro hki
      have hij : Extends i j := by
        have := exec_inv oiBackend ⟨strtodReader, fun t _ _ => t, fun _ => false⟩ (Extends i)
          (fun s p hs => hs.trans (extends_add s p)) (.num n m d l u) io i (.refl i)
        simpa [exec, one, getNum, h] using this
      exact hc (hki.mono hij)
    simp only [oiBackend, hi] at h
    cases hp : ParInfo.make (io.prefixText ++ n) m d l u with
    | ok p =>
      rw [hp] at h
      have hn : p.name = io.prefixText ++ n := by
        rw [C01_constructor] at hp; split at hp <;> cases hp; rfl
      exact hc (hn ▸ known_add h)
    | err => simp [hp] at h
    | ub => simp [hp] at h
  obtain ⟨w, hw⟩ := sp_tryGet_known hs (hk _ hkn)
  exact ⟨w, by simp [getNum, spBackend, hw]⟩

theorem exec_extends (env : Env) (g : Prog) (io : IOState) (i : ObjInfo) : Extends i (exec oiBackend env g io i).2.1 :=
  (C07_registered_parameters_stable env io g i).1

theorem register_evaluate (env : Env) (g : Prog) : ∀ (io : IOState) (i : ObjInfo) (vs : List Dbl),
    (exec oiBackend env g io i).2.2 = .ok vs → ∀ s : SearchPoint, s.WF →
    (∀ n, Known (exec oiBackend env g io i).2.1 n → Known s.info n) →
    ∃ ws, exec spBackend env g io s = (io, s, .ok ws) ∧ ws.length = vs.length := by
  induction g with
  | skip => intro io i vs h s _ _; simp only [exec, Res.ok.injEq] at h; exact ⟨[], rfl, by rw [← h]⟩
  | seq a b iha ihb =>
    intro io i vs h s hs hk
    simp only [exec] at h hk ⊢
    have hio := exec_io oiBackend env a io i
    rcases hx : exec oiBackend env a io i with ⟨io1, i1, r1⟩
    rw [hx] at h hk hio
    simp only at hio; subst hio
    cases r1 with
    | err => simp at h
    | ub => simp at h
    | ok vs1 =>
      simp only at h hk
      have hio2 := exec_io oiBackend env b io1 i1
      have hext := exec_extends env b io1 i1
      rcases hy : exec oiBackend env b io1 i1 with ⟨io2, i2, r2⟩
      rw [hy] at h hk hio2 hext
      simp only at hio2; subst hio2
      cases r2 with
      | err => simp at h
      | ub => simp at h
      | ok vs2 =>
        simp only [Res.ok.injEq] at h hk
        obtain ⟨ws1, e1, l1⟩ := iha io2 i vs1 (by rw [hx]) s hs (fun n hn => hk n (by
          rw [hx] at hn; exact hn.mono hext))
        obtain ⟨ws2, e2, l2⟩ := ihb io2 i1 vs2 (by rw [hy]) s hs (fun n hn => hk n (by rw [hy] at hn; exact hn))
        refine ⟨ws1 ++ ws2, ?_, by simp [← h, l1, l2]⟩
        rw [e1]; simp only; rw [e2]
  | num n m d l u =>
    intro io i vs h s hs hk
    simp only [exec, one] at h hk ⊢
    rcases hx : getNum oiBackend io i n m d l u with ⟨j, r⟩
    rw [hx] at h hk
    cases r with
    | ok v =>
      obtain ⟨w, hw⟩ := getNum_sp_ok hx hs hk
      refine ⟨[w], by rw [hw]; rfl, ?_⟩
      simp at h; simp [← h]
    | err => simp at h
    | ub => simp at h
  | node n pn =>
    intro io i vs h s hs hk
    simp only [exec, one] at h hk ⊢
    rcases hx : getNode oiBackend env io i n pn with ⟨j, r⟩
    rw [hx] at h hk
    cases r with
    | ok v =>
      obtain ⟨w, hw⟩ := getNode_sp_ok hx hs hk
      refine ⟨[w], by rw [hw]; rfl, ?_⟩
      simp at h; simp [← h]
    | err => simp at h
    | ub => simp at h
  | tryNode n c d =>
    intro io i vs h s hs hk
    cases c with
    | none => simp only [exec, one, tryGetNode, Res.ok_bind, Res.ok.injEq] at h ⊢; exact ⟨[d], rfl, by simp [← h]⟩
    | some pn =>
      simp only [exec, one, tryGetNode] at h hk ⊢
      rcases hx : getNode oiBackend env io i n pn with ⟨j, r⟩
      rw [hx] at h hk
      cases r with
      | ok v =>
        obtain ⟨w, hw⟩ := getNode_sp_ok hx hs hk
        refine ⟨[w], by rw [hw]; rfl, ?_⟩
        simp at h; simp [← h]
      | err => simp at h
      | ub => simp at h
  | scope p dot b ih =>
    intro io i vs h s hs hk
    simp only [exec] at h hk ⊢
    have hio := exec_io oiBackend env b { io with prefixes := scopeSeg p dot :: io.prefixes } i
    rcases hx : exec oiBackend env b { io with prefixes := scopeSeg p dot :: io.prefixes } i with ⟨io1, i1, r1⟩
    rw [hx] at h hk hio
    simp only at hio; subst hio
    simp only at h hk
    obtain ⟨ws, e, l⟩ := ih _ i vs (by rw [hx]; exact h) s hs (by rw [hx]; exact hk)
    exact ⟨ws, by rw [e], l⟩
  | opts ov b ih =>
    intro io i vs h s hs hk
    simp only [exec] at h hk ⊢
    rcases io with ⟨pre, os⟩
    cases os with
    | nil => simp at h
    | cons o os =>
      simp only at h hk ⊢
      have hio := exec_io oiBackend env b { prefixes := pre, options := ov.apply o :: o :: os } i
      rcases hx : exec oiBackend env b { prefixes := pre, options := ov.apply o :: o :: os } i with ⟨io1, i1, r1⟩
      rw [hx] at h hk hio
      simp only at hio; subst hio
      simp only at h hk
      obtain ⟨ws, e, l⟩ := ih _ i vs (by rw [hx]; exact h) s hs (by rw [hx]; exact hk)
      exact ⟨ws, by rw [e], l⟩

/-- C08: if a sequence of requests ran without exception on an objective_info, the same sequence runs without exception (and
answers every request) on every search point over the resulting info, or over any info that knows at least the same names (for
instance after importing or locking parameters). -/
theorem C08_register_then_evaluate (env : Env) (g : Prog) (io : IOState) (i j : ObjInfo) (vs : List Dbl)
    (h : exec oiBackend env g io i = (io, j, .ok vs)) (s : SearchPoint) (hs : s.WF)
    (hk : ∀ n, Known j n → Known s.info n) :
    ∃ ws, exec spBackend env g io s = (io, s, .ok ws) ∧ ws.length = vs.length :=
  register_evaluate env g io i vs (by rw [h]) s hs (by rw [h]; exact hk)

/-- C09: a free parameter has the search point's own value at the parameter's index. -/
theorem C09_free_value (io : IOState) (s : SearchPoint) (hn : NamesUnique s.info) (k : Nat) (p : ParInfo) (v : Dbl)
    (hp : s.info.pars[k]? = some p) (hv : s.values[k]? = some v) (name : Str) (hname : io.prefixText ++ name = p.name)
    (m d l u : Dbl) :
    s.tryGet p.name = .ok (some v) ∧ getNum spBackend io s name m d l u = (s, .ok v) := by
  have h1 : s.info.findIndex p.name = some k := by
    cases hf : s.info.findIndex p.name with
    | none =>
      have hm : p ∈ s.info.pars := List.mem_of_getElem? hp
      exact absurd rfl (findIndex_none.1 hf p hm)
    | some k' =>
      obtain ⟨q, hq, hqn, hlt⟩ := findIndex_some hf
      have hlt : k' < s.info.pars.length := hlt
      have hk : k < s.info.pars.length := by
        by_contra hc; rw [List.getElem?_eq_none (by omega)] at hp; cases hp
      have e : (s.info.pars.map ParInfo.name)[k']'(by rw [List.length_map]; exact hlt) = (s.info.pars.map ParInfo.name)[k]'(by simpa using hk) := by
        rw [List.getElem?_eq_getElem hlt] at hq
        rw [List.getElem?_eq_getElem hk] at hp
        simp only [Option.some.injEq] at hq hp
        rw [List.getElem_map, List.getElem_map, hq, hp, hqn]
      rw [(List.Nodup.getElem_inj_iff hn.free).1 e]
  have h2 : s.tryGet p.name = .ok (some v) := by simp [SearchPoint.tryGet, h1, hv]
  exact ⟨h2, by simp [getNum, spBackend, hname, h2]⟩

/-- C09: a locked parameter has its locked value. -/
theorem C09_locked_value (io : IOState) (s : SearchPoint) (n : Str) (v : Dbl) (hf : ∀ p ∈ s.info.pars, p.name ≠ n)
    (hl : s.info.tryGetLocked n = some v) (name : Str) (hname : io.prefixText ++ name = n) (m d l u : Dbl) :
    s.tryGet n = .ok (some v) ∧ getNum spBackend io s name m d l u = (s, .ok v) := by
  have h2 : s.tryGet n = .ok (some v) := by simp [SearchPoint.tryGet, findIndex_none.2 hf, hl]
  exact ⟨h2, by simp [getNum, spBackend, hname, h2]⟩

/-- C09: no request changes the search point (nor the info it refers to). -/
theorem C09_requests_do_not_change (env : Env) (g : Prog) (io : IOState) (s : SearchPoint) :
    (exec spBackend env g io s).2.1 = s :=
  exec_inv spBackend env (· = s) (fun t p ht => by subst ht; rfl) g io s rfl

/-- C09: a request for an unknown parameter throws. -/
theorem C09_unknown_throws (io : IOState) (s : SearchPoint) (name : Str) (hk : ¬ Known s.info (io.prefixText ++ name))
    (m d l u : Dbl) : getNum spBackend io s name m d l u = (s, .err) := by
  unfold getNum
  simp only [spBackend, sp_tryGet_unknown hk]
  rw [C01_constructor]
  by_cases h : ValidParam ⟨io.prefixText ++ name, m, d, l, u⟩
  · rw [if_pos h]; rfl
  · rw [if_neg h]

/-- C09: a prop_node request for an unknown parameter (not a reference) returns the value of the node if the name is acceptable and
the node denotes a constant (a parameter with std 0), and throws otherwise. -/
theorem C09_unknown_node (env : Env) (io : IOState) (s : SearchPoint) (o : ParOptions) (os : List ParOptions) (name : Str) (pn : PNode)
    (ho : io.options = o :: os) (hk : ¬ Known s.info (aliased env o (io.prefixText ++ name))) (hr : isRef pn.str = false) :
    (∀ p, env.needsQuotes (aliased env o (io.prefixText ++ name)) = false →
      ParInfo.parse env.R (aliased env o (io.prefixText ++ name)) pn o = .ok p → p.std = .fin 0 →
      getNode spBackend env io s name pn = (s, .ok p.mean)) ∧
    ((∀ p, env.needsQuotes (aliased env o (io.prefixText ++ name)) = false →
      ParInfo.parse env.R (aliased env o (io.prefixText ++ name)) pn o = .ok p → p.std ≠ .fin 0) →
      getNode spBackend env io s name pn = (s, .err)) := by
  have h1 : io.opts = .ok o := by simp [IOState.opts, ho]
  unfold getNode
  rw [h1]
  simp only [spBackend, sp_tryGet_unknown hk, hr, Bool.false_eq_true, if_false, addNew]
  constructor
  · intro p hq hp hs
    have hc : p.isConstant = true := by rw [ParInfo.isConstant, hs]; simp [Dbl.eq]
    rw [hq, hp]
    simp [hc]
  · intro h
    split
    · rfl
    · rename_i hq
      rcases C01_from_prop_node env.R (aliased env o (io.prefixText ++ name)) pn o with ⟨p, hp, _⟩ | he
      · rw [hp]
        simp only
        have hc : ¬ p.isConstant = true := fun hc => h p (by simpa using hq) hp ((Dbl.eq_iff _ _).1 hc).1
        rw [if_neg hc]; rfl
      · rw [he]

/-! ## C11 -/

/-- C11: after any well-nested block of scoped prefixes and scoped options, run on any kind of parameter source and whether or not
it threw, the prefix stack and the option stack are exactly what they were before. -/
theorem C11_scopes_restored {σ : Type} (B : Backend σ) (env : Env) (g : Prog) (io : IOState) (s : σ) :
    (exec B env g io s).1 = io := exec_io B env g io s

/-- C11: a `scoped_prefix_setter` (spot/par_io.h:67-75) around such a block restores the prefix text. -/
theorem C11_setter_restores_text {σ : Type} (B : Backend σ) (env : Env) (g : Prog) (io : IOState) (s : σ) (t : Str) :
    (((exec B env g (io.setPrefix t) s).1).setPrefix io.prefixText).prefixText = io.prefixText := by
  rw [exec_io]; simp [IOState.setPrefix, IOState.prefixText, segText]

/-- C11: a request inside a `scoped_prefix` is the request outside of it with the prefix written before the name - with exactly one
dot in between if a dot is asked for, and none if the prefix is empty. (Only a reference text is resolved differently, see C10.) -/
theorem C11_scope_prefixes_name {σ : Type} (B : Backend σ) (env : Env) (io : IOState) (s : σ) (pre n : Str) (mean std min max : Dbl)
    (q : Str) (c : Char) :
    (exec B env (.scope pre false (.num n mean std min max)) io s).2 = (exec B env (.num (pre ++ n) mean std min max) io s).2 ∧
    (exec B env (.scope [] true (.num n mean std min max)) io s).2 = (exec B env (.num n mean std min max) io s).2 ∧
    (exec B env (.scope (q ++ ['.']) true (.num n mean std min max)) io s).2 =
      (exec B env (.num (q ++ '.' :: n) mean std min max) io s).2 ∧
    (c ≠ '.' → (exec B env (.scope (q ++ [c]) true (.num n mean std min max)) io s).2 =
      (exec B env (.num (q ++ c :: '.' :: n) mean std min max) io s).2) := by
  refine ⟨?_, ?_, ?_, fun hc => ?_⟩ <;>
    simp [exec, scopeSeg, getNum, IOState.prefixText, IOState.opts, segText, List.getLast?_append, *]

/-- C11: the options in force inside a `scoped_par_options`: a value written in its node replaces the enclosing one, every option
not written there keeps its enclosing value. -/
structure Spec.Overrides (ov : OptOverride) (outer inner : ParOptions) : Prop where
  factor : ∀ x, ov.factor = some x → inner.autoStdFactor = x
  factor_kept : ov.factor = none → inner.autoStdFactor = outer.autoStdFactor
  offset : ∀ x, ov.offset = some x → inner.autoStdOffset = x
  offset_kept : ov.offset = none → inner.autoStdOffset = outer.autoStdOffset
  minimum : ∀ x, ov.minimum = some x → inner.autoStdMinimum = x
  minimum_kept : ov.minimum = none → inner.autoStdMinimum = outer.autoStdMinimum
  aliases : ∀ x, ov.aliases = some x → inner.aliases = x
  aliases_kept : ov.aliases = none → inner.aliases = outer.aliases
  lower_kept : inner.lower = outer.lower
  upper_kept : inner.upper = outer.upper

/-- C11: the requests of a block inside a `scoped_par_options` return and register exactly what they do when the overriding options
are the ones in force, whatever the kind of parameter source. -/
theorem C11_scoped_options {σ : Type} (B : Backend σ) (env : Env) (g : Prog) (io : IOState) (s : σ) (ov : OptOverride)
    (o inner : ParOptions) (os : List ParOptions) (ho : io.options = o :: os) (h : Spec.Overrides ov o inner) :
    (exec B env (.opts ov g) io s).2 = (exec B env g { io with options := inner :: o :: os } s).2 := by
  have hi : ov.apply o = inner := by
    obtain ⟨h1, h2, h3, h4, h5, h6, h7, h8, h9, h10⟩ := h
    rcases ov with ⟨f, f2, m, a⟩
    rcases inner with ⟨i1, i2, i3, i4, i5, i6⟩
    simp only at *
    simp only [OptOverride.apply, ParOptions.mk.injEq]
    refine ⟨?_, ?_, ?_, h9.symm, h10.symm, ?_⟩
    · cases f with
      | none => exact (h2 rfl).symm
      | some x => exact (h1 x rfl).symm
    · cases f2 with
      | none => exact (h4 rfl).symm
      | some x => exact (h3 x rfl).symm
    · cases m with
      | none => exact (h6 rfl).symm
      | some x => exact (h5 x rfl).symm
    · cases a with
      | none => exact (h8 rfl).symm
      | some x => exact (h7 x rfl).symm
  have hx := exec_io B env g { io with options := inner :: o :: os } s
  rw [exec, ho]
  simp only [hi]
  generalize exec B env g { io with options := inner :: o :: os } s = r at hx
  obtain ⟨a, b⟩ := r
  simp only at hx
  subst hx
  rfl

/-- Non-vacuous: a node that sets `auto_std_factor = 0.5` only. -/
example : Spec.Overrides { factor := some (.fin (1 / 2)) } ParOptions.default
    { ParOptions.default with autoStdFactor := .fin (1 / 2) } := by
  constructor <;> simp

/-- C11, limitation: with `stack_string::set` leaving a single segment, a setter restores the text but not the segments, so that
leaving an enclosing `scoped_prefix` afterwards does not restore the outer prefix. -/
theorem C11_setter_loses_segments :
    ∃ (io : IOState) (t : Str), ((io.setPrefix t).setPrefix io.prefixText).prefixText = io.prefixText ∧
      segText ((io.setPrefix t).setPrefix io.prefixText).prefixes.tail ≠ segText io.prefixes.tail :=
  ⟨⟨["b.".toList, "a.".toList], [ParOptions.default]⟩, "c.".toList, by decide +kernel, by decide +kernel⟩

/-! ## Concrete cases -/

/-- A trivial environment: no alias replacement, no quoting. -/
def env0 : Env := ⟨strtodReader, fun t _ _ => t, fun _ => false⟩

/-- Register `y`, then under prefix `a.` a parameter `x` that refers to `y`, then `a.y`. -/
def progRef : Prog :=
  .seq (.num "y".toList (.fin 3) (.fin 1) (.fin 0) (.fin 10))
    (.scope "a.".toList false (.seq (.node "x".toList { str := "y".toList })
      (.num "y".toList (.fin 7) (.fin 1) (.fin 0) (.fin 10))))

example : (exec oiBackend env0 progRef .init {}).2.2 = .ok [.fin 3, .fin 3, .fin 7] := by decide +kernel

/-- `x ~4` inside a `scoped_par_options` with `auto_std_factor = 0.5`, then `y ~4` outside of it. -/
def progOpts : Prog :=
  .seq (.opts { factor := some (.fin (1 / 2)) } (.node "x".toList { str := "~4".toList }))
    (.node "y".toList { str := "~4".toList })

/-- C11: `x` gets the deviation 2, `y` the default 0.4. -/
example : (exec oiBackend env0 progOpts .init {}).2.1.pars.map (·.std) = [.fin 2, .fin (bin64 (2 / 5))] := by decide +kernel

/-- C10, limitation: the same requests can resolve a reference differently when evaluated, because a closer parameter was
registered after the reference (here `x` is `y` = 3 at registration but `a.y` = 7 on the search point at the means). -/
theorem C10_resolution_can_change :
    ∃ (g : Prog) (j : ObjInfo) (vs ws : List Dbl), exec oiBackend env0 g .init {} = (.init, j, .ok vs) ∧
      exec spBackend env0 g .init (SearchPoint.ofInfo j) = (.init, SearchPoint.ofInfo j, .ok ws) ∧
      SearchPoint.WF (SearchPoint.ofInfo j) ∧ vs = [.fin 3, .fin 3, .fin 7] ∧ ws = [.fin 3, .fin 7, .fin 7] := by
  refine ⟨progRef, (exec oiBackend env0 progRef .init {}).2.1, _, _, ?_, ?_, ?_, rfl, rfl⟩
  · decide +kernel
  · decide +kernel
  · unfold SearchPoint.WF; decide +kernel

example : ∃ j vs, exec oiBackend env0 progRef .init {} = (.init, j, .ok vs) ∧ j.dim = 2 :=
  ⟨_, _, (by decide +kernel : exec oiBackend env0 progRef .init {} = (.init,
    { pars := [⟨"y".toList, .fin 3, .fin 1, .fin 0, .fin 10⟩, ⟨"a.y".toList, .fin 7, .fin 1, .fin 0, .fin 10⟩] },
    .ok [.fin 3, .fin 3, .fin 7])), by decide⟩

example : (ObjInfo.add {} ⟨"a".toList, .fin 1, .fin 0, .fin 0, .fin 2⟩).1.locked = [("a".toList, .fin 1)] := by decide +kernel
example : ¬ Known {} "a".toList := by simp [Known]

end Spot
