import Verif.Model.ParTools
import Verif.Props.Registry

/-! # C88: vectors, pairs and arrays of parameters -/

namespace Spot

/-- The name under which a request registers (prefix and aliases applied). -/
def fullName (env : Env) (io : IOState) (o : ParOptions) (q : Str × PNode) : Str := aliased env o (io.prefixText ++ q.1)

/-- `i` with more free parameters. -/
def ObjInfo.plus (i : ObjInfo) (l : List ParInfo) : ObjInfo := { i with pars := i.pars ++ l }

theorem plus_plus (i : ObjInfo) (a b : List ParInfo) : (i.plus a).plus b = i.plus (a ++ b) := by
  simp [ObjInfo.plus]

theorem plus_tryGet (i : ObjInfo) (l : List ParInfo) (n : Str) (h : ∀ p ∈ l, p.name ≠ n) : (i.plus l).tryGet n = i.tryGet n := by
  have hl : l.find? (fun p => decide (p.name = n)) = none := List.find?_eq_none.2 fun p hp => by simpa using h p hp
  unfold ObjInfo.tryGet ObjInfo.find ObjInfo.plus ObjInfo.tryGetLocked
  simp only [List.find?_append, hl, Option.or_none]

theorem plus_add (i : ObjInfo) (l : List ParInfo) (p : ParInfo) (h : ∀ q ∈ l, q.name ≠ p.name) (hc : p.isConstant = false) (hn : i.tryGet p.name = none) :
    (i.plus l).add p = if ObjInfo.badName p.name then (i.plus l, .err) else (i.plus (l ++ [p]), .ok p.mean) := by
  have h1 : (i.plus l).tryGet p.name = none := by rw [plus_tryGet i l _ h, hn]
  have h2 : (i.plus l).find p.name = none := by
    unfold ObjInfo.tryGet at h1
    cases hf : (i.plus l).find p.name with
    | none => rfl
    | some q => rw [hf] at h1; cases h1
  have h3 : (i.plus l).tryGetLocked p.name = none := by
    unfold ObjInfo.tryGet at h1
    rw [h2] at h1
    exact h1
  unfold ObjInfo.add
  simp only [h2, h3, hc, Option.isSome_none, Bool.false_eq_true, if_false]
  split
  · rfl
  · simp [ObjInfo.plus]

/-- Request `q` succeeds on `i`, also if other parameters were registered before: it returns `v` and appends `l`. -/
def Answers (env : Env) (io : IOState) (o : ParOptions) (i : ObjInfo) (q : Str × PNode) (l : List ParInfo) (v : Dbl) : Prop :=
  (∀ p ∈ l, p.name = fullName env io o q) ∧
  ∀ extra : List ParInfo, (∀ p ∈ extra, p.name ≠ fullName env io o q) → getNode oiBackend env io (i.plus extra) q.1 q.2 = (i.plus (extra ++ l), .ok v)

/-- Request `q` fails on `i`, also if other parameters were registered before. -/
def Fails (env : Env) (io : IOState) (o : ParOptions) (i : ObjInfo) (q : Str × PNode) : Prop :=
  ∀ extra : List ParInfo, (∀ p ∈ extra, p.name ≠ fullName env io o q) → ∀ j v, getNode oiBackend env io (i.plus extra) q.1 q.2 ≠ (j, .ok v)

theorem answers_or_fails (env : Env) (io : IOState) (o : ParOptions) (ho : io.opts = .ok o) (i : ObjInfo) (q : Str × PNode) (hr : isRef q.2.str = false) :
    (∃ l v, Answers env io o i q l v) ∨ Fails env io o i q := by
  have hg : ∀ extra : List ParInfo, (∀ p ∈ extra, p.name ≠ fullName env io o q) → getNode oiBackend env io (i.plus extra) q.1 q.2 =
      match i.tryGet (fullName env io o q) with
      | some v => (i.plus extra, .ok v)
      | none => addNew oiBackend env o (i.plus extra) (fullName env io o q) q.2 := by
    intro extra he
    unfold getNode
    rw [ho]
    simp only [oiBackend]
    rw [show aliased env o (io.prefixText ++ q.1) = fullName env io o q from rfl, plus_tryGet i extra _ he, hr]
    cases i.tryGet (fullName env io o q) <;> simp
  cases ht : i.tryGet (fullName env io o q) with
  | some v =>
    refine .inl ⟨[], v, by simp, fun extra he => ?_⟩
    rw [hg extra he, ht, List.append_nil]
  | none =>
    simp only [ht] at hg
    by_cases hq : env.needsQuotes (fullName env io o q) = true
    · refine .inr fun extra he j v => ?_
      rw [hg extra he]
      unfold addNew
      simp [hq]
    · cases hp : ParInfo.parse env.R (fullName env io o q) q.2 o with
      | ok p =>
        have hnm := parse_name hp
        by_cases hc : p.isConstant = true
        · refine .inl ⟨[], p.mean, by simp, fun extra he => ?_⟩
          rw [hg extra he]
          unfold addNew
          simp [hq, hp, hc]
        · have hc' : p.isConstant = false := by simpa using hc
          have hadd : ∀ extra : List ParInfo, (∀ p ∈ extra, p.name ≠ fullName env io o q) → getNode oiBackend env io (i.plus extra) q.1 q.2 =
              if ObjInfo.badName p.name then (i.plus extra, .err) else (i.plus (extra ++ [p]), .ok p.mean) := by
            intro extra he
            rw [hg extra he, ← plus_add i extra p (by rw [hnm]; exact he) hc' (by rw [hnm]; exact ht)]
            unfold addNew
            simp [hq, hp, hc, oiBackend]
          by_cases hb : ObjInfo.badName p.name = true
          · refine .inr fun extra he j v => ?_
            rw [hadd extra he, if_pos hb]
            simp
          · refine .inl ⟨[p], p.mean, by simp [hnm], fun extra he => ?_⟩
            rw [hadd extra he, if_neg hb]
      | err =>
        refine .inr fun extra he j v => ?_
        rw [hg extra he]
        unfold addNew
        simp [hq, hp]
      | ub =>
        refine .inr fun extra he j v => ?_
        rw [hg extra he]
        unfold addNew
        simp [hq, hp]

theorem getSeq_all (env : Env) (io : IOState) (o : ParOptions) (i : ObjInfo) (l : Str × PNode → List ParInfo) (v : Str × PNode → Dbl) :
    ∀ (qs : List (Str × PNode)) (extra : List ParInfo), (∀ q ∈ qs, Answers env io o i q (l q) (v q)) → (qs.map (fullName env io o)).Nodup →
      (∀ q ∈ qs, ∀ p ∈ extra, p.name ≠ fullName env io o q) →
      getSeq oiBackend env io qs (i.plus extra) = (i.plus (extra ++ qs.flatMap l), .ok (qs.map fun q => (q.1, v q)))
  | [], extra, _, _, _ => by simp [getSeq]
  | q :: qs, extra, ha, hn, he => by
    rw [List.map_cons, List.nodup_cons] at hn
    obtain ⟨h1, h2⟩ := ha q (by simp)
    have ih := getSeq_all env io o i l v qs (extra ++ l q) (fun q hq => ha q (by simp [hq])) hn.2 (by
      intro q' hq' p hp
      rcases List.mem_append.1 hp with hp | hp
      · exact he q' (by simp [hq']) p hp
      · rw [h1 p hp]
        intro he'
        exact hn.1 (he' ▸ List.mem_map_of_mem hq'))
    unfold getSeq
    rw [h2 extra (he q (by simp))]
    dsimp only
    rw [ih]
    simp

theorem getSeq_ok_answers (env : Env) (io : IOState) (o : ParOptions) (ho : io.opts = .ok o) (i : ObjInfo) :
    ∀ (qs : List (Str × PNode)) (extra : List ParInfo) (j : ObjInfo) (vs : List (Str × Dbl)), (∀ q ∈ qs, isRef q.2.str = false) → (qs.map (fullName env io o)).Nodup →
      (∀ q ∈ qs, ∀ p ∈ extra, p.name ≠ fullName env io o q) → getSeq oiBackend env io qs (i.plus extra) = (j, .ok vs) →
      ∀ q ∈ qs, ∃ l v, Answers env io o i q l v
  | [], _, _, _, _, _, _, _ => by simp
  | q :: qs, extra, j, vs, hr, hn, he, h => by
    rw [List.map_cons, List.nodup_cons] at hn
    rcases answers_or_fails env io o ho i q (hr q (by simp)) with ⟨l, v, ha⟩ | hf
    · unfold getSeq at h
      rw [ha.2 extra (he q (by simp))] at h
      dsimp only at h
      cases h2 : getSeq oiBackend env io qs (i.plus (extra ++ l)) with
      | mk s r =>
        rw [h2] at h
        cases r with
        | ok ws =>
          have ih := getSeq_ok_answers env io o ho i qs (extra ++ l) s ws (fun q hq => hr q (by simp [hq])) hn.2 (by
            intro q' hq' p hp
            rcases List.mem_append.1 hp with hp | hp
            · exact he q' (by simp [hq']) p hp
            · rw [ha.1 p hp]
              intro he'
              exact hn.1 (he' ▸ List.mem_map_of_mem hq')) h2
          intro q' hq'
          rcases List.mem_cons.1 hq' with rfl | hq'
          · exact ⟨l, v, ha⟩
          · exact ih q' hq'
        | err => simp at h
        | ub => simp at h
    · exfalso
      unfold getSeq at h
      cases h2 : getNode oiBackend env io (i.plus extra) q.1 q.2 with
      | mk s r =>
        rw [h2] at h
        cases r with
        | ok ws => exact hf extra (he q (by simp)) _ _ h2
        | err => simp at h
        | ub => simp at h

/-- **C88.** Requests for different names that are not references to other parameters can be made in any order: if one order succeeds, every other order does, and it returns
the same value for each name, registers the same parameters (in another order) and changes nothing else. -/
theorem C88_any_order (env : Env) (io : IOState) (o : ParOptions) (ho : io.opts = .ok o) (i j : ObjInfo) (qs qs' : List (Str × PNode)) (hp : qs'.Perm qs)
    (hr : ∀ q ∈ qs, isRef q.2.str = false) (hn : (qs.map (fullName env io o)).Nodup) (vs : List (Str × Dbl)) (h : getSeq oiBackend env io qs i = (j, .ok vs)) :
    ∃ j' vs', getSeq oiBackend env io qs' i = (j', .ok vs') ∧ vs'.Perm vs ∧ j'.pars.Perm j.pars ∧ i.pars <+: j'.pars ∧ j' = { j with pars := j'.pars } := by
  have hi : i = i.plus [] := by simp [ObjInfo.plus]
  have ha : ∀ q ∈ qs, ∃ l v, Answers env io o i q l v :=
    getSeq_ok_answers env io o ho i qs [] j vs hr hn (by simp) (by rw [← hi]; exact h)
  have : ∃ l : Str × PNode → List ParInfo, ∃ v : Str × PNode → Dbl, ∀ q ∈ qs, Answers env io o i q (l q) (v q) := by
    classical
    refine ⟨fun q => if hq : q ∈ qs then (ha q hq).choose else [], fun q => if hq : q ∈ qs then (ha q hq).choose_spec.choose else .nan, fun q hq => ?_⟩
    simp only [dif_pos hq]
    exact (ha q hq).choose_spec.choose_spec
  obtain ⟨l, v, ha⟩ := this
  have e1 := getSeq_all env io o i l v qs [] ha hn (by simp)
  have e2 := getSeq_all env io o i l v qs' [] (fun q hq => ha q (hp.mem_iff.1 hq)) ((hp.map _).nodup_iff.2 hn) (by simp)
  rw [← hi] at e1 e2
  rw [h] at e1
  have hj : j = i.plus (qs.flatMap l) := congrArg Prod.fst e1
  have hvs : vs = qs.map fun q => (q.1, v q) := Res.ok.inj (congrArg Prod.snd e1)
  refine ⟨_, _, e2, ?_, ?_, ?_, ?_⟩
  · rw [hvs]; exact hp.map _
  · rw [hj]
    show (i.pars ++ qs'.flatMap l).Perm (i.pars ++ qs.flatMap l)
    exact (hp.flatMap_right l).append_left _
  · exact List.prefix_append _ _
  · rw [hj]; rfl

theorem vec3Requests_nodup (name : Str) (x y z : PNode) (env : Env) (io : IOState) (o : ParOptions) (ha : o.aliases = []) :
    ((vec3Requests name x y z).map (fullName env io o)).Nodup := by
  have h : ∀ q : Str × PNode, fullName env io o q = io.prefixText ++ q.1 := by
    intro q
    simp [fullName, aliased, ha]
  simp only [vec3Requests, List.map_cons, List.map_nil, h, List.nodup_cons, List.mem_cons, List.not_mem_nil, or_false, List.append_cancel_left_eq, not_or,
    not_false_eq_true, List.nodup_nil, and_true]
  decide

theorem valueOf_perm {vs ws : List (Str × Dbl)} (h : vs.Perm ws) (hn : (vs.map Prod.fst).Nodup) (n : Str) : valueOf vs n = valueOf ws n := by
  have key : ∀ {l : List (Str × Dbl)}, (l.map Prod.fst).Nodup → ∀ {v}, l.lookup n = some v ↔ (n, v) ∈ l := by
    intro l
    induction l with
    | nil => simp
    | cons p l ih =>
      intro hn v
      rw [List.map_cons, List.nodup_cons] at hn
      by_cases hp : n = p.1
      · subst hp
        rw [List.lookup_cons_self]
        constructor
        · intro h; cases h; simp
        · intro h
          rcases List.mem_cons.1 h with h | h
          · rw [← h]
          · exact absurd (List.mem_map_of_mem (f := Prod.fst) h) hn.1
      · have : List.lookup n (p :: l) = List.lookup n l := by
          rw [List.lookup_cons, beq_eq_false_iff_ne.2 hp]
        rw [this, ih hn.2]
        constructor
        · intro h; simp [h]
        · intro h
          rcases List.mem_cons.1 h with h | h
          · exact absurd (congrArg Prod.fst h) hp
          · exact h
  unfold valueOf
  have : vs.lookup n = ws.lookup n := by
    apply Option.ext
    intro v
    rw [key hn, key ((h.map _).nodup_iff.1 hn), h.mem_iff]
  rw [this]

theorem getSeq_names {σ : Type} (B : Backend σ) (env : Env) (io : IOState) : ∀ (qs : List (Str × PNode)) (s s' : σ) (vs : List (Str × Dbl)),
    getSeq B env io qs s = (s', .ok vs) → vs.map Prod.fst = qs.map Prod.fst
  | [], s, s', vs, h => by
    have := Res.ok.inj (congrArg Prod.snd h)
    subst this
    rfl
  | q :: qs, s, s', vs, h => by
    unfold getSeq at h
    cases h1 : getNode B env io s q.1 q.2 with
    | mk t r =>
      rw [h1] at h
      cases r with
      | ok v =>
        dsimp only at h
        cases h2 : getSeq B env io qs t with
        | mk u r =>
          rw [h2] at h
          cases r with
          | ok ws =>
            have := Res.ok.inj (congrArg Prod.snd h)
            subst this
            simp [getSeq_names B env io qs t u ws h2]
          | err => simp at h
          | ub => simp at h
      | err => simp at h
      | ub => simp at h

/-- **C88.** Registering a vector whose elements are not references, without aliases: if it succeeds with the order of evaluation one compiler chose, it succeeds with that
of any other, the result is the same vector, and the same parameters are registered, possibly in another order. -/
theorem C88_vec3 (env : Env) (io : IOState) (o : ParOptions) (ho : io.opts = .ok o) (ha : o.aliases = []) (i j j' : ObjInfo) (name : Str) (x y z : PNode)
    (hr : isRef x.str = false ∧ isRef y.str = false ∧ isRef z.str = false) (d v : Dbl × Dbl × Dbl) (r' : Res (Dbl × Dbl × Dbl))
    (h : TryVec3 oiBackend env io name i (some (x, y, z)) d j (.ok v)) (h' : TryVec3 oiBackend env io name i (some (x, y, z)) d j' r') :
    r' = .ok v ∧ j'.pars.Perm j.pars ∧ j' = { j with pars := j'.pars } := by
  have hn := vec3Requests_nodup name x y z env io o ha
  have hrs : ∀ q ∈ vec3Requests name x y z, isRef q.2.str = false := by
    intro q hq
    simp only [vec3Requests, List.mem_cons, List.not_mem_nil, or_false] at hq
    rcases hq with rfl | rfl | rfl
    exacts [hr.1, hr.2.1, hr.2.2]
  generalize hc : some (x, y, z) = child at h h'
  generalize hv : (Res.ok v : Res (Dbl × Dbl × Dbl)) = r at h
  cases h with
  | absent => cases hc
  | err => cases hv
  | ub => cases hv
  | @ok x1 y1 z1 _ order _ vs hp hs =>
    obtain ⟨rfl, rfl, rfl⟩ : x = x1 ∧ y = y1 ∧ z = z1 := by
      have := Option.some.inj hc
      simpa using this
    have hany : ∀ {order' : List (Str × PNode)}, order'.Perm (vec3Requests name x y z) →
        ∃ j' vs', getSeq oiBackend env io order' i = (j', .ok vs') ∧ vs'.Perm vs ∧ j'.pars.Perm j.pars ∧ i.pars <+: j'.pars ∧ j' = { j with pars := j'.pars } := by
      intro order' h2
      exact C88_any_order env io o ho i j order order' (h2.trans hp.symm) (fun q hq => hrs q (hp.mem_iff.1 hq)) ((hp.map _).nodup_iff.2 hn) vs hs
    have hnm : (vs.map Prod.fst).Nodup := by
      rw [getSeq_names oiBackend env io order i j vs hs, (hp.map Prod.fst).nodup_iff]
      have : ((vec3Requests name x y z).map Prod.fst).map (fun n => aliased env o (io.prefixText ++ n)) = (vec3Requests name x y z).map (fullName env io o) := by
        simp [fullName]
      rw [← this] at hn
      exact hn.of_map _
    cases h' with
    | @ok _ _ _ _ _ _ vs' hp' hs' =>
      obtain ⟨j2, vs2, g1, g2, g3, -, g5⟩ := hany hp'
      rw [hs'] at g1
      have e1 := congrArg Prod.fst g1
      have e2 := Res.ok.inj (congrArg Prod.snd g1)
      dsimp only at e1 e2
      subst e1 e2
      refine ⟨?_, g3, g5⟩
      simp only [valueOf_perm g2.symm hnm]
    | err hp' hs' =>
      obtain ⟨j2, vs2, g1, -⟩ := hany hp'
      rw [hs'] at g1
      simp at g1
    | ub hp' hs' =>
      obtain ⟨j2, vs2, g1, -⟩ := hany hp'
      rw [hs'] at g1
      simp at g1

theorem getSeq_extends (env : Env) (io : IOState) : ∀ (qs : List (Str × PNode)) (i : ObjInfo), Extends i (getSeq oiBackend env io qs i).1
  | [], i => .refl i
  | q :: qs, i => by
    have h1 : Extends i (getNode oiBackend env io i q.1 q.2).1 := by
      have := exec_inv oiBackend env (Extends i) (fun s p hs => hs.trans (extends_add s p)) (.node q.1 q.2) io i (.refl i)
      simpa [exec, one] using this
    unfold getSeq
    cases h : getNode oiBackend env io i q.1 q.2 with
    | mk t r =>
      rw [h] at h1
      cases r with
      | ok v =>
        have h2 := getSeq_extends env io qs t
        dsimp only
        cases h3 : getSeq oiBackend env io qs t with
        | mk u r =>
          rw [h3] at h2
          cases r <;> exact h1.trans h2
      | err => exact h1
      | ub => exact h1

theorem getSeq_sp_each (env : Env) (io : IOState) : ∀ (qs : List (Str × PNode)) (i j : ObjInfo) (vs : List (Str × Dbl)),
    getSeq oiBackend env io qs i = (j, .ok vs) → ∀ (s : SearchPoint), s.WF → (∀ n, Known j n → Known s.info n) → ∀ q ∈ qs, ∃ w, getNode spBackend env io s q.1 q.2 = (s, .ok w)
  | [], _, _, _, _, _, _, _ => by simp
  | q :: qs, i, j, vs, h, s, hs, hk => by
    unfold getSeq at h
    cases h1 : getNode oiBackend env io i q.1 q.2 with
    | mk t r =>
      rw [h1] at h
      cases r with
      | ok v =>
        dsimp only at h
        have he := getSeq_extends env io qs t
        cases h2 : getSeq oiBackend env io qs t with
        | mk u r =>
          rw [h2] at h he
          cases r with
          | ok ws =>
            have hu : u = j := congrArg Prod.fst h
            subst hu
            intro q' hq'
            rcases List.mem_cons.1 hq' with rfl | hq'
            · exact getNode_sp_ok h1 hs fun n hn => hk n (hn.mono he)
            · exact getSeq_sp_each env io qs t u ws h2 s hs hk q' hq'
          | err => simp at h
          | ub => simp at h
      | err => simp at h
      | ub => simp at h

theorem getSeq_fixed {σ : Type} (B : Backend σ) (env : Env) (io : IOState) (s : σ) (w : Str × PNode → Dbl) : ∀ qs : List (Str × PNode),
    (∀ q ∈ qs, getNode B env io s q.1 q.2 = (s, .ok (w q))) → getSeq B env io qs s = (s, .ok (qs.map fun q => (q.1, w q)))
  | [], _ => rfl
  | q :: qs, h => by
    unfold getSeq
    rw [h q (by simp)]
    dsimp only
    rw [getSeq_fixed B env io s w qs fun q hq => h q (by simp [hq])]
    rfl

/-- **C88.** Once a vector was registered, with whatever order of evaluation, requesting it from a search point that knows the registered names succeeds, with every order, and each
order returns the same vector without changing the point. This includes elements that are references. -/
theorem C88_vec3_evaluate (env : Env) (io : IOState) (i j : ObjInfo) (name : Str) (x y z : PNode) (d v : Dbl × Dbl × Dbl)
    (h : TryVec3 oiBackend env io name i (some (x, y, z)) d j (.ok v)) (s : SearchPoint) (hs : s.WF) (hk : ∀ n, Known j n → Known s.info n) :
    ∃ w, ∀ d' s' r', TryVec3 spBackend env io name s (some (x, y, z)) d' s' r' → s' = s ∧ r' = .ok w := by
  generalize hc : some (x, y, z) = child at h
  generalize hv : (Res.ok v : Res (Dbl × Dbl × Dbl)) = r at h
  cases h with
  | absent => cases hc
  | err => cases hv
  | ub => cases hv
  | @ok x1 y1 z1 _ order _ vs hp hg =>
    obtain ⟨rfl, rfl, rfl⟩ : x = x1 ∧ y = y1 ∧ z = z1 := by
      have := Option.some.inj hc
      simpa using this
    have each := getSeq_sp_each env io order i j vs hg s hs hk
    have : ∃ w : Str × PNode → Dbl, ∀ q ∈ order, getNode spBackend env io s q.1 q.2 = (s, .ok (w q)) := by
      classical
      refine ⟨fun q => if hq : q ∈ order then (each q hq).choose else .nan, fun q hq => ?_⟩
      simp only [dif_pos hq]
      exact (each q hq).choose_spec
    obtain ⟨w, hw⟩ := this
    have hall : ∀ {order' : List (Str × PNode)}, order'.Perm (vec3Requests name x y z) →
        getSeq spBackend env io order' s = (s, .ok (order'.map fun q => (q.1, w q))) := fun ho =>
      getSeq_fixed spBackend env io s w _ fun q hq => hw q (hp.mem_iff.2 (ho.mem_iff.1 hq))
    have hnd : ((vec3Requests name x y z).map Prod.fst).Nodup := by
      simp only [vec3Requests, List.map_cons, List.map_nil, List.nodup_cons, List.mem_cons, List.not_mem_nil, or_false, List.append_cancel_left_eq, not_or,
        not_false_eq_true, List.nodup_nil, and_true]
      decide
    refine ⟨(w (name ++ ".x".toList, x), w (name ++ ".y".toList, y), w (name ++ ".z".toList, z)), ?_⟩
    intro d' s' r' h'
    generalize hc : some (x, y, z) = child at h'
    cases h' with
    | absent => cases hc
    | @ok x1 y1 z1 _ order' _ vs' hp' hg' =>
      obtain ⟨rfl, rfl, rfl⟩ : x = x1 ∧ y = y1 ∧ z = z1 := by
        have := Option.some.inj hc
        simpa using this
      rw [hall hp'] at hg'
      have e1 : s = s' := congrArg Prod.fst hg'
      have e2 : (order'.map fun q => (q.1, w q)) = vs' := Res.ok.inj (congrArg Prod.snd hg')
      refine ⟨e1.symm, ?_⟩
      have hval : ∀ q ∈ vec3Requests name x y z, valueOf vs' q.1 = w q := by
        intro q hq
        rw [← e2]
        rw [valueOf_perm (hp'.map _) (by simpa [Function.comp_def] using (hp'.map Prod.fst).nodup_iff.2 hnd)]
        simp only [vec3Requests, List.mem_cons, List.not_mem_nil, or_false] at hq
        simp only [vec3Requests, List.map_cons, List.map_nil, valueOf, List.lookup_cons]
        have c1 : ∀ a b : Str, a ≠ b → (name ++ a == name ++ b) = false := fun a b h => beq_eq_false_iff_ne.2 fun he => h (List.append_cancel_left he)
        rcases hq with rfl | rfl | rfl
        · simp
        · simp only [c1 ".y".toList ".x".toList (by decide), beq_self_eq_true, Option.getD_some]
        · simp only [c1 ".z".toList ".x".toList (by decide), c1 ".z".toList ".y".toList (by decide), beq_self_eq_true, Option.getD_some]
      rw [hval (name ++ ".x".toList, x) (by simp [vec3Requests]), hval (name ++ ".y".toList, y) (by simp [vec3Requests]), hval (name ++ ".z".toList, z) (by simp [vec3Requests])]
    | @err x1 y1 z1 _ order' _ hp' hg' =>
      obtain ⟨rfl, rfl, rfl⟩ : x = x1 ∧ y = y1 ∧ z = z1 := by
        have := Option.some.inj hc
        simpa using this
      rw [hall hp'] at hg'
      simp at hg'
    | @ub x1 y1 z1 _ order' _ hp' hg' =>
      obtain ⟨rfl, rfl, rfl⟩ : x = x1 ∧ y = y1 ∧ z = z1 := by
        have := Option.some.inj hc
        simpa using this
      rw [hall hp'] at hg'
      simp at hg'

/-- **C88 (finding).** If an element refers to another one, registration depends on the order of evaluation: evaluated from left to right `x` is not known yet and the call throws, from right to left
it returns (2, 1, 2). And if no element is a reference, the order of the registered parameters still differs, so that a search point made of the same values means something else. -/
theorem C88_order_matters :
    (∃ x y z : PNode, TryVec3 oiBackend env0 .init "v".toList {} (some (x, y, z)) (.fin 0, .fin 0, .fin 0) {} .err ∧
      ∃ j, TryVec3 oiBackend env0 .init "v".toList {} (some (x, y, z)) (.fin 0, .fin 0, .fin 0) j (.ok (.fin 2, .fin 1, .fin 2))) ∧
    ∃ x y z : PNode, ∃ j j' v, TryVec3 oiBackend env0 .init "v".toList {} (some (x, y, z)) (.fin 0, .fin 0, .fin 0) j (.ok v) ∧
      TryVec3 oiBackend env0 .init "v".toList {} (some (x, y, z)) (.fin 0, .fin 0, .fin 0) j' (.ok v) ∧
      j.pars.map ParInfo.name = ["v.x".toList, "v.y".toList, "v.z".toList] ∧ j'.pars.map ParInfo.name = ["v.z".toList, "v.y".toList, "v.x".toList] := by
  have hrev : ∀ x y z : PNode, (vec3Requests "v".toList x y z).reverse.Perm (vec3Requests "v".toList x y z) := fun _ _ _ => List.reverse_perm _
  refine ⟨⟨{ str := "v.z".toList }, { str := "1~1[0,3]".toList }, { str := "2~1[0,3]".toList }, ?_, ?_⟩,
    { str := "1~1[0,3]".toList }, { str := "1~1[0,3]".toList }, { str := "2~1[0,3]".toList }, ?_⟩
  · refine .err (.refl _) ?_
    decide +kernel
  · refine ⟨(getSeq oiBackend env0 .init (vec3Requests "v".toList { str := "v.z".toList } { str := "1~1[0,3]".toList } { str := "2~1[0,3]".toList }).reverse {}).1, ?_⟩
    refine .ok (vs := [("v.z".toList, .fin 2), ("v.y".toList, .fin 1), ("v.x".toList, .fin 2)]) (hrev _ _ _) ?_
    decide +kernel
  · refine ⟨(getSeq oiBackend env0 .init (vec3Requests "v".toList { str := "1~1[0,3]".toList } { str := "1~1[0,3]".toList } { str := "2~1[0,3]".toList }) {}).1,
      (getSeq oiBackend env0 .init (vec3Requests "v".toList { str := "1~1[0,3]".toList } { str := "1~1[0,3]".toList } { str := "2~1[0,3]".toList }).reverse {}).1,
      (.fin 1, .fin 1, .fin 2), ?_, ?_, ?_, ?_⟩
    · refine .ok (vs := [("v.x".toList, .fin 1), ("v.y".toList, .fin 1), ("v.z".toList, .fin 2)]) (.refl _) ?_
      decide +kernel
    · refine .ok (vs := [("v.z".toList, .fin 2), ("v.y".toList, .fin 1), ("v.x".toList, .fin 1)]) (hrev _ _ _) ?_
      decide +kernel
    · decide +kernel
    · decide +kernel

/-! ## Pairs and arrays -/

/-- **C88.** A pair: without the child the default and nothing is registered; with fewer than two values an exception and nothing is registered; otherwise the first two values are
requested as `name.0` and `name.1` in this order (and any further ones are ignored). -/
theorem C88_pair {σ : Type} (B : Backend σ) (env : Env) (io : IOState) (s : σ) (name : Str) (d : Dbl × Dbl) :
    tryPair B env io s name none d = (s, .ok d) ∧
    (∀ l : List PNode, l.length < 2 → tryPair B env io s name (some l) d = (s, .err)) ∧
    (∀ a b rest s' v w, exec B env (.seq (.node (name ++ ".0".toList) a) (.node (name ++ ".1".toList) b)) io s = (io, s', .ok [v, w]) ↔
      tryPair B env io s name (some (a :: b :: rest)) d = (s', .ok (v, w))) := by
  refine ⟨rfl, ?_, ?_⟩
  · intro l hl
    match l with
    | [] => rfl
    | [a] => rfl
    | a :: b :: l => simp at hl; omega
  · intro a b rest s' v w
    unfold tryPair
    simp only [exec, one]
    cases h1 : getNode B env io s (name ++ ".0".toList) a with
    | mk t r =>
      cases r with
      | ok x =>
        simp only [Res.ok_bind]
        cases h2 : getNode B env io t (name ++ ".1".toList) b with
        | mk u r =>
          cases r with
          | ok y => simp
          | err => simp
          | ub => simp
      | err => simp
      | ub => simp

/-- The requests of an array, element by element. -/
def arrayProg (name : Str) (child query : Str → Option PNode) : Nat → List Dbl → Prog
  | _, [] => .skip
  | i, d :: ds => .seq (.tryNode (elementName name i) ((child (elementName name i)).or (query (elementName name i))) d) (arrayProg name child query (i + 1) ds)

theorem tryGetPar_eq {σ : Type} (B : Backend σ) (env : Env) (io : IOState) (s : σ) (name : Str) (child query : Option PNode) (d : Dbl) :
    tryGetPar B env io s name child query d = tryGetNode B env io s name (child.or query) d := by
  cases child <;> cases query <;> rfl

theorem tryArrayLoop_exec {σ : Type} (B : Backend σ) (env : Env) (io : IOState) (name : Str) (child query : Str → Option PNode) : ∀ (ds : List Dbl) (i : Nat) (s : σ),
    exec B env (arrayProg name child query i ds) io s = (io, tryArrayLoop B env io name child query i ds s)
  | [], i, s => rfl
  | d :: ds, i, s => by
    unfold arrayProg tryArrayLoop
    rw [tryGetPar_eq]
    simp only [exec, one]
    cases h1 : tryGetNode B env io s (elementName name i) ((child (elementName name i)).or (query (elementName name i))) d with
    | mk t r =>
      cases r with
      | ok x =>
        simp only [Res.ok_bind]
        rw [tryArrayLoop_exec B env io name child query ds (i + 1) t]
        cases h2 : tryArrayLoop B env io name child query (i + 1) ds t with
        | mk u r => cases r <;> rfl
      | err => rfl
      | ub => rfl

theorem tryArrayLoop_spec {σ : Type} (B : Backend σ) (env : Env) (io : IOState) (name : Str) (child query : Str → Option PNode) : ∀ (ds : List Dbl) (i : Nat) (s s' : σ) (vs : List Dbl),
    tryArrayLoop B env io name child query i ds s = (s', .ok vs) → vs.length = ds.length ∧
      ∀ k d, ds[k]? = some d → child (elementName name (i + k)) = none → query (elementName name (i + k)) = none → vs[k]? = some d
  | [], i, s, s', vs, h => by
    have := Res.ok.inj (congrArg Prod.snd h)
    subst this
    simp
  | d :: ds, i, s, s', vs, h => by
    unfold tryArrayLoop at h
    cases h1 : tryGetPar B env io s (elementName name i) (child (elementName name i)) (query (elementName name i)) d with
    | mk t r =>
      rw [h1] at h
      cases r with
      | ok x =>
        dsimp only at h
        cases h2 : tryArrayLoop B env io name child query (i + 1) ds t with
        | mk u r =>
          rw [h2] at h
          cases r with
          | ok ws =>
            obtain ⟨g1, g2⟩ := tryArrayLoop_spec B env io name child query ds (i + 1) t u ws h2
            have := Res.ok.inj (congrArg Prod.snd h)
            subst this
            refine ⟨by simp [g1], fun k d' hd hc hq => ?_⟩
            cases k with
            | zero =>
              simp only [List.getElem?_cons_zero, Option.some.injEq] at hd ⊢
              simp only [Nat.add_zero] at hc hq
              rw [hc, hq] at h1
              have := Res.ok.inj (congrArg Prod.snd h1)
              rw [← this, hd]
            | succ k =>
              simp only [List.getElem?_cons_succ] at hd ⊢
              have e : i + 1 + k = i + (k + 1) := by omega
              exact g2 k d' hd (by rw [e]; exact hc) (by rw [e]; exact hq)
          | err => simp at h
          | ub => simp at h
      | err => simp at h
      | ub => simp at h

/-- **C88.** An array has as many elements as its default; elements that are not in the node keep the default. If it was registered with an objective info, requesting it from a search
point that knows the registered names succeeds without changing the point and gives an array of the same size, with the same default elements. -/
theorem C88_array (env : Env) (io : IOState) (i j : ObjInfo) (name : Str) (child query : Str → Option PNode) (ds vs : List Dbl)
    (h : tryArray oiBackend env io i name child query ds = (j, .ok vs)) (s : SearchPoint) (hs : s.WF) (hk : ∀ n, Known j n → Known s.info n) :
    vs.length = ds.length ∧ (∀ (k : Nat) d, ds[k]? = some d → child (name ++ '.' :: (toString k).toList) = none → query (name ++ '.' :: (toString k).toList) = none → vs[k]? = some d) ∧
    ∃ ws, tryArray spBackend env io s name child query ds = (s, .ok ws) ∧ ws.length = ds.length ∧
      ∀ (k : Nat) d, ds[k]? = some d → child (name ++ '.' :: (toString k).toList) = none → query (name ++ '.' :: (toString k).toList) = none → ws[k]? = some d := by
  obtain ⟨h1, h2⟩ := tryArrayLoop_spec oiBackend env io name child query ds 0 i j vs h
  refine ⟨h1, fun k d => by simpa [elementName] using h2 k d, ?_⟩
  have he := tryArrayLoop_exec oiBackend env io name child query ds 0 i
  rw [show tryArrayLoop oiBackend env io name child query 0 ds i = (j, .ok vs) from h] at he
  obtain ⟨ws, hw, -⟩ := C08_register_then_evaluate env _ io i j vs he s hs hk
  rw [tryArrayLoop_exec] at hw
  have hw : tryArrayLoop spBackend env io name child query 0 ds s = (s, .ok ws) := congrArg Prod.snd hw
  obtain ⟨g1, g2⟩ := tryArrayLoop_spec spBackend env io name child query ds 0 s s ws hw
  exact ⟨ws, hw, g1, fun k d => by simpa [elementName] using g2 k d⟩

/-- **C88 (finding).** Aliases replace parts of the names that come with a node, but not of those that are registered with the default mean, std and bounds: whether `try_get_par` finds the name
in the node decides under which name the parameter is registered. -/
theorem C88_alias_only_for_nodes : ∃ (env : Env) (io : IOState) (pn : PNode) (j j' : ObjInfo), env.replace "a".toList "a".toList "b".toList = "b".toList ∧
    tryGetParNum oiBackend env io {} "a".toList (some pn) none (.fin 1) (.fin 1) (.fin 0) (.fin 3) = (j, .ok (.fin 1)) ∧
    tryGetParNum oiBackend env io {} "a".toList none none (.fin 1) (.fin 1) (.fin 0) (.fin 3) = (j', .ok (.fin 1)) ∧
    j.pars.map ParInfo.name = ["b".toList] ∧ j'.pars.map ParInfo.name = ["a".toList] := by
  refine ⟨⟨strtodReader, fun t a b => if t = a then b else t, fun _ => false⟩, ⟨[], [{ ParOptions.default with aliases := [("a".toList, "b".toList)] }]⟩, { str := "1~1[0,3]".toList },
    { pars := [⟨"b".toList, .fin 1, .fin 1, .fin 0, .fin 3⟩] }, { pars := [⟨"a".toList, .fin 1, .fin 1, .fin 0, .fin 3⟩] }, ?_, ?_, ?_, ?_, ?_⟩ <;> decide +kernel

/-- **C88.** With neither child nor query, `try_get_par` with mean, std and bounds registers the parameter of that name (prefix applied), unless it is known. -/
theorem C88_default_registers (env : Env) (io : IOState) (i : ObjInfo) (name : Str) (mean std lower upper : Dbl) (j : ObjInfo) (v : Dbl)
    (h : tryGetParNum oiBackend env io i name none none mean std lower upper = (j, .ok v)) :
    Known j (io.prefixText ++ name) ∧ (¬ Known i (io.prefixText ++ name) → v = mean) := by
  unfold tryGetParNum getNum at h
  dsimp only [oiBackend] at h
  cases ht : i.tryGet (io.prefixText ++ name) with
  | some w =>
    rw [ht] at h
    have : i = j := congrArg Prod.fst h
    subst this
    have hk : Known i (io.prefixText ++ name) := by
      by_contra hc
      rw [(ObjInfo.tryGet_none i _).2 hc] at ht
      cases ht
    exact ⟨hk, fun hn => absurd hk hn⟩
  | none =>
    rw [ht] at h
    dsimp only at h
    cases hm : ParInfo.make (io.prefixText ++ name) mean std lower upper with
    | ok p =>
      rw [hm] at h
      have hp : p.name = io.prefixText ++ name ∧ p.mean = mean := by
        unfold ParInfo.make at hm
        dsimp only at hm
        split at hm
        · cases hm; exact ⟨rfl, rfl⟩
        · cases hm
      have hka := known_add h
      rw [hp.1] at hka
      refine ⟨hka, fun _ => ?_⟩
      have h' : i.add p = (j, .ok v) := h
      unfold ObjInfo.add at h'
      split at h'
      · simp at h'
      · split at h'
        · simp at h'
        · split at h'
          · simp at h'
          · split at h' <;> (rw [← Res.ok.inj (congrArg Prod.snd h')]; exact hp.2)
    | err => rw [hm] at h; simp at h
    | ub => rw [hm] at h; simp at h

/-- A vector with two free elements and a constant: the hypotheses of `C88_vec3` are met, and the search point at the means returns it. -/
example : ∃ j, TryVec3 oiBackend env0 .init "v".toList {} (some ({ str := "1~1[0,3]".toList }, { str := "2".toList }, { str := "2~1[0,3]".toList })) (.fin 0, .fin 0, .fin 0) j
      (.ok (.fin 1, .fin 2, .fin 2)) ∧ j.dim = 2 ∧ isRef "1~1[0,3]".toList = false ∧ isRef "2".toList = false := by
  refine ⟨{ pars := [⟨"v.x".toList, .fin 1, .fin 1, .fin 0, .fin 3⟩, ⟨"v.z".toList, .fin 2, .fin 1, .fin 0, .fin 3⟩] },
    .ok (vs := [("v.x".toList, .fin 1), ("v.y".toList, .fin 2), ("v.z".toList, .fin 2)]) (.refl _) ?_, rfl, by decide, by decide⟩
  decide +kernel

/-- An array with two elements of which the node has only the second. -/
example : (tryArray oiBackend env0 .init {} "a".toList (fun n => if n = "a.1".toList then some { str := "1~1[0,3]".toList } else none) (fun _ => none) [.fin 7, .fin 8]).2 = .ok [.fin 7, .fin 1] := by
  decide +kernel

/-- A pair of free parameters. -/
example : (tryPair oiBackend env0 .init {} "p".toList (some [{ str := "1~1[0,3]".toList }, { str := "2~1[0,3]".toList }]) (.fin 0, .fin 0)).2 = .ok (.fin 1, .fin 2) := by
  decide +kernel

end Spot
