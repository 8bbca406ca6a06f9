import Verif.Props.Points
import Verif.Props.Files

/-! # C96: a model that runs on a static_par_set -/

namespace Spot
open Notation ObjInfo

/-! ## Runs of the same requests on two sources of parameters -/

section sim
variable {σ τ : Type} {B : Backend σ} {C : Backend τ} {env : Env} {Rel : σ → τ → Prop}

theorem refLoop_sim {tg tg' : Str → Res (Option Dbl)} (h : ∀ n r, tg n = .ok r → tg' n = .ok r) (ref : Str) :
    ∀ (ps : List Str) (r : Option Dbl), refLoop tg ref ps = .ok r → refLoop tg' ref ps = .ok r
  | [], _, e => e
  | p :: ps, r, e => by
    simp only [refLoop] at e ⊢
    cases ht : tg (segText (p :: ps) ++ ref) with
    | ok x =>
      rw [ht] at e; rw [h _ _ ht]
      cases x with
      | some v => exact e
      | none => exact refLoop_sim h ref ps r e
    | err => rw [ht] at e; cases e
    | ub => rw [ht] at e; cases e

theorem getRef_sim {tg tg' : Str → Res (Option Dbl)} (h : ∀ n r, tg n = .ok r → tg' n = .ok r) {io : IOState} {ref : Str} {v : Dbl}
    (e : getRef tg io ref = .ok v) : getRef tg' io ref = .ok v := by
  unfold getRef at e ⊢
  have last : ∀ {v}, (tg ref >>= fun r => match r with | some v => Res.ok v | none => .err) = .ok v →
      (tg' ref >>= fun r => match r with | some v => Res.ok v | none => .err) = .ok v := by
    intro v e
    cases ht : tg ref with
    | ok x => rw [ht] at e; rw [h _ _ ht]; exact e
    | err => rw [ht] at e; cases e
    | ub => rw [ht] at e; cases e
  split at e
  · rename_i hp
    rw [if_pos hp]
    exact last e
  · rename_i hp
    rw [if_neg hp]
    cases hl : refLoop tg ref io.prefixes with
    | ok x =>
      rw [hl] at e; rw [refLoop_sim h ref _ _ hl]
      cases x with
      | some v => exact e
      | none => exact last e
    | err => rw [hl] at e; cases e
    | ub => rw [hl] at e; cases e

theorem getNode_sim (hT : ∀ s t, Rel s t → ∀ n r, B.tryGet s n = .ok r → C.tryGet t n = .ok r)
    (hA : ∀ s t p s' v, Rel s t → B.add s p = (s', .ok v) → ∃ t', C.add t p = (t', .ok v) ∧ Rel s' t')
    {io : IOState} {s s' : σ} {t : τ} {n : Str} {pn : PNode} {v : Dbl} (hr : Rel s t) (h : getNode B env io s n pn = (s', .ok v)) :
    ∃ t', getNode C env io t n pn = (t', .ok v) ∧ Rel s' t' := by
  unfold getNode at h ⊢
  cases ho : io.opts with
  | err => rw [ho] at h; simp at h
  | ub => rw [ho] at h; simp at h
  | ok o =>
    rw [ho] at h
    simp only at h ⊢
    cases ht : B.tryGet s (aliased env o (io.prefixText ++ n)) with
    | err => rw [ht] at h; simp at h
    | ub => rw [ht] at h; simp at h
    | ok x =>
      rw [ht] at h; rw [hT s t hr _ _ ht]
      cases x with
      | some w => simp only [Prod.mk.injEq] at h ⊢; exact ⟨t, ⟨rfl, h.2⟩, h.1 ▸ hr⟩
      | none =>
        simp only at h ⊢
        split at h
        · rename_i hi
          simp only [Prod.mk.injEq] at h
          exact ⟨t, by rw [if_pos hi, getRef_sim (hT s t hr) h.2], h.1 ▸ hr⟩
        · rename_i hi
          rw [if_neg hi]
          unfold addNew at h ⊢
          split at h
          · simp at h
          · rename_i hq
            rw [if_neg hq]
            cases hp : ParInfo.parse env.R (aliased env o (io.prefixText ++ n)) pn o with
            | ok p =>
              rw [hp] at h
              simp only at h ⊢
              split at h
              · rename_i hc
                rw [if_pos hc]; simp only [Prod.mk.injEq] at h ⊢; exact ⟨t, ⟨rfl, h.2⟩, h.1 ▸ hr⟩
              · rename_i hc
                rw [if_neg hc]; exact hA _ _ _ _ _ hr h
            | err => rw [hp] at h; simp at h
            | ub => rw [hp] at h; simp at h

theorem getNum_sim (hT : ∀ s t, Rel s t → ∀ n r, B.tryGet s n = .ok r → C.tryGet t n = .ok r)
    (hA : ∀ s t p s' v, Rel s t → B.add s p = (s', .ok v) → ∃ t', C.add t p = (t', .ok v) ∧ Rel s' t')
    {io : IOState} {s s' : σ} {t : τ} {n : Str} {m d l u v : Dbl} (hr : Rel s t) (h : getNum B io s n m d l u = (s', .ok v)) :
    ∃ t', getNum C io t n m d l u = (t', .ok v) ∧ Rel s' t' := by
  unfold getNum at h ⊢
  simp only at h ⊢
  cases ht : B.tryGet s (io.prefixText ++ n) with
  | err => rw [ht] at h; simp at h
  | ub => rw [ht] at h; simp at h
  | ok x =>
    rw [ht] at h; rw [hT s t hr _ _ ht]
    cases x with
    | some w => simp only [Prod.mk.injEq] at h ⊢; exact ⟨t, ⟨rfl, h.2⟩, h.1 ▸ hr⟩
    | none =>
      simp only at h ⊢
      cases hp : ParInfo.make (io.prefixText ++ n) m d l u with
      | ok p => rw [hp] at h; exact hA _ _ _ _ _ hr h
      | err => rw [hp] at h; simp at h
      | ub => rw [hp] at h; simp at h

theorem one_sim {x : σ × Res Dbl} {y : τ → τ × Res Dbl} {t : τ} {vs : List Dbl} (h : (one x).2 = .ok vs)
    (hs : ∀ s' v, x = (s', .ok v) → ∃ t', y t = (t', .ok v) ∧ Rel s' t') : ∃ t', one (y t) = (t', .ok vs) ∧ Rel (one x).1 t' := by
  obtain ⟨s', r⟩ := x
  cases r with
  | ok v =>
    obtain ⟨t', e, hr⟩ := hs s' v rfl
    exact ⟨t', by rw [e]; simp only [one] at h ⊢; rw [h], hr⟩
  | err => cases h
  | ub => cases h

/-- If a second source answers like the first, a run that succeeds on the first succeeds on the second with the same values. -/
theorem exec_sim (hT : ∀ s t, Rel s t → ∀ n r, B.tryGet s n = .ok r → C.tryGet t n = .ok r)
    (hA : ∀ s t p s' v, Rel s t → B.add s p = (s', .ok v) → ∃ t', C.add t p = (t', .ok v) ∧ Rel s' t') (g : Prog) :
    ∀ (io : IOState) (s : σ) (t : τ) (vs : List Dbl), Rel s t → (exec B env g io s).2.2 = .ok vs →
      ∃ t', exec C env g io t = (io, t', .ok vs) ∧ Rel (exec B env g io s).2.1 t' := by
  induction g with
  | skip => intro io s t vs hr h; exact ⟨t, by rw [← h]; rfl, hr⟩
  | seq a b iha ihb =>
    intro io s t vs hr h
    simp only [exec] at h ⊢
    have hio := exec_io B env a io s
    rcases hx : exec B env a io s with ⟨io1, s1, r1⟩
    rw [hx] at h hio
    simp only at hio; subst hio
    cases r1 with
    | err => simp at h
    | ub => simp at h
    | ok vs1 =>
      simp only at h ⊢
      have hio2 := exec_io B env b io1 s1
      obtain ⟨t1, e1, hr1⟩ := iha io1 s t vs1 hr (by rw [hx])
      rw [hx] at hr1
      rcases hy : exec B env b io1 s1 with ⟨io2, s2, r2⟩
      rw [hy] at h hio2
      simp only at hio2; subst hio2
      cases r2 with
      | err => simp at h
      | ub => simp at h
      | ok vs2 =>
        obtain ⟨t2, e2, hr2⟩ := ihb io2 s1 t1 vs2 hr1 (by rw [hy])
        rw [hy] at hr2
        refine ⟨t2, ?_, hr2⟩
        rw [e1]; simp only; rw [e2]; simp only at h ⊢; rw [h]
  | num n m d l u =>
    intro io s t vs hr h
    obtain ⟨t', e, hr'⟩ := one_sim (y := fun t => getNum C io t n m d l u) h (fun s' v e => getNum_sim hT hA hr e)
    exact ⟨t', by rw [exec, e], hr'⟩
  | node n pn =>
    intro io s t vs hr h
    obtain ⟨t', e, hr'⟩ := one_sim (y := fun t => getNode C env io t n pn) h (fun s' v e => getNode_sim hT hA hr e)
    exact ⟨t', by rw [exec, e], hr'⟩
  | tryNode n c d =>
    intro io s t vs hr h
    cases c with
    | none => exact ⟨t, by rw [← h]; rfl, hr⟩
    | some pn =>
      obtain ⟨t', e, hr'⟩ := one_sim (y := fun t => getNode C env io t n pn) h (fun s' v e => getNode_sim hT hA hr e)
      exact ⟨t', by rw [exec, tryGetNode, e], hr'⟩
  | scope p dot b ih =>
    intro io s t vs hr h
    simp only [exec] at h ⊢
    have hio := exec_io B env b { io with prefixes := scopeSeg p dot :: io.prefixes } s
    obtain ih := ih { io with prefixes := scopeSeg p dot :: io.prefixes } s t
    rcases hx : exec B env b { io with prefixes := scopeSeg p dot :: io.prefixes } s with ⟨io1, s1, r1⟩
    rw [hx] at h hio ih
    simp only at hio; subst hio
    simp only at h ih ⊢
    obtain ⟨t', e, hr'⟩ := ih vs hr h
    exact ⟨t', by rw [e], hr'⟩
  | opts ov b ih =>
    intro io s t vs hr h
    simp only [exec] at h ⊢
    rcases io with ⟨pre, os⟩
    cases os with
    | nil => simp at h
    | cons o os =>
      simp only at h ⊢
      have hio := exec_io B env b { prefixes := pre, options := ov.apply o :: o :: os } s
      obtain ih := ih { prefixes := pre, options := ov.apply o :: o :: os } s t
      rcases hx : exec B env b { prefixes := pre, options := ov.apply o :: o :: os } s with ⟨io1, s1, r1⟩
      rw [hx] at h hio ih
      simp only at hio; subst hio
      simp only at h ih ⊢
      obtain ⟨t', e, hr'⟩ := ih vs hr h
      exact ⟨t', by rw [e], hr'⟩

end sim

theorem tryGet_add_other {i j : ObjInfo} {p : ParInfo} {v : Dbl} (h : i.add p = (j, .ok v)) {n : Str} (hn : n ≠ p.name) : j.tryGet n = i.tryGet n := by
  rcases add_cases i p with ⟨e, _⟩ | ⟨e, hk, _⟩ | ⟨e, hk, _⟩
  · rw [e] at h; simp at h
  · rw [e] at h; simp only [Prod.mk.injEq, Res.ok.injEq] at h
    obtain ⟨rfl, rfl⟩ := h
    simp [ObjInfo.tryGet, ObjInfo.find, tryGetLocked, lookup_mapSet, hn]
  · rw [e] at h; simp only [Prod.mk.injEq, Res.ok.injEq] at h
    obtain ⟨rfl, rfl⟩ := h
    simp [ObjInfo.tryGet, ObjInfo.find, tryGetLocked, List.find?_append, Ne.symm hn]

theorem add_ok_value {i j : ObjInfo} {p : ParInfo} {v : Dbl} (h : i.add p = (j, .ok v)) : v = p.mean := by
  rcases add_cases i p with ⟨e, _⟩ | ⟨e, hk, _⟩ | ⟨e, hk, _⟩ <;> rw [e] at h <;> simp at h
  · exact h.2.symm
  · exact h.2.symm

/-! ## C96 -/

/-- **C96.** If a model runs on an objective_info, it runs on a static_par_set that gives the same answers (for instance both empty), with the same values, and afterwards the static_par_set still gives the same
answers as the objective_info: it has stored the mean of each parameter. -/
theorem C96_like_objective_info (env : Env) (g : Prog) (io : IOState) (i j : ObjInfo) (vs : List Dbl) (h : exec oiBackend env g io i = (io, j, .ok vs))
    (t : StaticPars) (ht : ∀ n, t.lookup n = i.tryGet n) :
    ∃ t', exec staticBackend env g io t = (io, t', .ok vs) ∧ ∀ n, t'.lookup n = j.tryGet n := by
  have := exec_sim (B := oiBackend) (C := staticBackend) (env := env) (Rel := fun (i : ObjInfo) (t : StaticPars) => ∀ n, t.lookup n = i.tryGet n)
    (fun s t hr n r e => by
      have : s.tryGet n = r := Res.ok.inj e
      change Res.ok (t.lookup n) = _
      rw [hr n, this])
    (fun s t p s' v hr e => by
      have hv := add_ok_value e
      subst hv
      refine ⟨mapSet t p.name p.mean, rfl, fun n => ?_⟩
      rw [lookup_mapSet]
      split
      · rename_i hn; subst hn; exact (tryGet_add_ok e).symm
      · rename_i hn; rw [tryGet_add_other e hn]; exact hr n) g io i t vs ht (by rw [h])
  rw [h] at this
  exact this

/-- **C96.** A static_par_set that gives the same answers as a search point for all names the point knows lets a model that runs on the point run with the same values, and is not changed. -/
theorem C96_like_search_point (env : Env) (g : Prog) (io : IOState) (s : SearchPoint) (vs : List Dbl) (h : (exec spBackend env g io s).2.2 = .ok vs)
    (t : StaticPars) (ht : ∀ n, s.tryGet n = .ok (t.lookup n)) : exec staticBackend env g io t = (io, t, .ok vs) := by
  obtain ⟨t', e, ht', -⟩ := exec_sim (B := spBackend) (C := staticBackend) (env := env) (Rel := fun (s' : SearchPoint) (t' : StaticPars) => t' = t ∧ ∀ n, s'.tryGet n = .ok (t.lookup n))
    (fun s t' hr n r e => by
      have : s.tryGet n = .ok r := e
      rw [hr.2 n] at this
      rw [hr.1]; exact this)
    (fun s t' p s' v hr e => by cases congrArg Prod.snd e) g io s t vs ⟨rfl, ht⟩ h
  rw [e, ht']


/-- The text written for a search point consists of one record for each parameter. -/
theorem write_fileText {R : Reader} {fmt : Dbl → Str} {w : Nat} (l : List (ParInfo × Dbl × Dbl × Dbl × Dbl))
    (h : ∀ x ∈ l, FileName x.1.name ∧ PrintsAs R fmt x.2.1 x.2.2.1 ∧ PrintsAs R fmt x.1.mean x.2.2.2.1 ∧ PrintsAs R fmt x.1.std x.2.2.2.2) :
    ∀ b : Str, Blank b → ∃ r, Blank r ∧ FileText R (b ++ (l.map fun x => SearchPoint.line fmt w x.1 x.2.1).flatten)
      (l.map fun x => ⟨x.1.name, x.2.2.1, x.2.2.2.1, x.2.2.2.2⟩) r := by
  induction l with
  | nil => intro b hb; exact ⟨b, hb, by simpa using FileText.nil⟩
  | cons x l ih =>
    intro b hb
    obtain ⟨h1, h2, h3, h4⟩ := h x (by simp)
    have hr := line_recText h1 h2 h3 h4 hb w ((l.map fun x => SearchPoint.line fmt w x.1 x.2.1).flatten)
    obtain ⟨r, hr1, hr2⟩ := ih (fun y hy => h y (by simp [hy])) ['\t', '\n'] (by simp [Blank, isWs])
    refine ⟨r, hr1, ?_⟩
    simp only [List.map_cons, List.flatten_cons]
    exact .cons hr hr2

theorem lastValue_map {α : Type} (nm : α → Str) (val : α → Dbl) (rec : α → Rec) (h1 : ∀ a, (rec a).name = nm a) (h2 : ∀ a, (rec a).value = val a) (n : Str) :
    ∀ l : List α, (l.map nm).Nodup → lastValue n (l.map rec) = (l.find? fun a => decide (nm a = n)).map val
  | [], _ => rfl
  | a :: l, hn => by
    rw [List.map_cons] at hn ⊢
    rw [lastValue_cons, lastValue_map nm val rec h1 h2 n l (List.nodup_cons.1 hn).2, h1, h2, List.find?_cons]
    by_cases he : nm a = n
    · have : l.find? (fun a => decide (nm a = n)) = none := by
        rw [List.find?_eq_none]
        intro b hb hc
        exact (List.nodup_cons.1 hn).1 (List.mem_map.2 ⟨b, hb, by rw [he]; exact of_decide_eq_true hc⟩)
      simp [he, this]
    · simp [he]

/-- **C96.** Loading the file of a search point (8 digits, `strtod`) into an empty static_par_set gives, for each free parameter, the value of the point, and nothing for all other names, in particular for the locked
parameters of the objective_info. -/
theorem C96_load_saved_point (s : SearchPoint) (hu : NamesUnique s.info) (hs : s.WF) (hst : s.Stored) (hn : ∀ p ∈ s.info.pars, FileName p.name)
    (hv : ∀ v ∈ s.values, ∃ q : ℚ, v = .fin q ∧ |q| ≤ Dbl.maxQ)
    (hp : ∀ p ∈ s.info.pars, (∃ q : ℚ, p.mean = .fin q ∧ |q| ≤ Dbl.maxQ) ∧ ∃ q : ℚ, p.std = .fin q ∧ |q| ≤ Dbl.maxQ) :
    (∀ (k : Nat) (p : ParInfo), s.info.pars[k]? = some p → (StaticPars.load strtodReader [] (s.write fmt8)).lookup p.name = s.values[k]?) ∧
    ∀ n, (∀ p ∈ s.info.pars, p.name ≠ n) → (StaticPars.load strtodReader [] (s.write fmt8)).lookup n = none := by
  obtain ⟨i, vs⟩ := s
  simp only [SearchPoint.WF, dim] at hs
  simp only at hu hn hv hp ⊢
  let l : List (ParInfo × Dbl × Dbl × Dbl × Dbl) := (i.pars.zip vs).map fun x => (x.1, x.2, x.2, rounded x.1.mean, rounded x.1.std)
  have hl : ∀ x ∈ l, FileName x.1.name ∧ PrintsAs strtodReader fmt8 x.2.1 x.2.2.1 ∧ PrintsAs strtodReader fmt8 x.1.mean x.2.2.2.1 ∧
      PrintsAs strtodReader fmt8 x.1.std x.2.2.2.2 := by
    intro x hx
    obtain ⟨⟨p, v⟩, hz, rfl⟩ := List.mem_map.1 hx
    have h1 := (List.of_mem_zip hz).1
    have h2 := (List.of_mem_zip hz).2
    obtain ⟨⟨m, hm, hm'⟩, ⟨d, hd, hd'⟩⟩ := hp p h1
    obtain ⟨q, hq, hq'⟩ := hv v h2
    refine ⟨hn p h1, ?_, ?_, ?_⟩
    · have := C14_prints q hq'
      rw [← hq, hst v h2] at this
      exact this
    · change PrintsAs _ _ p.mean (rounded p.mean); rw [hm]; exact C14_prints m hm'
    · change PrintsAs _ _ p.std (rounded p.std); rw [hd]; exact C14_prints d hd'
  obtain ⟨r, hr1, hr2⟩ := write_fileText (w := SearchPoint.nameWidth i) l hl [] (by simp [Blank])
  have hw : SearchPoint.write fmt8 ⟨i, vs⟩ = [] ++ (l.map fun x => SearchPoint.line fmt8 (SearchPoint.nameWidth i) x.1 x.2.1).flatten := by
    simp only [SearchPoint.write, l, List.map_map]; rfl
  rw [← hw] at hr2
  have hnd : (l.map fun x => x.1.name).Nodup := by
    have : (fun x : ParInfo × Dbl × Dbl × Dbl × Dbl => x.1.name) ∘ (fun x : ParInfo × Dbl => (x.1, x.2, x.2, rounded x.1.mean, rounded x.1.std)) = ParInfo.name ∘ Prod.fst := rfl
    simp only [l, List.map_map]
    rw [this, ← List.map_map, List.map_fst_zip (by omega)]
    exact hu.free
  have key : ∀ n, (StaticPars.load strtodReader [] (SearchPoint.write fmt8 ⟨i, vs⟩)).lookup n =
      (l.find? fun x => decide (x.1.name = n)).map fun x => x.2.2.1 := by
    intro n
    rw [C18_load _ _ _ _ ⟨r, hr2, .inl hr1⟩ n, lastValue_map (fun x : ParInfo × Dbl × Dbl × Dbl × Dbl => x.1.name) (fun x => x.2.2.1) _ (fun _ => rfl) (fun _ => rfl) n l hnd]
    simp
  refine ⟨fun k p hk => ?_, fun n hn => ?_⟩
  · rw [key]
    have hlt : k < vs.length := by
      have := (List.getElem?_eq_some_iff.1 hk).1; omega
    have hmem : (p, vs[k], vs[k], rounded p.mean, rounded p.std) ∈ l := by
      refine List.mem_map.2 ⟨(p, vs[k]), ?_, rfl⟩
      refine List.mem_of_getElem? (i := k) ?_
      rw [List.getElem?_zip_eq_some]; exact ⟨hk, List.getElem?_eq_getElem hlt⟩
    cases hf : l.find? (fun x => decide (x.1.name = p.name)) with
    | none =>
      exact absurd (List.find?_eq_none.1 hf _ hmem) (by simp)
    | some y =>
      have h1 : y ∈ l := List.mem_of_find?_eq_some hf
      have h2 : y.1.name = p.name := by simpa using List.find?_some hf
      have := List.inj_on_of_nodup_map hnd h1 hmem h2
      rw [this, List.getElem?_eq_getElem hlt]; rfl
  · rw [key, List.find?_eq_none.2]
    · rfl
    · intro x hx
      obtain ⟨⟨p, v⟩, hz, rfl⟩ := List.mem_map.1 hx
      simpa using hn p (List.of_mem_zip hz).1

/-- **C96.** Saving the best point and running the model with its values: if the objective_info has no locked parameters, a model that runs on the point runs on the static_par_set loaded from the file of the point,
with exactly the same values. -/
theorem C96_saved_point (s : SearchPoint) (hu : NamesUnique s.info) (hs : s.WF) (hst : s.Stored) (hlock : s.info.locked = []) (hn : ∀ p ∈ s.info.pars, FileName p.name)
    (hv : ∀ v ∈ s.values, ∃ q : ℚ, v = .fin q ∧ |q| ≤ Dbl.maxQ)
    (hp : ∀ p ∈ s.info.pars, (∃ q : ℚ, p.mean = .fin q ∧ |q| ≤ Dbl.maxQ) ∧ ∃ q : ℚ, p.std = .fin q ∧ |q| ≤ Dbl.maxQ)
    (env : Env) (g : Prog) (io : IOState) (vs : List Dbl) (h : (exec spBackend env g io s).2.2 = .ok vs) :
    let t := StaticPars.load strtodReader [] (s.write fmt8)
    exec staticBackend env g io t = (io, t, .ok vs) := by
  obtain ⟨h1, h2⟩ := C96_load_saved_point s hu hs hst hn hv hp
  refine C96_like_search_point env g io s vs h _ fun n => ?_
  by_cases hk : ∃ p ∈ s.info.pars, p.name = n
  · obtain ⟨p, hp, rfl⟩ := hk
    obtain ⟨k, hk⟩ := List.getElem?_of_mem hp
    have hf := findIndex_of_get hu.free hk
    have hlt : k < s.values.length := by
      have := (List.getElem?_eq_some_iff.1 hk).1
      simp only [SearchPoint.WF, dim] at hs; omega
    rw [h1 k p hk, SearchPoint.tryGet, hf]
    simp only [List.getElem?_eq_getElem hlt]
  · have hk' : ∀ p ∈ s.info.pars, p.name ≠ n := fun p hp he => hk ⟨p, hp, he⟩
    rw [h2 n hk', sp_tryGet_unknown]
    rw [known_iff, find_none.2 hk', tryGetLocked, hlock]; simp

/-- Requests preserve what `add` preserves for names that are not known yet. -/
theorem exec_inv_new {σ : Type} (B : Backend σ) (env : Env) (P : σ → Prop)
    (h : ∀ s p, P s → B.tryGet s p.name = .ok none → P (B.add s p).1) (g : Prog) : ∀ io s, P s → P (exec B env g io s).2.1 := by
  have hnode : ∀ io s n pn, P s → P (getNode B env io s n pn).1 := by
    intro io s n pn hs
    unfold getNode addNew
    cases io.opts with
    | ok o =>
      simp only
      cases ht : B.tryGet s (aliased env o (io.prefixText ++ n)) with
      | ok r =>
        cases r with
        | some v => exact hs
        | none =>
          simp only
          split
          · exact hs
          · split
            · exact hs
            · cases hp : ParInfo.parse env.R (aliased env o (io.prefixText ++ n)) pn o with
              | ok p => simp only; split; exact hs; exact h _ _ hs (by rw [parse_name hp]; exact ht)
              | err => exact hs
              | ub => exact hs
      | err => exact hs
      | ub => exact hs
    | err => exact hs
    | ub => exact hs
  induction g with
  | skip => intro io s hs; exact hs
  | seq a b iha ihb =>
    intro io s hs
    simp only [exec]
    have h1 := iha io s hs
    rcases hx : exec B env a io s with ⟨io1, s1, r1⟩
    rw [hx] at h1
    cases r1 with
    | ok vs =>
      simp only
      have h2 := ihb io1 s1 h1
      rcases hy : exec B env b io1 s1 with ⟨io2, s2, r2⟩
      rw [hy] at h2
      cases r2 <;> exact h2
    | err => exact h1
    | ub => exact h1
  | num n m d l u =>
    intro io s hs
    simp only [exec, one, getNum]
    cases ht : B.tryGet s (io.prefixText ++ n) with
    | ok r =>
      cases r with
      | some v => exact hs
      | none =>
        simp only
        cases hp : ParInfo.make (io.prefixText ++ n) m d l u with
        | ok p =>
          have hn : p.name = io.prefixText ++ n := by rw [C01_constructor] at hp; split at hp <;> cases hp; rfl
          exact h _ _ hs (by rw [hn]; exact ht)
        | err => exact hs
        | ub => exact hs
    | err => exact hs
    | ub => exact hs
  | node n pn => intro io s hs; exact hnode io s n pn hs
  | tryNode n c d =>
    intro io s hs
    cases c with
    | none => exact hs
    | some pn => exact hnode io s n pn hs
  | scope p dot b ih =>
    intro io s hs
    have h1 := ih { io with prefixes := scopeSeg p dot :: io.prefixes } s hs
    simp only [exec]
    rcases hx : exec B env b { io with prefixes := scopeSeg p dot :: io.prefixes } s with ⟨io1, s1, r1⟩
    rw [hx] at h1
    simp only
    cases io1.prefixes <;> exact h1
  | opts ov b ih =>
    intro io s hs
    simp only [exec]
    rcases io with ⟨pre, os⟩
    cases os with
    | nil => exact hs
    | cons o os =>
      simp only
      have h1 := ih { prefixes := pre, options := ov.apply o :: o :: os } s hs
      rcases hx : exec B env b { prefixes := pre, options := ov.apply o :: o :: os } s with ⟨io1, s1, r1⟩
      rw [hx] at h1
      simp only
      cases io1.options <;> exact h1

/-- **C96.** No request, successful or not, changes a value that a static_par_set already has. -/
theorem C96_values_stay (env : Env) (g : Prog) (io : IOState) (t : StaticPars) (n : Str) (v : Dbl) (hv : t.lookup n = some v) :
    (exec staticBackend env g io t).2.1.lookup n = some v := by
  refine exec_inv_new staticBackend env (fun t : StaticPars => t.lookup n = some v) (fun s p hs hp => ?_) g io t hv
  have hp : s.lookup p.name = none := Res.ok.inj hp
  change (mapSet s p.name p.mean).lookup n = some v
  rw [lookup_mapSet, if_neg, hs]
  rintro rfl
  rw [hp] at hs; cases hs

theorem getNode_static_again {env : Env} {io : IOState} {t t' : StaticPars} {n : Str} {pn : PNode} {v : Dbl}
    (h : getNode staticBackend env io t n pn = (t', .ok v)) {u : StaticPars} (hk : ∀ n, (t'.lookup n).isSome = true → (u.lookup n).isSome = true) :
    ∃ w, getNode staticBackend env io u n pn = (u, .ok w) := by
  have htt : ∀ n, (t.lookup n).isSome = true → (u.lookup n).isSome = true := by
    intro m hm
    obtain ⟨w, hw⟩ := Option.isSome_iff_exists.1 hm
    have := C96_values_stay env (.node n pn) io t m w hw
    simp only [exec, one, h] at this
    exact hk m (by rw [this]; rfl)
  unfold getNode at h ⊢
  cases ho : io.opts with
  | err => rw [ho] at h; simp at h
  | ub => rw [ho] at h; simp at h
  | ok o =>
    rw [ho] at h
    simp only [staticBackend] at h ⊢
    generalize aliased env o (io.prefixText ++ n) = full at h ⊢
    cases hu : u.lookup full with
    | some w => exact ⟨w, rfl⟩
    | none =>
      have ht : t.lookup full = none := by
        cases hx : t.lookup full with
        | none => rfl
        | some w => have := htt full (by rw [hx]; rfl); rw [hu] at this; cases this
      rw [ht] at h
      simp only at h ⊢
      split at h
      · rename_i hr
        rw [if_pos hr]
        simp only [Prod.mk.injEq] at h
        have h2 := h.2
        rw [getRef_eq (fun n => .ok (t.lookup n)) (fun n => t.lookup n) (fun _ => rfl)] at h2
        rw [getRef_eq (fun n => .ok (u.lookup n)) (fun n => u.lookup n) (fun _ => rfl)]
        cases hi : firstOf (fun n => t.lookup n) (refCandidates io.prefixes pn.str) with
        | none => rw [hi] at h2; cases h2
        | some w =>
          obtain ⟨a, ha, hav⟩ := List.exists_of_findSome?_eq_some hi
          cases hs' : firstOf (fun n => u.lookup n) (refCandidates io.prefixes pn.str) with
          | some w => exact ⟨w, rfl⟩
          | none =>
            have h3 := List.findSome?_eq_none_iff.1 hs' a ha
            have h4 := htt a (by rw [hav]; rfl)
            rw [h3] at h4; cases h4
      · rename_i hr
        rw [if_neg hr]
        unfold addNew at h ⊢
        split at h
        · simp at h
        · rename_i hq
          rw [if_neg hq]
          cases hp : ParInfo.parse env.R full pn o with
          | ok p =>
            rw [hp] at h
            simp only at h ⊢
            split at h
            · rename_i hc
              exact ⟨p.mean, by rw [if_pos hc]⟩
            · simp only [Prod.mk.injEq] at h
              have := hk full (by rw [← h.1, lookup_mapSet, parse_name hp]; simp)
              rw [hu] at this; cases this
          | err => rw [hp] at h; simp at h
          | ub => rw [hp] at h; simp at h

theorem getNum_static_again {io : IOState} {t t' : StaticPars} {n : Str} {m d l u' v : Dbl}
    (h : getNum staticBackend io t n m d l u' = (t', .ok v)) {u : StaticPars} (hk : ∀ n, (t'.lookup n).isSome = true → (u.lookup n).isSome = true) :
    ∃ w, getNum staticBackend io u n m d l u' = (u, .ok w) := by
  unfold getNum at h ⊢
  simp only [staticBackend] at h ⊢
  have : (u.lookup (io.prefixText ++ n)).isSome = true := by
    apply hk
    cases ht : t.lookup (io.prefixText ++ n) with
    | some w => rw [ht] at h; simp only [Prod.mk.injEq] at h; rw [← h.1, ht]; rfl
    | none =>
      rw [ht] at h
      simp only at h
      cases hp : ParInfo.make (io.prefixText ++ n) m d l u' with
      | ok p =>
        rw [hp] at h
        have hn : p.name = io.prefixText ++ n := by rw [C01_constructor] at hp; split at hp <;> cases hp; rfl
        simp only [Prod.mk.injEq] at h
        rw [← h.1, lookup_mapSet, hn]; simp
      | err => rw [hp] at h; simp at h
      | ub => rw [hp] at h; simp at h
  obtain ⟨w, hw⟩ := Option.isSome_iff_exists.1 this
  exact ⟨w, by rw [hw]⟩

theorem exec_static_again (env : Env) (g : Prog) : ∀ (io : IOState) (t : StaticPars) (vs : List Dbl),
    (exec staticBackend env g io t).2.2 = .ok vs → ∀ u : StaticPars,
    (∀ n, ((exec staticBackend env g io t).2.1.lookup n).isSome = true → (u.lookup n).isSome = true) →
    ∃ ws, exec staticBackend env g io u = (io, u, .ok ws) ∧ ws.length = vs.length := by
  induction g with
  | skip => intro io t vs h u _; simp only [exec, Res.ok.injEq] at h; exact ⟨[], rfl, by rw [← h]⟩
  | seq a b iha ihb =>
    intro io t vs h u hk
    simp only [exec] at h hk ⊢
    have hio := exec_io staticBackend env a io t
    rcases hx : exec staticBackend env a io t with ⟨io1, t1, r1⟩
    rw [hx] at h hk hio
    simp only at hio; subst hio
    cases r1 with
    | err => simp at h
    | ub => simp at h
    | ok vs1 =>
      simp only at h hk
      have hio2 := exec_io staticBackend env b io1 t1
      have hext := fun n v => C96_values_stay env b io1 t1 n v
      rcases hy : exec staticBackend env b io1 t1 with ⟨io2, t2, r2⟩
      rw [hy] at h hk hio2 hext
      simp only at hio2; subst hio2
      cases r2 with
      | err => simp at h
      | ub => simp at h
      | ok vs2 =>
        simp only [Res.ok.injEq] at h hk
        obtain ⟨ws1, e1, l1⟩ := iha io2 t vs1 (by rw [hx]) u (fun n hn => hk n (by
          rw [hx] at hn
          obtain ⟨w, hw⟩ := Option.isSome_iff_exists.1 hn
          rw [hext n w hw]; rfl))
        obtain ⟨ws2, e2, l2⟩ := ihb io2 t1 vs2 (by rw [hy]) u (fun n hn => hk n (by rw [hy] at hn; exact hn))
        refine ⟨ws1 ++ ws2, ?_, by simp [← h, l1, l2]⟩
        rw [e1]; simp only; rw [e2]
  | num n m d l u' =>
    intro io t vs h u hk
    simp only [exec, one] at h hk ⊢
    rcases hx : getNum staticBackend io t n m d l u' with ⟨j, r⟩
    rw [hx] at h hk
    cases r with
    | ok v =>
      obtain ⟨w, hw⟩ := getNum_static_again hx hk
      refine ⟨[w], by rw [hw]; rfl, ?_⟩
      simp at h; simp [← h]
    | err => simp at h
    | ub => simp at h
  | node n pn =>
    intro io t vs h u hk
    simp only [exec, one] at h hk ⊢
    rcases hx : getNode staticBackend env io t n pn with ⟨j, r⟩
    rw [hx] at h hk
    cases r with
    | ok v =>
      obtain ⟨w, hw⟩ := getNode_static_again hx hk
      refine ⟨[w], by rw [hw]; rfl, ?_⟩
      simp at h; simp [← h]
    | err => simp at h
    | ub => simp at h
  | tryNode n c d =>
    intro io t vs h u hk
    cases c with
    | none => simp only [exec, one, tryGetNode, Res.ok_bind, Res.ok.injEq] at h ⊢; exact ⟨[d], rfl, by simp [← h]⟩
    | some pn =>
      simp only [exec, one, tryGetNode] at h hk ⊢
      rcases hx : getNode staticBackend env io t n pn with ⟨j, r⟩
      rw [hx] at h hk
      cases r with
      | ok v =>
        obtain ⟨w, hw⟩ := getNode_static_again hx hk
        refine ⟨[w], by rw [hw]; rfl, ?_⟩
        simp at h; simp [← h]
      | err => simp at h
      | ub => simp at h
  | scope p dot b ih =>
    intro io t vs h u hk
    simp only [exec] at h hk ⊢
    have hio := exec_io staticBackend env b { io with prefixes := scopeSeg p dot :: io.prefixes } t
    rcases hx : exec staticBackend env b { io with prefixes := scopeSeg p dot :: io.prefixes } t with ⟨io1, i1, r1⟩
    rw [hx] at h hk hio
    simp only at hio; subst hio
    simp only at h hk
    obtain ⟨ws, e, l⟩ := ih _ t vs (by rw [hx]; exact h) u (by rw [hx]; exact hk)
    exact ⟨ws, by rw [e], l⟩
  | opts ov b ih =>
    intro io t vs h u hk
    simp only [exec] at h hk ⊢
    rcases io with ⟨pre, os⟩
    cases os with
    | nil => simp at h
    | cons o os =>
      simp only at h hk ⊢
      have hio := exec_io staticBackend env b { prefixes := pre, options := ov.apply o :: o :: os } t
      rcases hx : exec staticBackend env b { prefixes := pre, options := ov.apply o :: o :: os } t with ⟨io1, i1, r1⟩
      rw [hx] at h hk hio
      simp only at hio; subst hio
      simp only at h hk
      obtain ⟨ws, e, l⟩ := ih _ t vs (by rw [hx]; exact h) u (by rw [hx]; exact hk)
      exact ⟨ws, by rw [e], l⟩

/-- **C96.** If a model has run on a static_par_set, it runs on it again, answering each request, and the set does not change any more. -/
theorem C96_again (env : Env) (g : Prog) (io : IOState) (t t' : StaticPars) (vs : List Dbl) (h : exec staticBackend env g io t = (io, t', .ok vs)) :
    ∃ ws, exec staticBackend env g io t' = (io, t', .ok ws) ∧ ws.length = vs.length :=
  exec_static_again env g io t vs (by rw [h]) t' (fun n hn => by rw [h] at hn; exact hn)

/-- A request for `b`, which is locked to 5 in the objective_info, and for `a`, a free parameter. -/
def progLock : Prog := .seq (.num "a".toList (.fin 1) (.fin 1) (.fin 0) (.fin 10)) (.num "b".toList (.fin 2) (.fin 1) (.fin 0) (.fin 10))

def lockInfo : ObjInfo := { pars := [⟨"a".toList, .fin 1, .fin 1, .fin 0, .fin 10⟩], locked := [("b".toList, .fin 5)] }

/-- **C96 (finding).** Locked parameters are not in the file of a search point: a model that runs on the point with `a` = 3 and `b` locked to 5 runs on the static_par_set loaded from the file with the default
value 2 of `b`, without an error. -/
theorem C96_locked_lost :
    let s : SearchPoint := ⟨lockInfo, [.fin 3]⟩
    let t := StaticPars.load strtodReader [] (s.write fmt8)
    exec spBackend env0 progLock .init s = (.init, s, .ok [.fin 3, .fin 5]) ∧
    ∃ t', exec staticBackend env0 progLock .init t = (.init, t', .ok [.fin 3, .fin 2]) := by
  refine ⟨by decide +kernel, [("a".toList, .fin 3), ("b".toList, .fin 2)], by decide +kernel⟩

-- the hypotheses of `C96_saved_point` are met by a point without locked parameters, which the model runs on
example : let s : SearchPoint := ⟨{ lockInfo with pars := [⟨"a".toList, .fin 1, .fin 1, .fin 0, .fin 10⟩, ⟨"b".toList, .fin 2, .fin 1, .fin 0, .fin 10⟩], locked := [] }, [.fin 3, .fin 4]⟩
    (exec spBackend env0 progLock .init s).2.2 = .ok [.fin 3, .fin 4] ∧ s.WF ∧ s.Stored ∧
    (exec staticBackend env0 progLock .init (StaticPars.load strtodReader [] (s.write fmt8))).2.2 = .ok [.fin 3, .fin 4] := by
  refine ⟨by decide +kernel, ?_, ?_, by decide +kernel⟩
  · unfold SearchPoint.WF; decide +kernel
  · unfold SearchPoint.Stored; decide +kernel

-- an empty static_par_set and an empty objective_info give the same answers; a model with a reference runs on both and is answered again
example : (exec oiBackend env0 progRef .init {}).2.2 = .ok [.fin 3, .fin 3, .fin 7] ∧ (exec staticBackend env0 progRef .init []).2.2 = .ok [.fin 3, .fin 3, .fin 7] ∧
    ((exec staticBackend env0 progRef .init []).2.1).lookup "a.y".toList = some (.fin 7) := by decide +kernel

/-! ## null_objective_info -/

/-- **C96.** On a `null_objective_info`, a parameter is always its mean, a request that is not valid throws, and a reference always throws: nothing is remembered. -/
theorem C96_null (env : Env) (io : IOState) (o : ParOptions) (ho : io.opts = .ok o) (name : Str) :
    (∀ mean std min max, getNum nullBackend io () name mean std min max =
      ((), match ParInfo.make (io.prefixText ++ name) mean std min max with | .ok _ => .ok mean | .err => .err | .ub => .ub)) ∧
    (∀ pn : PNode, isRef pn.str = true → getNode nullBackend env io () name pn = ((), .err)) ∧
    (∀ pn : PNode, isRef pn.str = false → ∀ p, env.needsQuotes (aliased env o (io.prefixText ++ name)) = false →
      ParInfo.parse env.R (aliased env o (io.prefixText ++ name)) pn o = .ok p → getNode nullBackend env io () name pn = ((), .ok p.mean)) := by
  refine ⟨fun mean std min max => ?_, fun pn hr => ?_, fun pn hr p hq hp => ?_⟩
  · unfold getNum
    simp only [nullBackend]
    cases hp : ParInfo.make (io.prefixText ++ name) mean std min max with
    | ok p =>
      have hm : p.mean = mean := by rw [C01_constructor] at hp; split at hp <;> cases hp; rfl
      simp only [hm]
    | err => rfl
    | ub => rfl
  · unfold getNode
    rw [ho]
    simp only [nullBackend, hr, if_true]
    rw [getRef_eq (fun _ => .ok none) (fun _ => none) (fun _ => rfl)]
    have : firstOf (fun _ => none) (refCandidates io.prefixes pn.str) = none := by simp [firstOf]
    rw [this]
  · unfold getNode addNew
    rw [ho]
    simp only [nullBackend, hr, hq, hp, Bool.false_eq_true, if_false]
    split <;> rfl

end Spot
