import Verif.Lemmas.FileReporter

/-!
# C59, C60, C80: the files of the file reporter
-/

namespace Spot

/-- The call announces a new best. -/
def Call.isBest (x : Call) : Bool := match x.event with
  | .newBest _ _ => true
  | _ => false

/-- The calls that announce a new best. -/
def bests (xs : List Call) : List Call := xs.filter Call.isBest

/-- The par file of a new best exists and holds the announced point, with the updated objective info. -/
def Call.Kept (c : FileCfg) (files : Str → Option Str) (x : Call) : Prop :=
  ∃ q f, x.event = .newBest q f ∧ files (c.parName x.vis) = some ((SearchPoint.mk x.upd q).write c.fmt)

/-- The improvement from one best to another is below the minimum for keeping a file. -/
def small (c : FileCfg) (info : ObjInfo) (x y : Call) : Prop :=
  Dbl.lt (improvement info.minimize x.vis.curFitness y.vis.curFitness) c.minImp = true

instance (c : FileCfg) (info : ObjInfo) (x y : Call) : Decidable (small c info x y) := inferInstanceAs (Decidable (_ = true))

/-- What holds after any number of callbacks. -/
structure FInv (c : FileCfg) (info : ObjInfo) (fs : Str → Option Str) (a : Phase) (bs : List Call) (r : FileRep) : Prop where
  steps : bs.Pairwise (fun x y => x.vis.stepCount < y.vis.stepCount)
  lt : ∀ x ∈ bs, x.vis.stepCount < a.n ∨ a.b = true ∧ x.vis.stepCount = a.n
  out : a.b = true → r.lastOutput = a.n % 2 ^ 64
  rc : bs = [] ∧ r.recent = [] ∨ (∃ x, bs = [x] ∧ r.recent = [(c.parName x.vis, x.vis.curFitness)]) ∨
    ∃ pre x y, bs = pre ++ [x] ∧ pre ≠ [] ∧ y ∈ pre ∧ r.recent = [(c.parName y.vis, y.vis.curFitness), (c.parName x.vis, x.vis.curFitness)] ∧
      y.Kept c r.files ∧ ∀ w ∈ pre, w.Kept c r.files → w.vis.stepCount ≤ y.vis.stepCount
  last : ∀ x, bs.getLast? = some x → x.Kept c r.files
  first : ∀ x, bs.head? = some x → x.Kept c r.files
  mid : ∀ pre x z post, bs = pre ++ x :: z :: post → pre ≠ [] → ∃ y ∈ pre, y.Kept c r.files ∧
    (∀ w ∈ pre, w.Kept c r.files → w.vis.stepCount ≤ y.vis.stepCount) ∧
    (small c info y x ∧ small c info x z → r.files (c.parName x.vis) = none) ∧ (¬ (small c info y x ∧ small c info x z) → x.Kept c r.files)
  absent : ∀ name, r.files name = none → (∃ x ∈ bs, name = c.parName x.vis) ∨ fs name = none ∧ ∀ t, (t, name) ∉ r.written

theorem Kept_congr {c : FileCfg} {f g : Str → Option Str} {x : Call} (h : f (c.parName x.vis) = g (c.parName x.vis)) : x.Kept c f ↔ x.Kept c g := by
  unfold Call.Kept; rw [h]

/-- Callbacks that are not new bests. -/
theorem FInv.congr {c : FileCfg} {info : ObjInfo} {fs : Str → Option Str} {a a' : Phase} {bs : List Call} {r r' : FileRep}
    (h : FInv c info fs a bs r) (ha : ∀ k, (k < a.n ∨ a.b = true ∧ k = a.n) → k < a'.n) (hb : a'.b = false)
    (hr : r'.recent = r.recent) (hf : ∀ x ∈ bs, r'.files (c.parName x.vis) = r.files (c.parName x.vis))
    (hn : ∀ name, r'.files name = none → r.files name = none ∧ ∀ t, (t, name) ∈ r'.written → (t, name) ∈ r.written) :
    FInv c info fs a' bs r' := by
  have hk : ∀ x ∈ bs, x.Kept c r'.files ↔ x.Kept c r.files := fun x hx => Kept_congr (hf x hx)
  refine ⟨h.steps, fun x hx => .inl (ha _ (h.lt x hx)), fun e => by simp [hb] at e, ?_, ?_, ?_, ?_, ?_⟩
  · rw [hr]
    rcases h.rc with h | h | ⟨pre, x, y, e, h1, h2, h3, h4, h5⟩
    · exact .inl h
    · exact .inr (.inl h)
    · refine .inr (.inr ⟨pre, x, y, e, h1, h2, h3, (hk y (by rw [e]; exact List.mem_append_left _ h2)).2 h4, fun w hw hkw => h5 w hw ?_⟩)
      exact (hk w (by rw [e]; exact List.mem_append_left _ hw)).1 hkw
  · intro x hx; exact (hk x (List.mem_of_getLast? hx)).2 (h.last x hx)
  · intro x hx; exact (hk x (List.mem_of_mem_head? hx)).2 (h.first x hx)
  · intro pre x z post e hp
    obtain ⟨y, h1, h2, h3, h4, h5⟩ := h.mid pre x z post e hp
    have hx : x ∈ bs := by rw [e]; simp
    refine ⟨y, h1, (hk y (by rw [e]; exact List.mem_append_left _ h1)).2 h2,
      fun w hw hkw => h3 w hw ((hk w (by rw [e]; exact List.mem_append_left _ hw)).1 hkw), fun hs => by rw [hf x hx]; exact h4 hs, fun hs => (hk x hx).2 (h5 hs)⟩
  · intro name hname
    obtain ⟨h1, h2⟩ := hn name hname
    rcases h.absent name h1 with h3 | ⟨h3, h4⟩
    · exact .inl h3
    · exact .inr ⟨h3, fun t ht => h4 t (h2 t ht)⟩

/-- The reporter after writing the file. -/
def FileRep.put (c : FileCfg) (r : FileRep) (x : Call) : FileRep :=
  { r with
    files := putFile r.files (c.parName x.vis) ((SearchPoint.mk x.upd (x.vis.curPoint.map rounded)).write c.fmt)
    written := r.written ++ [(x.vis.stepCount, c.parName x.vis)] }

theorem write_ok {c : FileCfg} {r : FileRep} {x : Call} {info : ObjInfo} (hl : x.vis.curPoint.length = info.dim) (hu : x.upd.dim = info.dim) (b : Bool) :
    r.write c x b = ((if b then (r.put c x).cleanup c x.vis.info.minimize (c.parName x.vis) x.vis.curFitness else .ok (r.put c x)) >>=
      fun r => .ok { r with lastOutput := x.vis.stepCount % 2 ^ 64 }) := by
  unfold FileRep.write SearchPoint.ofValues
  rw [if_pos (by rw [hu, hl])]; rfl

theorem putFile_self (f : Str → Option Str) (n t : Str) : putFile f n t n = some t := if_pos rfl
theorem putFile_ne {f : Str → Option Str} {n m t : Str} (h : m ≠ n) : putFile f n t m = f m := if_neg h
theorem removeFile_self (f : Str → Option Str) (n : Str) : removeFile f n n = none := if_pos rfl
theorem removeFile_ne {f : Str → Option Str} {n m : Str} (h : m ≠ n) : removeFile f n m = f m := if_neg h

theorem FInv.step {c : FileCfg} {E : OptEnv} {info : ObjInfo} {fs : Str → Option Str} {a a' : Phase} {bs : List Call} {r : FileRep} {x : Call}
    (hm : 1 ≤ c.maxSteps) (hu : x.upd.dim = info.dim) (h : FInv c info fs a bs r) (hs : LogStep info a (x.event, x.vis) a') :
    ∃ r', r.on c E x = .ok r' ∧ FInv c info fs a' (bs ++ bests [x]) r' := by
  have hbs : ∀ n, a.n = n → a.b = false → ∀ y ∈ bs, y.vis.stepCount < n := by
    intro n hn hb y hy
    rcases h.lt y hy with h1 | ⟨h1, -⟩
    · omega
    · simp [hb] at h1
  unfold FileRep.on bests
  obtain ⟨ev, v, upd, labels, state⟩ := x
  dsimp only at hs hu ⊢
  generalize he : (ev, v) = e at hs
  cases hs with
  | start w | preStep n w | stop n k w =>
    obtain ⟨rfl, rfl⟩ := Prod.mk.inj he
    refine ⟨_, rfl, ?_⟩
    simp only [List.filter_cons, Call.isBest, Bool.false_eq_true, if_false, List.filter_nil, List.append_nil]
    try split
    all_goals exact h.congr (by rintro k (h | ⟨h, -⟩) <;> simp_all) rfl rfl (fun _ _ => rfl) (fun _ h => ⟨h, fun _ h => h⟩)
  | preEvaluate n pop w hn =>
    obtain ⟨rfl, rfl⟩ := Prod.mk.inj he
    refine ⟨_, rfl, ?_⟩
    simp only [List.filter_cons, Call.isBest, Bool.false_eq_true, if_false, List.filter_nil, List.append_nil]
    split
    · refine h.congr (by rintro k (h | ⟨h, -⟩) <;> simp_all) rfl rfl ?_ ?_
      · intro y hy
        rcases putIndividuals_spec c v 0 pop r.files (c.parName y.vis) with h1 | ⟨⟨t, ht⟩, -⟩
        · exact h1
        · exact absurd (decN_inj ht) (by have := hbs n rfl rfl y hy; omega)
      · intro name h0
        rcases putIndividuals_spec c v 0 pop r.files name with h1 | ⟨-, h1⟩
        · exact ⟨h1.symm.trans h0, fun _ h => h⟩
        · exact absurd h0 h1
    · exact h.congr (by rintro k (h | ⟨h, -⟩) <;> simp_all) rfl rfl (fun _ _ => rfl) (fun _ h => ⟨h, fun _ h => h⟩)
  | postStep n w hn hi hl =>
    obtain ⟨rfl, rfl⟩ := Prod.mk.inj he
    refine ⟨_, rfl, ?_⟩
    simp only [List.filter_cons, Call.isBest, Bool.false_eq_true, if_false, List.filter_nil, List.append_nil]
    split
    all_goals exact h.congr (by rintro k (h | ⟨h, -⟩) <;> simp_all) rfl rfl (fun _ _ => rfl) (fun _ h => ⟨h, fun _ h => h⟩)
  | postEvaluate n b pop fs' nb w hn hi hl =>
    obtain ⟨rfl, rfl⟩ := Prod.mk.inj he
    simp only [List.filter_cons, Call.isBest, Bool.false_eq_true, if_false, List.filter_nil, List.append_nil]
    split
    · next hmax =>
      have hb : b = false := by
        by_contra hb
        have := h.out (by simpa using hb)
        simp only [hn, this] at hmax
        have h1 : (n % 2 ^ 64 + 2 ^ 64 - n % 2 ^ 64) = 2 ^ 64 := by omega
        rw [h1] at hmax; simp at hmax; omega
      subst hb
      refine ⟨_, write_ok (x := ⟨.postEvaluate pop fs' nb, v, upd, labels, state⟩) hl hu false, ?_⟩
      refine h.congr (by rintro k (h | ⟨h, -⟩) <;> simp_all; omega) rfl rfl ?_ ?_
      · intro y hy
        refine putFile_ne fun e => absurd (parName_inj e) ?_
        have := hbs n rfl rfl y hy
        show ¬ y.vis.stepCount = v.stepCount
        omega
      · intro name h0
        by_cases hname : name = c.parName v
        · rw [hname] at h0; exact absurd ((putFile_self _ _ _).symm.trans h0) (by simp)
        · refine ⟨(putFile_ne hname).symm.trans h0, fun t ht => ?_⟩
          rcases List.mem_append.1 ht with h1 | h1
          · exact h1
          · simp at h1; exact absurd h1.2 hname
    · exact ⟨_, rfl, h.congr (by rintro k (h | ⟨-, h⟩) <;> simp_all; omega) rfl rfl (fun _ _ => rfl) (fun _ h => ⟨h, fun _ h => h⟩)⟩
  | newBest n q f w hn hi hl hf hq =>
    obtain ⟨rfl, rfl⟩ := Prod.mk.inj he
    have hlt := hbs n rfl rfl
    obtain ⟨x, hx⟩ : ∃ x : Call, x = ⟨.newBest q f, v, upd, labels, state⟩ := ⟨_, rfl⟩
    have hxv : x.vis = v := by rw [hx]
    dsimp only
    rw [← hx]
    have hxb : [x].filter Call.isBest = [x] := by rw [hx]; rfl
    rw [hxb]
    rw [write_ok (info := info) (by rw [hxv]; exact hl) (by rw [hx]; exact hu) true, if_pos rfl]
    have hput : x.Kept c (r.put c x).files := ⟨q, f, by rw [hx], by rw [← hq, ← hxv]; rw [FileRep.put]; exact putFile_self _ _ _⟩
    have hne : ∀ y ∈ bs, c.parName y.vis ≠ c.parName x.vis := by
      intro y hy e
      have := parName_inj e
      have := hlt y hy
      rw [hxv] at *; omega
    have hputne : ∀ y ∈ bs, (r.put c x).files (c.parName y.vis) = r.files (c.parName y.vis) := fun y hy => putFile_ne (hne y hy)
    have hnone : ∀ name, (r.put c x).files name = none → (∃ y ∈ bs ++ [x], name = c.parName y.vis) ∨ fs name = none ∧ ∀ t, (t, name) ∉ (r.put c x).written := by
      intro name h0
      by_cases hname : name = c.parName x.vis
      · rw [hname] at h0; exact absurd ((putFile_self _ _ _).symm.trans h0) (by simp)
      · rcases h.absent name ((putFile_ne hname).symm.trans h0) with ⟨y, hy, e⟩ | ⟨h1, h2⟩
        · exact .inl ⟨y, List.mem_append_left _ hy, e⟩
        · refine .inr ⟨h1, fun t ht => ?_⟩
          rcases List.mem_append.1 ht with h3 | h3
          · exact h2 t h3
          · simp at h3; exact hname h3.2
    have hsteps : (bs ++ [x]).Pairwise (fun x y => x.vis.stepCount < y.vis.stepCount) := by
      rw [List.pairwise_append]
      refine ⟨h.steps, List.pairwise_singleton _ _, fun y hy z hz => ?_⟩
      rw [List.mem_singleton] at hz; subst hz
      rw [hxv, hn]; exact hlt y hy
    have hlt' : ∀ y ∈ bs ++ [x], y.vis.stepCount < n ∨ true = true ∧ y.vis.stepCount = n := by
      intro y hy
      rcases List.mem_append.1 hy with hy | hy
      · exact .inl (hlt y hy)
      · rw [List.mem_singleton] at hy; subst hy; exact .inr ⟨rfl, by rw [hxv]; exact hn⟩
    have hmin : x.vis.info.minimize = info.minimize := by rw [hxv, hi]
    rcases h.rc with ⟨e, hr⟩ | ⟨y, e, hr⟩ | ⟨pre, z, y, e, hpre, hy, hr, hky, hmax⟩
    · subst e
      refine ⟨_, by unfold FileRep.cleanup; rw [show (r.put c x).recent = r.recent from rfl, hr]; rfl, ?_⟩
      refine ⟨hsteps, hlt', fun _ => by rw [hxv, hn], .inr (.inl ⟨x, rfl, rfl⟩), ?_, ?_, ?_, hnone⟩
      · intro y hy; simp at hy; subst hy; exact hput
      · intro y hy; simp at hy; subst hy; exact hput
      · intro pre a b post e2 hp
        have := congrArg List.length e2
        simp at this; omega
    · subst e
      have hky : y.Kept c (r.put c x).files := (Kept_congr (hputne y (by simp))).2 (h.last y rfl)
      refine ⟨_, by unfold FileRep.cleanup; rw [show (r.put c x).recent = r.recent from rfl, hr]; rfl, ?_⟩
      refine ⟨hsteps, hlt', fun _ => by rw [hxv, hn], .inr (.inr ⟨[y], x, y, rfl, by simp, by simp, rfl, hky, by simp⟩), ?_, ?_, ?_, hnone⟩
      · intro w hw; simp at hw; subst hw; exact hput
      · intro w hw; simp at hw; subst hw; exact hky
      · intro pre a b post e2 hp
        have hl2 := congrArg List.length e2
        cases pre with
        | nil => exact absurd rfl hp
        | cons p ps => simp at hl2; omega
    · have hzb : z ∈ bs := by rw [e]; simp
      have hyb : y ∈ bs := by rw [e]; exact List.mem_append_left _ hy
      have hprez : ∀ w ∈ pre, w.vis.stepCount < z.vis.stepCount := by
        have := h.steps; rw [e, List.pairwise_append] at this
        exact fun w hw => this.2.2 w hw z (by simp)
      -- the file system after the callback
      have main : ∀ r' : FileRep, (∀ w ∈ pre, r'.files (c.parName w.vis) = r.files (c.parName w.vis)) → x.Kept c r'.files → 
          (∀ name, r'.files name = none → (∃ y ∈ bs ++ [x], name = c.parName y.vis) ∨ fs name = none ∧ ∀ t, (t, name) ∉ r'.written) →
          r'.lastOutput = n % 2 ^ 64 →
          ((small c info y z ∧ small c info z x → r'.files (c.parName z.vis) = none) ∧ (¬ (small c info y z ∧ small c info z x) → z.Kept c r'.files)) →
          r'.recent = [if small c info y z ∧ small c info z x then (c.parName y.vis, y.vis.curFitness) else (c.parName z.vis, z.vis.curFitness), (c.parName x.vis, x.vis.curFitness)] →
          FInv c info fs ⟨n, true, n⟩ (bs ++ [x]) r' := by
        intro r' hag hkx hno hout hz hrec
        have hk : ∀ w ∈ pre, w.Kept c r'.files ↔ w.Kept c r.files := fun w hw => Kept_congr (hag w hw)
        refine ⟨hsteps, hlt', fun _ => hout, .inr (.inr ?_), ?_, ?_, ?_, hno⟩
        · by_cases hs : small c info y z ∧ small c info z x
          · refine ⟨bs, x, y, rfl, by rw [e]; simp, hyb, by rw [hrec, if_pos hs], (hk y hy).2 hky, ?_⟩
            intro w hw hkw
            rw [e] at hw
            rcases List.mem_append.1 hw with hw | hw
            · exact hmax w hw ((hk w hw).1 hkw)
            · rw [List.mem_singleton] at hw; subst hw
              obtain ⟨q', f', -, h1⟩ := hkw
              rw [hz.1 hs] at h1; simp at h1
          · refine ⟨bs, x, z, rfl, by rw [e]; simp, hzb, by rw [hrec, if_neg hs], hz.2 hs, ?_⟩
            intro w hw hkw
            rw [e] at hw
            rcases List.mem_append.1 hw with hw | hw
            · exact (hprez w hw).le
            · rw [List.mem_singleton] at hw; subst hw; exact le_rfl
        · intro w hw; simp at hw; subst hw; exact hkx
        · intro w hw
          cases hp : pre with
          | nil => exact absurd hp hpre
          | cons p ps =>
            rw [e, hp] at hw; simp at hw; subst hw
            refine (hk p (by rw [hp]; simp)).2 (h.first p (by rw [e, hp]; rfl))
        · intro pre' a b post e2 hp
          rcases List.eq_nil_or_concat post with rfl | ⟨post', x', rfl⟩
          · -- the last decomposition
            have e3 : bs ++ [x] = (pre' ++ [a]) ++ [b] := by rw [e2]; simp
            obtain ⟨e4, e5⟩ := List.append_inj' e3 rfl
            rw [e] at e4
            obtain ⟨e6, e7⟩ := List.append_inj' e4 rfl
            simp at e5 e7
            subst e5 e7 e6
            exact ⟨y, hy, (hk y hy).2 hky, fun w hw hkw => hmax w hw ((hk w hw).1 hkw), hz.1, hz.2⟩
          · have e3 : bs ++ [x] = (pre' ++ a :: b :: post') ++ [x'] := by rw [e2]; simp
            obtain ⟨e4, e5⟩ := List.append_inj' e3 rfl
            obtain ⟨y', h1, h2, h3, h4, h5⟩ := h.mid pre' a b post' e4 hp
            have hsub : ∀ w ∈ pre' ++ [a], w ∈ pre := by
              intro w hw
              rcases List.eq_nil_or_concat post' with rfl | ⟨p2, b', rfl⟩
              · have : pre ++ [z] = (pre' ++ [a]) ++ [b] := by rw [← e, e4]; simp
                rw [(List.append_inj' this rfl).1]; exact hw
              · have : pre ++ [z] = (pre' ++ a :: b :: p2) ++ [b'] := by rw [← e, e4]; simp
                rw [(List.append_inj' this rfl).1]
                rcases List.mem_append.1 hw with hw | hw
                · exact List.mem_append_left _ hw
                · simp at hw; subst hw; simp
            have ha : a ∈ pre := hsub a (by simp)
            refine ⟨y', h1, (hk y' (hsub y' (List.mem_append_left _ h1))).2 h2, fun w hw hkw => h3 w hw ((hk w (hsub w (List.mem_append_left _ hw))).1 hkw),
              fun hs => by rw [hag a ha]; exact h4 hs, fun hs => (hk a ha).2 (h5 hs)⟩
      have hprebs : ∀ w ∈ pre, w ∈ bs := fun w hw => by rw [e]; exact List.mem_append_left _ hw
      have hzne : ∀ w ∈ pre, c.parName w.vis ≠ c.parName z.vis := by
        intro w hw e3; have := parName_inj e3; have := hprez w hw; omega
      have hkz : z.Kept c (r.put c x).files := (Kept_congr (hputne z hzb)).2 (h.last z (by rw [e]; simp))
      have hclean : (r.put c x).cleanup c x.vis.info.minimize (c.parName x.vis) x.vis.curFitness =
          if Dbl.lt (improvement info.minimize y.vis.curFitness z.vis.curFitness) c.minImp && Dbl.lt (improvement info.minimize z.vis.curFitness x.vis.curFitness) c.minImp
          then .ok { r.put c x with files := removeFile (r.put c x).files (c.parName z.vis), recent := [(c.parName y.vis, y.vis.curFitness), (c.parName x.vis, x.vis.curFitness)] }
          else .ok { r.put c x with recent := [(c.parName z.vis, z.vis.curFitness), (c.parName x.vis, x.vis.curFitness)] } := by
        unfold FileRep.cleanup; rw [show (r.put c x).recent = r.recent from rfl, hr, hmin]; rfl
      by_cases hs : small c info y z ∧ small c info z x
      · rw [hclean, if_pos (by unfold small at hs; simp [hs.1, hs.2])]
        refine ⟨_, rfl, main _ ?_ ?_ ?_ (by dsimp only; rw [hxv, hn]) ⟨fun _ => removeFile_self _ _, fun h => absurd hs h⟩ (by rw [if_pos hs])⟩
        · intro w hw
          show removeFile _ _ _ = _
          rw [removeFile_ne (hzne w hw), hputne w (hprebs w hw)]
        · exact (Kept_congr (removeFile_ne (hne z hzb).symm)).2 hput
        · intro name h0
          by_cases hname : name = c.parName z.vis
          · exact .inl ⟨z, List.mem_append_left _ hzb, hname⟩
          · exact hnone name ((removeFile_ne hname).symm.trans h0)
      · rw [hclean, if_neg (by unfold small at hs; simpa using hs)]
        refine ⟨_, rfl, main _ ?_ hput hnone (by dsimp only; rw [hxv, hn]) ⟨fun h => absurd h hs, fun _ => hkz⟩ (by rw [if_neg hs])⟩
        intro w hw; exact hputne w (hprebs w hw)

theorem FInv.run {c : FileCfg} {E : OptEnv} {info : ObjInfo} {fs : Str → Option Str} (hm : 1 ≤ c.maxSteps) {xs : List Call} (hu : ∀ x ∈ xs, x.upd.dim = info.dim) :
    ∀ {a a' : Phase} {bs : List Call} {r : FileRep}, FInv c info fs a bs r → LogPath info a (xs.map fun x => (x.event, x.vis)) a' →
    ∃ r', FileRep.run c E r xs = .ok r' ∧ FInv c info fs a' (bs ++ bests xs) r' := by
  induction xs with
  | nil =>
    intro a a' bs r h hp
    cases hp
    exact ⟨r, rfl, by rw [show bests [] = [] from rfl, List.append_nil]; exact h⟩
  | cons x xs ih =>
    intro a a' bs r h hp
    cases hp with
    | cons hs hp =>
      obtain ⟨r1, e1, h1⟩ := h.step (E := E) hm (hu x (by simp)) hs
      obtain ⟨r2, e2, h2⟩ := ih (fun y hy => hu y (List.mem_cons_of_mem _ hy)) h1 hp
      refine ⟨r2, by unfold FileRep.run; rw [e1]; exact e2, ?_⟩
      rw [show bests (x :: xs) = bests [x] ++ bests xs from by unfold bests; rw [← List.filter_append]; rfl, ← List.append_assoc]
      exact h2

/-- The callbacks `xs` that a reporter gets during the part `h` of a history; `h0` is what happened before the reporter was added. -/
def Receives (E : OptEnv) (info : ObjInfo) (m : Int) (h0 h : List Op) (xs : List Call) : Prop :=
  ((Opt.new info m).after E (h0 ++ h)).log = ((Opt.new info m).after E h0).log ++ xs.map (fun x => (x.event, x.vis))

theorem Receives.path {E : OptEnv} {info : ObjInfo} {m : Int} {h0 h : List Op} {xs : List Call} (hx : Receives E info m h0 h xs) (hd : info.dim ≠ 0)
    (hv : ∀ o ∈ h0 ++ h, o.Valid info) :
    LogPath info ⟨((Opt.new info m).after E h0).vis.stepCount, false, ((Opt.new info m).after E h0).vis.stepCount⟩ (xs.map fun x => (x.event, x.vis))
      ⟨((Opt.new info m).after E (h0 ++ h)).vis.stepCount, false, ((Opt.new info m).after E (h0 ++ h)).vis.stepCount⟩ := by
  obtain ⟨new, e, hp⟩ := log_path E info m hd h0 h hv
  rw [hx] at e
  rw [List.append_cancel_left e]; exact hp

/-- **C59.** For every history of an optimizer: the files of the first and of the newest best exist; the file of any other best `x` is removed if
and only if the improvement from the last best before it with a file (`y`), and the improvement to the next best (`z`), are both smaller than the
minimum. So a removed file always has an existing predecessor that is almost as good. -/
theorem C59_best_files (c : FileCfg) (E : OptEnv) (info : ObjInfo) (m : Int) (hd : info.dim ≠ 0) (h0 h : List Op) (hv : ∀ o ∈ h0 ++ h, o.Valid info)
    (hm : 1 ≤ c.maxSteps) (xs : List Call) (hx : Receives E info m h0 h xs) (hu : ∀ x ∈ xs, x.upd.dim = info.dim) (fs : Str → Option Str) :
    ∃ r, FileRep.run c E { files := fs } xs = .ok r ∧
      (∀ x, (bests xs).head? = some x → x.Kept c r.files) ∧
      (∀ x, (bests xs).getLast? = some x → x.Kept c r.files) ∧
      (∀ pre x z post, bests xs = pre ++ x :: z :: post → pre ≠ [] → ∃ y ∈ pre, y.Kept c r.files ∧
        (∀ w ∈ pre, w.Kept c r.files → w.vis.stepCount ≤ y.vis.stepCount) ∧
        (small c info y x ∧ small c info x z → r.files (c.parName x.vis) = none) ∧ (¬ (small c info y x ∧ small c info x z) → x.Kept c r.files)) ∧
      r.recent.length ≤ 2 := by
  have h0 : FInv c info fs ⟨((Opt.new info m).after E h0).vis.stepCount, false, ((Opt.new info m).after E h0).vis.stepCount⟩ [] { files := fs } :=
    ⟨.nil, by simp, by simp, .inl ⟨rfl, rfl⟩, by simp, by simp, by simp, fun name h => .inr ⟨h, by simp⟩⟩
  obtain ⟨r, e, hr⟩ := h0.run (E := E) hm hu (hx.path hd hv)
  rw [List.nil_append] at hr
  refine ⟨r, e, hr.first, hr.last, hr.mid, ?_⟩
  rcases hr.rc with ⟨-, h⟩ | ⟨_, -, h⟩ | ⟨_, _, _, -, -, -, h, -⟩ <;> rw [h] <;> simp

/-- **C59.** Nothing else is removed: a file that was there before, or was written, is missing only if it is the file of a best. -/
theorem C59_others_stay (c : FileCfg) (E : OptEnv) (info : ObjInfo) (m : Int) (hd : info.dim ≠ 0) (h0 h : List Op) (hv : ∀ o ∈ h0 ++ h, o.Valid info)
    (hm : 1 ≤ c.maxSteps) (xs : List Call) (hx : Receives E info m h0 h xs) (hu : ∀ x ∈ xs, x.upd.dim = info.dim) (fs : Str → Option Str) :
    ∃ r, FileRep.run c E { files := fs } xs = .ok r ∧
      ∀ name, r.files name = none → (∃ x ∈ bests xs, name = c.parName x.vis) ∨ fs name = none ∧ ∀ t, (t, name) ∉ r.written := by
  have h0 : FInv c info fs ⟨((Opt.new info m).after E h0).vis.stepCount, false, ((Opt.new info m).after E h0).vis.stepCount⟩ [] { files := fs } :=
    ⟨.nil, by simp, by simp, .inl ⟨rfl, rfl⟩, by simp, by simp, by simp, fun name h => .inr ⟨h, by simp⟩⟩
  obtain ⟨r, e, hr⟩ := h0.run (E := E) hm hu (hx.path hd hv)
  rw [List.nil_append] at hr
  exact ⟨r, e, hr.absent⟩

/-! ## C60 -/

structure OInv (c : FileCfg) (n0 : Nat) (a : Phase) (r : FileRep) : Prop where
  out : r.written = [] ∧ r.lastOutput = 2 ^ 64 - 1 ∨ ∃ t name, (t, name) ∈ r.written ∧ r.lastOutput = t ∧ t ≤ a.n
  gap : ∀ s, n0 ≤ s → s < a.n → s + 1 < c.maxSteps ∨ ∃ t name, (t, name) ∈ r.written ∧ t ≤ s ∧ s < t + c.maxSteps

theorem OInv.mono {c : FileCfg} {n0 : Nat} {a a' : Phase} {r r' : FileRep} (h : OInv c n0 a r) (ha : a'.n = a.n) (hw : r'.written = r.written)
    (ho : r'.lastOutput = r.lastOutput) : OInv c n0 a' r' := by
  refine ⟨?_, ?_⟩
  · rw [hw, ho, ha]; exact h.out
  · rw [hw, ha]; exact h.gap

/-- A file is written. -/
theorem OInv.wrote {c : FileCfg} {n0 : Nat} {a a' : Phase} {r r' : FileRep} {name : Str} (h : OInv c n0 a r) (hm : 1 ≤ c.maxSteps) (hn : a.n < 2 ^ 64)
    (ha : a'.n = a.n ∨ a'.n = a.n + 1) (hw : r'.written = r.written ++ [(a.n, name)]) (ho : r'.lastOutput = a.n % 2 ^ 64) : OInv c n0 a' r' := by
  refine ⟨.inr ⟨a.n, name, by rw [hw]; simp, by rw [ho]; exact Nat.mod_eq_of_lt hn, by omega⟩, ?_⟩
  intro s h1 h2
  by_cases hs : s = a.n
  · exact .inr ⟨a.n, name, by rw [hw]; simp, by omega, by omega⟩
  · rcases h.gap s h1 (by omega) with h3 | ⟨t, nm, h3, h4⟩
    · exact .inl h3
    · exact .inr ⟨t, nm, by rw [hw]; exact List.mem_append_left _ h3, h4⟩

theorem cleanup_out {c : FileCfg} {r r' : FileRep} {b : Bool} {name : Str} {f : Dbl} (h : r.cleanup c b name f = .ok r') : r'.written = r.written := by
  unfold FileRep.cleanup at h
  split at h
  · split at h <;> (cases h; rfl)
  · split at h
    · cases h; rfl
    · cases h

theorem write_out {c : FileCfg} {r r' : FileRep} {x : Call} {b : Bool} (h : r.write c x b = .ok r') :
    r'.written = r.written ++ [(x.vis.stepCount, c.parName x.vis)] ∧ r'.lastOutput = x.vis.stepCount % 2 ^ 64 := by
  unfold FileRep.write at h
  cases hsp : SearchPoint.ofValues x.upd x.vis.curPoint with
  | err => rw [hsp] at h; cases h
  | ub => rw [hsp] at h; cases h
  | ok sp =>
    rw [hsp] at h
    cases b with
    | false => cases h; exact ⟨rfl, rfl⟩
    | true =>
      change (FileRep.cleanup c _ _ _ _ >>= _) = _ at h
      generalize hcl : FileRep.cleanup c _ _ _ _ = q at h
      cases q with
      | err => cases h
      | ub => cases h
      | ok r1 => cases h; exact ⟨cleanup_out hcl, rfl⟩

theorem OInv.step {c : FileCfg} {E : OptEnv} {info : ObjInfo} {n0 : Nat} {a a' : Phase} {r r' : FileRep} {x : Call}
    (hm : 1 ≤ c.maxSteps) (h : OInv c n0 a r) (hs : LogStep info a (x.event, x.vis) a') (hn : a'.n < 2 ^ 64) (ho : r.on c E x = .ok r') :
    OInv c n0 a' r' := by
  unfold FileRep.on at ho
  obtain ⟨ev, v, upd, labels, state⟩ := x
  dsimp only at hs ho
  generalize he : (ev, v) = e at hs
  cases hs with
  | start w | preStep n w | stop n k w | preEvaluate n pop w hn | postStep n w hn hi hl =>
    obtain ⟨rfl, rfl⟩ := Prod.mk.inj he
    cases ho
    try split
    all_goals exact h.mono rfl rfl rfl
  | newBest n q f w hw hi hl hf hq =>
    obtain ⟨rfl, rfl⟩ := Prod.mk.inj he
    obtain ⟨h1, h2⟩ := write_out ho
    dsimp only at h1 h2; rw [hw] at h1 h2
    exact h.wrote hm hn (.inl rfl) h1 h2
  | postEvaluate n b pop fs' nb w hw hi hl =>
    obtain ⟨rfl, rfl⟩ := Prod.mk.inj he
    have hn' : n < 2 ^ 64 := by have : n + 1 < 2 ^ 64 := hn; omega
    dsimp only at ho
    split at ho
    · obtain ⟨h1, h2⟩ := write_out ho
      dsimp only at h1 h2; rw [hw] at h1 h2
      exact h.wrote hm hn' (.inr rfl) h1 h2
    · next hd =>
      cases ho
      rw [hw, Nat.mod_eq_of_lt hn'] at hd
      refine ⟨?_, ?_⟩
      · rcases h.out with h1 | ⟨t, name, h1, h2, h3⟩
        · exact .inl h1
        · exact .inr ⟨t, name, h1, h2, Nat.le_succ_of_le h3⟩
      · intro s h1 h2
        by_cases hs : s = n
        · subst hs
          rcases h.out with ⟨h3, h4⟩ | ⟨t, name, h3, h4, h5⟩
          · left
            rw [h4, show s + 2 ^ 64 - (2 ^ 64 - 1) = s + 1 by omega, Nat.mod_eq_of_lt hn] at hd
            omega
          · right
            have h5 : t ≤ s := h5
            refine ⟨t, name, h3, h5, ?_⟩
            rw [h4, show s + 2 ^ 64 - t = (s - t) + 2 ^ 64 by omega, Nat.add_mod_right, Nat.mod_eq_of_lt (by omega)] at hd
            omega
        · exact h.gap s h1 (by have : s < n + 1 := h2; show s < n; omega)

theorem LogStep.mono {info : ObjInfo} {a b : Phase} {e : Event × Vis} (h : LogStep info a e b) : a.n ≤ b.n := by cases h <;> simp
theorem LogPath.mono {info : ObjInfo} {a b : Phase} {l : List (Event × Vis)} (h : LogPath info a l b) : a.n ≤ b.n := by
  induction h with
  | nil => exact le_rfl
  | cons h _ ih => exact h.mono.trans ih

theorem OInv.run {c : FileCfg} {E : OptEnv} {info : ObjInfo} {n0 : Nat} (hm : 1 ≤ c.maxSteps) {xs : List Call} :
    ∀ {a a' : Phase} {r r' : FileRep}, OInv c n0 a r → LogPath info a (xs.map fun x => (x.event, x.vis)) a' → a'.n < 2 ^ 64 →
    FileRep.run c E r xs = .ok r' → OInv c n0 a' r' := by
  induction xs with
  | nil =>
    intro a a' r r' h hp _ hr
    cases hp; cases hr; exact h
  | cons x xs ih =>
    intro a a' r r' h hp hn hr
    cases hp with
    | cons hs hp =>
      unfold FileRep.run at hr
      cases h1 : r.on c E x with
      | err => rw [h1] at hr; cases hr
      | ub => rw [h1] at hr; cases hr
      | ok r1 =>
        rw [h1] at hr
        exact ih (h.step hm hs (lt_of_le_of_lt hp.mono hn) h1) hp hn hr

/-- **C60.** Each completed step `s` has a par file that was written less than `max_steps` steps before, unless fewer than `max_steps` steps were
completed at all. (The step counter must not wrap around.) -/
theorem C60_regular_output (c : FileCfg) (E : OptEnv) (info : ObjInfo) (m : Int) (hd : info.dim ≠ 0) (h0 h : List Op) (hv : ∀ o ∈ h0 ++ h, o.Valid info)
    (hm : 1 ≤ c.maxSteps) (xs : List Call) (hx : Receives E info m h0 h xs) (hu : ∀ x ∈ xs, x.upd.dim = info.dim) (fs : Str → Option Str)
    (hn : ((Opt.new info m).after E (h0 ++ h)).vis.stepCount < 2 ^ 64) :
    ∃ r, FileRep.run c E { files := fs } xs = .ok r ∧
      ∀ s, ((Opt.new info m).after E h0).vis.stepCount ≤ s → s < ((Opt.new info m).after E (h0 ++ h)).vis.stepCount →
        s + 1 < c.maxSteps ∨ ∃ t name, (t, name) ∈ r.written ∧ t ≤ s ∧ s < t + c.maxSteps := by
  obtain ⟨r, e, -⟩ := C59_others_stay c E info m hd h0 h hv hm xs hx hu fs
  have hi : OInv c ((Opt.new info m).after E h0).vis.stepCount ⟨((Opt.new info m).after E h0).vis.stepCount, false, ((Opt.new info m).after E h0).vis.stepCount⟩
      { files := fs } := ⟨.inl ⟨rfl, rfl⟩, fun s h1 h2 => absurd h2 (by dsimp only; omega)⟩
  exact ⟨r, e, (hi.run hm (hx.path hd hv) hn e).gap⟩

/-! ## C80 -/

/-- The calls of `on_post_step`. -/
def posts (xs : List Call) : List Call := xs.filter fun x => x.event = .postStep
/-- The calls of `on_start`. -/
def starts (xs : List Call) : List Call := xs.filter fun x => x.event = .start

structure HInv (c : FileCfg) (E : OptEnv) (n0 : Nat) (a : Phase) (xs : List Call) (r : FileRep) : Prop where
  count : (posts xs).map (fun x => x.vis.stepCount) = List.range' n0 (a.p - n0)
  le : n0 ≤ a.p
  phase : a.n = a.p ∨ a.n = a.p + 1
  text : c.fitHistory = true → r.history = (starts xs).getLast?.map fun x => c.header x :: (posts xs).map (c.histLine E)

theorem HInv.mono {c : FileCfg} {E : OptEnv} {n0 : Nat} {a a' : Phase} {xs : List Call} {x : Call} {r r' : FileRep} (h : HInv c E n0 a xs r)
    (ha : a'.p = a.p) (hph : a'.n = a'.p ∨ a'.n = a'.p + 1) (hx : x.event ≠ .start ∧ x.event ≠ .postStep) (hr : r'.history = r.history) : HInv c E n0 a' (xs ++ [x]) r' := by
  have h1 : posts (xs ++ [x]) = posts xs := by simp [posts, List.filter_append, hx.2]
  have h2 : starts (xs ++ [x]) = starts xs := by simp [starts, List.filter_append, hx.1]
  refine ⟨by rw [h1, ha]; exact h.count, by rw [ha]; exact h.le, hph, fun hf => by rw [h1, h2, hr]; exact h.text hf⟩

theorem write_history {c : FileCfg} {r r' : FileRep} {x : Call} {b : Bool} (h : r.write c x b = .ok r') : r'.history = r.history := by
  unfold FileRep.write at h
  cases hsp : SearchPoint.ofValues x.upd x.vis.curPoint with
  | err => rw [hsp] at h; cases h
  | ub => rw [hsp] at h; cases h
  | ok sp =>
    rw [hsp] at h
    cases b with
    | false => cases h; rfl
    | true =>
      change (FileRep.cleanup c _ _ _ _ >>= _) = _ at h
      generalize hcl : FileRep.cleanup c _ _ _ _ = q at h
      cases q with
      | err => cases h
      | ub => cases h
      | ok r1 =>
        cases h
        unfold FileRep.cleanup at hcl
        split at hcl
        · split at hcl <;> (cases hcl; rfl)
        · split at hcl
          · cases hcl; rfl
          · cases hcl

theorem HInv.step {c : FileCfg} {E : OptEnv} {info : ObjInfo} {n0 : Nat} {a a' : Phase} {xs : List Call} {r r' : FileRep} {x : Call}
    (h : HInv c E n0 a xs r) (hs : LogStep info a (x.event, x.vis) a') (ho : r.on c E x = .ok r') : HInv c E n0 a' (xs ++ [x]) r' := by
  unfold FileRep.on at ho
  obtain ⟨ev, v, upd, labels, state⟩ := x
  dsimp only at hs ho
  generalize he : (ev, v) = e at hs
  cases hs with
  | preStep n w | stop n k w | preEvaluate n pop w hn =>
    obtain ⟨rfl, rfl⟩ := Prod.mk.inj he
    cases ho
    exact h.mono rfl (.inl rfl) (by simp) (by first | rfl | (split <;> rfl))
  | start w =>
    obtain ⟨rfl, rfl⟩ := Prod.mk.inj he
    cases ho
    have hp : posts xs = [] := by
      have h1 := h.count
      simpa using h1
    have h1 : posts (xs ++ [⟨.start, v, upd, labels, state⟩]) = [] := by
      rw [posts, List.filter_append, ← posts, hp]; rfl
    have h2 : starts (xs ++ [⟨.start, v, upd, labels, state⟩]) = starts xs ++ [⟨.start, v, upd, labels, state⟩] := by
      rw [starts, List.filter_append]; rfl
    refine ⟨by rw [h1, ← hp]; exact h.count, h.le, h.phase, fun hf => ?_⟩
    rw [if_pos hf, h1, h2, List.getLast?_append]; rfl
  | postStep n w hn hi hl =>
    obtain ⟨rfl, rfl⟩ := Prod.mk.inj he
    cases ho
    have h1 : posts (xs ++ [⟨.postStep, v, upd, labels, state⟩]) = posts xs ++ [⟨.postStep, v, upd, labels, state⟩] := by
      rw [posts, List.filter_append]; rfl
    have h2 : starts (xs ++ [⟨.postStep, v, upd, labels, state⟩]) = starts xs := by
      rw [starts, List.filter_append, ← starts]; exact List.append_nil _
    have hle : n0 ≤ n := h.le
    refine ⟨?_, Nat.le_succ_of_le h.le, .inl rfl, fun hf => ?_⟩
    · rw [h1, List.map_append, h.count]
      show _ = List.range' n0 (n + 1 - n0)
      rw [show n + 1 - n0 = (n - n0) + 1 by omega, List.range'_concat]
      simp [hn]; omega
    · rw [if_pos hf]
      show r.history.map _ = _
      rw [h.text hf, h1, h2, List.map_append, Option.map_map]; rfl
  | newBest n q f w hw hi hl hf hq =>
    obtain ⟨rfl, rfl⟩ := Prod.mk.inj he
    exact h.mono rfl (.inl rfl) (by simp) (write_history ho)
  | postEvaluate n b pop fs' nb w hw hi hl =>
    obtain ⟨rfl, rfl⟩ := Prod.mk.inj he
    dsimp only at ho
    split at ho
    · exact h.mono rfl (.inr rfl) (by simp) (write_history ho)
    · cases ho; exact h.mono rfl (.inr rfl) (by simp) rfl

theorem HInv.run {c : FileCfg} {E : OptEnv} {info : ObjInfo} {n0 : Nat} {xs : List Call} :
    ∀ {a a' : Phase} {ys : List Call} {r r' : FileRep}, HInv c E n0 a ys r → LogPath info a (xs.map fun x => (x.event, x.vis)) a' →
    FileRep.run c E r xs = .ok r' → HInv c E n0 a' (ys ++ xs) r' := by
  induction xs with
  | nil =>
    intro a a' ys r r' h hp hr
    cases hp; cases hr; rw [List.append_nil]; exact h
  | cons x xs ih =>
    intro a a' ys r r' h hp hr
    cases hp with
    | cons hs hp =>
      unfold FileRep.run at hr
      cases h1 : r.on c E x with
      | err => rw [h1] at hr; cases hr
      | ub => rw [h1] at hr; cases hr
      | ok r1 =>
        rw [h1] at hr
        have := ih (h.step hs h1) hp hr
        rwa [List.append_assoc] at this

/-- **C80.** With `output_fitness_history_`, history.txt has the header of the (last) start followed by one line per completed step, in order; it
is never opened if the reporter was added after the first completed step. -/
theorem C80_history (c : FileCfg) (E : OptEnv) (info : ObjInfo) (m : Int) (hd : info.dim ≠ 0) (h0 h : List Op) (hv : ∀ o ∈ h0 ++ h, o.Valid info)
    (hm : 1 ≤ c.maxSteps) (hf : c.fitHistory = true) (xs : List Call) (hx : Receives E info m h0 h xs) (hu : ∀ x ∈ xs, x.upd.dim = info.dim) (fs : Str → Option Str) :
    ∃ r, FileRep.run c E { files := fs } xs = .ok r ∧
      r.history = (starts xs).getLast?.map (fun x => c.header x :: (posts xs).map (c.histLine E)) ∧
      (posts xs).map (fun x => x.vis.stepCount) = List.range' ((Opt.new info m).after E h0).vis.stepCount
        (((Opt.new info m).after E (h0 ++ h)).vis.stepCount - ((Opt.new info m).after E h0).vis.stepCount) := by
  obtain ⟨r, e, -⟩ := C59_others_stay c E info m hd h0 h hv hm xs hx hu fs
  have hi : HInv c E ((Opt.new info m).after E h0).vis.stepCount ⟨((Opt.new info m).after E h0).vis.stepCount, false, ((Opt.new info m).after E h0).vis.stepCount⟩ []
      { files := fs } := ⟨by simp [posts], le_rfl, .inl rfl, fun _ => rfl⟩
  have := hi.run (hx.path hd hv) e
  rw [List.nil_append] at this
  exact ⟨r, e, this.text hf, this.count⟩

/-- **C80.** Every line has as many columns as the header, if the tracking window was and is in use or not in use, and the algorithm has as many
state values as labels. -/
theorem C80_columns (c : FileCfg) (E : OptEnv) (x y : Call) (hw : 0 < x.vis.capacity ↔ 0 < y.vis.capacity) (hi : x.vis.info = y.vis.info)
    (hl : y.vis.curPoint.length = y.vis.info.dim) (hs : x.labels.length = y.state.length) :
    (c.headerCols x).length = (c.lineCols E y).length := by
  unfold FileCfg.headerCols FileCfg.lineCols
  dsimp only
  have hd : x.vis.info.pars.length = y.vis.info.dim := by rw [hi]; rfl
  by_cases h : 0 < y.vis.capacity
  · rw [if_pos h, if_pos (hw.2 h)]; split <;> simp [hd, hl, hs]
  · rw [if_neg h, if_neg (fun h' => h (hw.1 h'))]; split <;> simp [hd, hl, hs]

theorem splitOn_tabs (l : List Str) (h : l ≠ []) (ht : ∀ w ∈ l, '\t' ∉ w) : (tabs l).splitOn '\t' = l := by
  have : tabs l = ['\t'].intercalate l := rfl
  rw [this]
  exact List.splitOn_intercalate _ ht h

/-- **C80.** The lines are separated by tabs: whoever splits the header or a line at the tabs gets the columns, which for a line are the number of the step, the best and the median fitness, with a
tracking window the predicted fitness and the progress, and with `output_par_history_` the values of the best point and of the state of the algorithm. (The names of parameters have no tabs, C01.) -/
theorem C80_split (c : FileCfg) (E : OptEnv) (x : Call) :
    (∀ ls, ls = x.vis.info.pars.map ParInfo.name ++ x.labels → (∀ w ∈ ls, '\t' ∉ w) →
      (c.header x).splitOn '\t' = ["generation".toList, "best_fitness".toList, "median_fitness".toList] ++
        (if 0 < x.vis.capacity then ["predicted_fitness".toList, "fitness_progress".toList] else []) ++ if c.parHistory then ls else []) ∧
    ((∀ v, '\t' ∉ c.num v) → ∀ a b, (0 < x.vis.capacity → (x.vis.predictedFitness E x.vis.capacity).2 = .ok a ∧ (x.vis.progress E).2 = .ok b) → (c.histLine E x).splitOn '\t' = [decN 1 x.vis.stepCount, c.num x.vis.curFitness, c.num (c.median x.vis.curFitnesses)] ++
        (if 0 < x.vis.capacity then [c.num a, c.num b] else []) ++ if c.parHistory then x.vis.curPoint.map c.num ++ x.state.map c.num else []) := by
  constructor
  · intro ls hls hw
    subst hls
    have e : c.headerCols x = ["generation".toList, "best_fitness".toList, "median_fitness".toList] ++
        (if 0 < x.vis.capacity then ["predicted_fitness".toList, "fitness_progress".toList] else []) ++
        if c.parHistory then x.vis.info.pars.map ParInfo.name ++ x.labels else [] := by unfold FileCfg.headerCols; exact Eq.refl _
    rw [← e]
    unfold FileCfg.header
    have h1 : ∀ w ∈ ["generation".toList, "best_fitness".toList, "median_fitness".toList], '\t' ∉ w := by decide
    have h2 : ∀ w ∈ ["predicted_fitness".toList, "fitness_progress".toList], '\t' ∉ w := by decide
    have h0 : ["generation".toList, "best_fitness".toList, "median_fitness".toList] ≠ [] := List.cons_ne_nil _ _
    generalize ["generation".toList, "best_fitness".toList, "median_fitness".toList] = l1 at e h1 h0
    generalize ["predicted_fitness".toList, "fitness_progress".toList] = l2 at e h2
    rw [e]
    refine splitOn_tabs _ (by simp [h0]) ?_
    intro w hm
    rcases List.mem_append.1 hm with hm | hm
    · rcases List.mem_append.1 hm with hm | hm
      · exact h1 w hm
      · split at hm
        · exact h2 w hm
        · cases hm
    · split at hm
      · exact hw w hm
      · cases hm
  · intro hnum a b hab
    have hdec : '\t' ∉ decN 1 x.vis.stepCount := by
      intro hm
      have := (digitsN_spec _ _).2.2 _ hm
      simp [isDig] at this
    have e : c.lineCols E x = [decN 1 x.vis.stepCount, c.num x.vis.curFitness, c.num (c.median x.vis.curFitnesses)] ++
        (if 0 < x.vis.capacity then [c.num a, c.num b] else []) ++ if c.parHistory then x.vis.curPoint.map c.num ++ x.state.map c.num else [] := by
      unfold FileCfg.lineCols
      dsimp only
      by_cases hc : 0 < x.vis.capacity
      · rw [if_pos hc, if_pos hc, (hab hc).1, (hab hc).2]
      · rw [if_neg hc, if_neg hc]
    rw [← e]
    refine splitOn_tabs (c.lineCols E x) (by simp [FileCfg.lineCols]) ?_
    rw [e]
    intro w hm
    simp only [List.mem_append] at hm
    rcases hm with (hm | hm) | hm
    · simp only [List.mem_cons, List.not_mem_nil, or_false] at hm
      rcases hm with rfl | rfl | rfl
      · exact hdec
      · exact hnum _
      · exact hnum _
    · split at hm
      · simp only [List.mem_cons, List.not_mem_nil, or_false] at hm
        rcases hm with rfl | rfl
        · exact hnum _
        · exact hnum _
      · simp at hm
    · split at hm
      · rcases List.mem_append.1 hm with hm | hm <;> (obtain ⟨v, -, rfl⟩ := List.mem_map.1 hm; exact hnum v)
      · simp at hm

/-- Finding: when a stop condition that needs a tracking window is added after `on_start`, the lines have two columns more than the header. -/
theorem C80_columns_mismatch (c : FileCfg) (E : OptEnv) (x y : Call) (hw : x.vis.capacity = 0) (hw' : 0 < y.vis.capacity) (hi : x.vis.info = y.vis.info)
    (hl : y.vis.curPoint.length = y.vis.info.dim) (hs : x.labels.length = y.state.length) :
    (c.lineCols E y).length = (c.headerCols x).length + 2 := by
  unfold FileCfg.headerCols FileCfg.lineCols
  dsimp only
  have hd : x.vis.info.pars.length = y.vis.info.dim := by rw [hi]; rfl
  rw [if_pos hw', if_neg (show ¬ 0 < x.vis.capacity by omega)]
  cases c.parHistory <;> simp [hd, hl, hs] <;> omega

/-- Finding (C59): an optimizer pool can announce two bests in one step. If the printed numbers agree, both have the same file; when both
improvements are small, the file of the newest best is deleted right after it was written. -/
theorem C59_same_name_lost (c : FileCfg) (E : OptEnv) (r : FileRep) (x : Call) (q : Pt) (f : Dbl) (info : ObjInfo) (f1 f2 : Dbl) (n1 : Str)
    (he : x.event = .newBest q f) (hl : x.vis.curPoint.length = info.dim) (hu : x.upd.dim = info.dim)
    (hr : r.recent = [(n1, f1), (c.parName x.vis, f2)])
    (h1 : Dbl.lt (improvement x.vis.info.minimize f1 f2) c.minImp = true)
    (h2 : Dbl.lt (improvement x.vis.info.minimize f2 x.vis.curFitness) c.minImp = true) :
    ∃ r', r.on c E x = .ok r' ∧ r'.files (c.parName x.vis) = none := by
  unfold FileRep.on
  rw [he]; dsimp only
  rw [write_ok hl hu true, if_pos rfl]
  have : (r.put c x).cleanup c x.vis.info.minimize (c.parName x.vis) x.vis.curFitness =
      .ok { r.put c x with files := removeFile (r.put c x).files (c.parName x.vis), recent := [(n1, f1), (c.parName x.vis, x.vis.curFitness)] } := by
    unfold FileRep.cleanup
    rw [show (r.put c x).recent = r.recent from rfl, hr]
    show (if _ then _ else _) = _
    rw [if_pos (by simp [h1, h2])]
  rw [this]
  exact ⟨_, rfl, removeFile_self _ _⟩

/-- For every history there are calls that satisfy the hypotheses of C59, C60 and C80. -/
theorem receives_exists (E : OptEnv) (info : ObjInfo) (m : Int) (hd : info.dim ≠ 0) (h0 h : List Op) (hv : ∀ o ∈ h0 ++ h, o.Valid info) :
    ∃ xs, Receives E info m h0 h xs ∧ ∀ x ∈ xs, x.upd.dim = info.dim := by
  obtain ⟨new, e, -⟩ := log_path E info m hd h0 h hv
  refine ⟨new.map fun e => ⟨e.1, e.2, info, [], []⟩, ?_, ?_⟩
  · unfold Receives; rw [e, List.map_map]; congr 1; exact (List.map_id new).symm
  · intro x hx; obtain ⟨e, -, rfl⟩ := List.mem_map.1 hx; rfl

/-- A configuration, and a history with the bests 100, 99, 98, 90 in the steps 0, 1, 3, 4, of which the second is removed. -/
def repCfg : FileCfg := { fmt := fun _ => [], num := fun _ => [], f3 := fun _ => [], median := fun _ => .fin 0, minImp := .ofQ (1 / 20), maxSteps := 2 }
def repHist : List Op := [100, 99, 100, 98, 90].map fun f : ℚ => .step { pop := [[.fin 1]], res := [some (.ofQ f)] }
def repCalls : List Call := ((Opt.new optInfo 0).after optEnv repHist).log.map fun e => ⟨e.1, e.2, optInfo, [], []⟩

example : Receives optEnv optInfo 0 [] repHist repCalls ∧ (∀ o ∈ repHist, o.Valid optInfo) := by
  refine ⟨?_, ?_⟩
  · unfold Receives repCalls
    rw [List.map_map]
    exact (List.map_id _).symm.trans (List.nil_append _).symm
  · intro o ho
    obtain ⟨f, -, rfl⟩ := List.mem_map.1 ho
    exact ⟨by simp, rfl, by simp; rfl⟩

example : (bests repCalls).map (fun x => x.vis.stepCount) = [0, 1, 3, 4] ∧ (match FileRep.run repCfg optEnv { files := fun _ => none } repCalls with
    | .ok r => r.written.map (fun w => (w.1, (r.files w.2).isSome)) = [(0, true), (1, false), (3, true), (4, true)] ∧ r.history.map List.length = some 6
    | _ => False) := by
  refine ⟨by decide +kernel, ?_⟩
  have : (match FileRep.run repCfg optEnv { files := fun _ => none } repCalls with
    | .ok r => decide (r.written.map (fun w => (w.1, (r.files w.2).isSome)) = [(0, true), (1, false), (3, true), (4, true)] ∧ r.history.map List.length = some 6)
    | _ => false) = true := by decide +kernel
  revert this
  cases FileRep.run repCfg optEnv { files := fun _ => none } repCalls <;> simp

end Spot
