import Verif.Props.FileReporter
import Verif.Model.FileCrash

/-!
# C115: the files of the file reporter when the process dies
-/

namespace Spot

def FsCall.target : FsCall → Str
  | .create n | .append n _ | .remove n => n

theorem execAll_nil (fs : Str → Option Str) : execAll fs [] = fs := rfl
theorem execAll_cons (fs : Str → Option Str) (k : FsCall) (l : List FsCall) : execAll fs (k :: l) = execAll (k.exec fs) l := rfl
theorem execAll_append (fs : Str → Option Str) (l l' : List FsCall) : execAll fs (l ++ l') = execAll (execAll fs l) l' := List.foldl_append

theorem exec_frame {fs : Str → Option Str} {k : FsCall} {n : Str} (h : k.target ≠ n) : k.exec fs n = fs n := by
  cases k with
  | create m => exact putFile_ne (Ne.symm h)
  | remove m => exact removeFile_ne (Ne.symm h)
  | append m s =>
    unfold FsCall.exec
    dsimp only
    cases fs m with
    | none => rfl
    | some t => exact putFile_ne (Ne.symm h)

/-- Operations on other files do not matter. -/
theorem execAll_frame {l : List FsCall} {n : Str} (h : ∀ k ∈ l, k.target ≠ n) (fs : Str → Option Str) : execAll fs l n = fs n := by
  induction l generalizing fs with
  | nil => rfl
  | cons k l ih => rw [execAll_cons, ih (fun j hj => h j (List.mem_cons_of_mem _ hj)), exec_frame (h k (by simp))]

/-- Operations that at most remove the file. -/
theorem execAll_remove {l : List FsCall} {n : Str} (h : ∀ k ∈ l, k.target = n → k = .remove n) (fs : Str → Option Str) :
    execAll fs l n = fs n ∨ .remove n ∈ l ∧ execAll fs l n = none := by
  induction l generalizing fs with
  | nil => exact .inl rfl
  | cons k l ih =>
    rw [execAll_cons]
    by_cases hk : k.target = n
    · have hk' := h k (by simp) hk
      refine .inr ⟨by rw [hk']; simp, ?_⟩
      rcases ih (fun j hj => h j (List.mem_cons_of_mem _ hj)) (k.exec fs) with h1 | ⟨-, h1⟩
      · rw [h1, hk']; exact removeFile_self _ _
      · exact h1
    · rcases ih (fun j hj => h j (List.mem_cons_of_mem _ hj)) (k.exec fs) with h1 | ⟨h0, h1⟩
      · exact .inl (h1.trans (exec_frame hk))
      · exact .inr ⟨List.mem_cons_of_mem _ h0, h1⟩

theorem putFile_putFile (fs : Str → Option Str) (n s t : Str) : putFile (putFile fs n s) n t = putFile fs n t := by
  funext m; unfold putFile; split <;> rfl

theorem exec_appends {name : Str} (b : List Str) {fs : Str → Option Str} {t : Str} (h : fs name = some t) :
    execAll fs (b.map (.append name)) = putFile fs name (t ++ b.flatten) := by
  induction b generalizing fs t with
  | nil =>
    funext m; simp only [List.map_nil, execAll_nil, List.flatten_nil, List.append_nil]
    unfold putFile; split
    · next e => rw [e, h]
    · rfl
  | cons s b ih =>
    rw [List.map_cons, execAll_cons]
    have e : (FsCall.append name s).exec fs = putFile fs name (t ++ s) := by unfold FsCall.exec; dsimp only; rw [h]
    rw [e, ih (putFile_self _ _ _), putFile_putFile]; simp

theorem exec_file (fs : Str → Option Str) (name : Str) (a : List Str) : execAll fs (.create name :: a.map (.append name)) = putFile fs name a.flatten := by
  rw [execAll_cons]
  show execAll (putFile fs name []) _ = _
  rw [exec_appends a (putFile_self _ _ _), putFile_putFile]; simp

/-- All operations of a par file. -/
theorem exec_write (fs : Str → Option Str) (name : Str) (a : List Str) (v : Option Str) :
    execAll fs (.create name :: a.map (.append name) ++ (v.map FsCall.remove).toList) =
      match v with
      | none => putFile fs name a.flatten
      | some v => removeFile (putFile fs name a.flatten) v := by
  rw [execAll_append, exec_file]
  cases v <;> rfl

theorem individual_exec {c : FileCfg} {v : Vis} {i : Nat} {ps : List Pt} {l : List FsCall} (h : IndividualCalls false c v i ps l) (fs : Str → Option Str) :
    execAll fs l = putIndividuals c v i ps fs := by
  induction h generalizing fs with
  | nil => rfl
  | @cons i p ps a l ho t ih =>
    rw [execAll_append, exec_file, ih]
    have : a.flatten = (SearchPoint.mk v.info p).write c.fmt := ho
    rw [this]; rfl
  | unopened hf _ _ => cases hf

theorem individual_exists (fails : Bool) (c : FileCfg) (v : Vis) (i : Nat) (ps : List Pt) : ∃ l, IndividualCalls fails c v i ps l := by
  induction ps generalizing i with
  | nil => exact ⟨_, .nil⟩
  | cons p ps ih =>
    obtain ⟨l, hl⟩ := ih (i + 1)
    exact ⟨_, .cons (a := [(SearchPoint.mk v.info p).write c.fmt]) (by unfold Output; simp) hl⟩

theorem write_exec {c : FileCfg} {r r' : FileRep} {x : Call} {b : Bool} {l : List FsCall} (hl : r.WriteCalls false c x b l) (h : r.write c x b = .ok r') :
    r'.files = execAll r.files l := by
  cases hl with
  | unopened hf => cases hf
  | @mk sp s hs ho =>
    unfold FileRep.write at h
    rw [hs, Res.ok_bind] at h
    dsimp only at h
    obtain ⟨r1, h1, h2⟩ := Res.bind_eq_ok.1 h
    have h2' := Res.ok.inj h2
    subst h2'
    show r1.files = _
    have ho' : s.flatten = sp.write c.fmt := ho
    cases b with
    | false =>
      rw [if_neg (by simp)] at h1 ⊢
      have := exec_write r.files (c.parName x.vis) s none
      rw [show ((none : Option Str).map FsCall.remove).toList = [] from rfl] at this
      rw [this, ho']
      have h1' := Res.ok.inj h1
      rw [← h1']
    | true =>
      rw [if_pos rfl] at h1 ⊢
      rw [exec_write, ho']
      unfold FileRep.cleanup at h1
      dsimp only at h1
      unfold FileRep.victim
      generalize r.recent = rc at h1
      match rc with
      | [] => have h1' := Res.ok.inj h1; rw [← h1']
      | [f1] => have h1' := Res.ok.inj h1; rw [← h1']
      | [f1, f2] =>
        dsimp only [List.cons_append, List.nil_append] at h1 ⊢
        split at h1
        · next hc => rw [if_pos hc]; have h1' := Res.ok.inj h1; rw [← h1']
        · next hc => rw [if_neg hc]; have h1' := Res.ok.inj h1; rw [← h1']
      | f1 :: f2 :: f3 :: rc =>
        exfalso
        obtain ⟨a, l', e⟩ : ∃ a l', rc ++ [(c.parName x.vis, x.vis.curFitness)] = a :: l' := List.exists_cons_of_ne_nil (by simp)
        simp only [List.cons_append, e] at h1
        rw [if_neg (by simp)] at h1
        cases h1

theorem write_exists (fails : Bool) {c : FileCfg} {r r' : FileRep} {x : Call} {b : Bool} (h : r.write c x b = .ok r') : ∃ l, r.WriteCalls fails c x b l := by
  unfold FileRep.write at h
  obtain ⟨sp, h1, -⟩ := Res.bind_eq_ok.1 h
  exact ⟨_, .mk (a := [sp.write c.fmt]) h1 (by unfold Output; simp)⟩

theorem calls_exists (fails : Bool) {c : FileCfg} {E : OptEnv} {r r' : FileRep} {x : Call} (h : r.on c E x = .ok r') : ∃ l, r.Calls fails c x l := by
  unfold FileRep.on at h
  unfold FileRep.Calls
  generalize x.event = ev at h
  cases ev with
  | start | postStep | preStep | stop k => exact ⟨_, rfl⟩
  | preEvaluate pop =>
    dsimp only
    cases c.individuals with
    | true => exact individual_exists _ _ _ _ _
    | false => exact ⟨[], rfl⟩
  | postEvaluate pop fs nb =>
    dsimp only at h ⊢
    split at h
    · next hc => simp only [if_pos hc]; exact write_exists _ h
    · next hc => simp only [if_neg hc]; exact ⟨_, rfl⟩
  | newBest q f => exact write_exists _ h

theorem calls_exec {c : FileCfg} {E : OptEnv} {r r' : FileRep} {x : Call} {l : List FsCall} (hl : r.Calls false c x l) (h : r.on c E x = .ok r') :
    r'.files = execAll r.files l := by
  unfold FileRep.on at h
  unfold FileRep.Calls at hl
  generalize x.event = ev at h hl
  cases ev with
  | start | postStep | preStep | stop k =>
    dsimp only at hl h
    subst hl
    rw [← Res.ok.inj h]
    try split
    all_goals rfl
  | preEvaluate pop =>
    dsimp only at hl h
    rw [← Res.ok.inj h]
    split at hl
    · next hc => rw [if_pos hc]; exact (individual_exec hl _).symm
    · next hc => rw [if_neg hc, hl]; rfl
  | postEvaluate pop fs nb =>
    dsimp only at hl h
    split at h
    · next hc => rw [if_pos hc] at hl; exact write_exec hl h
    · next hc => rw [if_neg hc] at hl; rw [hl, ← Res.ok.inj h]; rfl
  | newBest q f => exact write_exec hl h

/-- **C115.** When all operations are done, and succeed, the folder is as in the model of C59, C60 and C80. -/
theorem C115_complete (c : FileCfg) (E : OptEnv) (r : FileRep) (xs : List Call) (r' : FileRep) :
    FileRep.Runs false c E r xs r' ↔ FileRep.run c E r xs = .ok r' := by
  induction xs generalizing r with
  | nil =>
    constructor
    · intro h; cases h; rfl
    · intro h; have := Res.ok.inj h; subst this; exact .nil
  | cons x xs ih =>
    unfold FileRep.run
    rw [Res.bind_eq_ok]
    constructor
    · intro h
      cases h with
      | @cons _ r1 _ _ _ l hl h1 t =>
        refine ⟨r1, h1, (ih _).1 ?_⟩
        rw [← calls_exec hl h1] at t; exact t
    · rintro ⟨r1, h1, h2⟩
      obtain ⟨l, hl⟩ := calls_exists false h1
      refine .cons hl h1 ?_
      rw [← calls_exec hl h1]; exact (ih _).2 h2

/-! ### failing writes do not change the data members -/

/-- The same data members, and perhaps other files. -/
def SameMem (r g : FileRep) : Prop := r = { g with files := r.files }

theorem SameMem.fields {r g : FileRep} (h : SameMem r g) : r.recent = g.recent ∧ r.lastOutput = g.lastOutput := by
  unfold SameMem at h; constructor <;> (rw [h])

theorem cleanup_same {c : FileCfg} {r g r1 : FileRep} {b : Bool} {n : Str} {f : Dbl} (h : SameMem r g) (h1 : r.cleanup c b n f = .ok r1) :
    ∃ g1, g.cleanup c b n f = .ok g1 ∧ SameMem r1 g1 := by
  obtain ⟨gf, rc, lo, hi, wr⟩ := g
  obtain ⟨rf, rc', lo', hi', wr'⟩ := r
  unfold SameMem at h
  simp only [FileRep.mk.injEq, true_and] at h
  obtain ⟨rfl, rfl, rfl, rfl⟩ := h
  unfold FileRep.cleanup at h1 ⊢
  dsimp only at h1 ⊢
  generalize rc' ++ [(n, f)] = l at h1
  split at h1
  · split at h1
    · next hc => rw [if_pos hc]; have := Res.ok.inj h1; subst this; exact ⟨_, rfl, rfl⟩
    · next hc => rw [if_neg hc]; have := Res.ok.inj h1; subst this; exact ⟨_, rfl, rfl⟩
  · split at h1
    · next hc => rw [if_pos hc]; have := Res.ok.inj h1; subst this; exact ⟨_, rfl, rfl⟩
    · cases h1

theorem write_same {c : FileCfg} {r g r1 : FileRep} {x : Call} {b : Bool} (h : SameMem r g) (h1 : r.write c x b = .ok r1) :
    ∃ g1, g.write c x b = .ok g1 ∧ SameMem r1 g1 := by
  unfold FileRep.write at h1 ⊢
  obtain ⟨sp, hs, h2⟩ := Res.bind_eq_ok.1 h1
  rw [hs]
  obtain ⟨r2, h3, h4⟩ := Res.bind_eq_ok.1 h2
  have hput : SameMem { r with files := putFile r.files (c.parName x.vis) (sp.write c.fmt), written := r.written ++ [(x.vis.stepCount, c.parName x.vis)] }
      { g with files := putFile g.files (c.parName x.vis) (sp.write c.fmt), written := g.written ++ [(x.vis.stepCount, c.parName x.vis)] } := by
    unfold SameMem at h ⊢; rw [h]
  have : ∃ g2, (if b then FileRep.cleanup c { g with files := putFile g.files (c.parName x.vis) (sp.write c.fmt), written := g.written ++ [(x.vis.stepCount, c.parName x.vis)] }
      x.vis.info.minimize (c.parName x.vis) x.vis.curFitness else
      .ok { g with files := putFile g.files (c.parName x.vis) (sp.write c.fmt), written := g.written ++ [(x.vis.stepCount, c.parName x.vis)] }) = .ok g2 ∧ SameMem r2 g2 := by
    cases b with
    | false => rw [if_neg (by simp)] at h3 ⊢; have := Res.ok.inj h3; subst this; exact ⟨_, rfl, hput⟩
    | true => rw [if_pos rfl] at h3 ⊢; exact cleanup_same hput h3
  obtain ⟨g2, h5, h6⟩ := this
  refine ⟨{ g2 with lastOutput := x.vis.stepCount % 2 ^ 64 }, ?_, ?_⟩
  · rw [Res.ok_bind]; dsimp only; rw [h5]; rfl
  · have := Res.ok.inj h4; subst this
    unfold SameMem at h6 ⊢; rw [h6]

theorem on_same {c : FileCfg} {E : OptEnv} {r g r1 : FileRep} {x : Call} (h : SameMem r g) (h1 : r.on c E x = .ok r1) : ∃ g1, g.on c E x = .ok g1 ∧ SameMem r1 g1 := by
  unfold FileRep.on at h1 ⊢
  generalize x.event = ev at h1
  cases ev with
  | start | postStep | preStep | stop k =>
    refine ⟨_, rfl, ?_⟩
    rw [← Res.ok.inj h1]
    unfold SameMem at h ⊢
    rw [h]
    try split
    all_goals rfl
  | preEvaluate pop =>
    refine ⟨_, rfl, ?_⟩
    rw [← Res.ok.inj h1]
    unfold SameMem at h ⊢
    rw [h]
    split
    all_goals rfl
  | postEvaluate pop fs nb =>
    dsimp only at h1 ⊢
    rw [h.fields.2] at h1
    split at h1
    · next hc => rw [if_pos hc]; exact write_same h h1
    · next hc => rw [if_neg hc]; exact ⟨_, rfl, by rw [← Res.ok.inj h1]; exact h⟩
  | newBest q f => exact write_same h h1

theorem runs_same {fails : Bool} {c : FileCfg} {E : OptEnv} {r g r' : FileRep} {xs : List Call} (h : SameMem r g) (hr : FileRep.Runs fails c E r xs r') :
    ∃ g', FileRep.run c E g xs = .ok g' ∧ SameMem r' g' := by
  induction hr generalizing g with
  | nil => exact ⟨g, rfl, h⟩
  | @cons r r1 r' x xs l hl h1 t ih =>
    obtain ⟨g1, e1, h2⟩ := on_same h h1
    obtain ⟨g', e, h3⟩ := ih (g := g1) (by unfold SameMem at h2 ⊢; rw [h2])
    exact ⟨g', by unfold FileRep.run; rw [e1]; exact e, h3⟩

/-! ### which files a callback touches -/

theorem writeCalls_target {fails : Bool} {c : FileCfg} {r : FileRep} {x : Call} {b : Bool} {l : List FsCall} (h : r.WriteCalls fails c x b l) :
    ∀ k ∈ l, k.target = c.parName x.vis ∨ b = true ∧ ∃ v, k = .remove v ∧ r.victim c x.vis.info.minimize x.vis.curFitness = some v := by
  cases h with
  | unopened hf hs =>
    intro k hk
    cases b with
    | false => simp at hk
    | true =>
      rw [if_pos rfl] at hk
      cases hv : r.victim c x.vis.info.minimize x.vis.curFitness with
      | none => rw [hv] at hk; simp at hk
      | some v => rw [hv] at hk; simp at hk; exact .inr ⟨rfl, v, hk, rfl⟩
  | @mk sp s hs ho =>
    intro k hk
    simp only [List.cons_append, List.mem_cons, List.mem_append, List.mem_map] at hk
    rcases hk with rfl | ⟨u, -, rfl⟩ | hk
    · exact .inl rfl
    · exact .inl rfl
    · cases b with
      | false => simp at hk
      | true =>
        rw [if_pos rfl] at hk
        cases hv : r.victim c x.vis.info.minimize x.vis.curFitness with
        | none => rw [hv] at hk; simp at hk
        | some v => rw [hv] at hk; simp at hk; exact .inr ⟨rfl, v, hk, rfl⟩

theorem individualCalls_target {fails : Bool} {c : FileCfg} {v : Vis} {i : Nat} {ps : List Pt} {l : List FsCall} (h : IndividualCalls fails c v i ps l) :
    ∀ k ∈ l, ∃ t, k.target = decN 4 v.stepCount ++ '_' :: t := by
  induction h with
  | nil => simp
  | @cons i p ps a l ho t ih =>
    intro k hk
    rcases List.mem_append.1 hk with hk | hk
    · rcases List.mem_cons.1 hk with rfl | hk
      · exact ⟨_, rfl⟩
      · obtain ⟨u, -, rfl⟩ := List.mem_map.1 hk; exact ⟨_, rfl⟩
    · exact ih k hk
  | unopened hf t ih => exact ih

/-- The removal is the last operation. -/
theorem take_removed {fails : Bool} {c : FileCfg} {r : FileRep} {x : Call} {b : Bool} {l : List FsCall} {n : Str} {k : Nat} (h : r.WriteCalls fails c x b l) (hr : .remove n ∈ l.take k) :
    l.take k = l := by
  cases h with
  | unopened hf hs =>
    generalize hv : (if b then ((r.victim c x.vis.info.minimize x.vis.curFitness).map FsCall.remove).toList else []) = v at hr
    have hv1 : v.length ≤ 1 := by
      rw [← hv]; split
      · cases r.victim c x.vis.info.minimize x.vis.curFitness <;> simp
      · simp
    cases k with
    | zero => simp at hr
    | succ k => exact List.take_of_length_le (by omega)
  | @mk sp s hs ho =>
    generalize hv : (if b then ((r.victim c x.vis.info.minimize x.vis.curFitness).map FsCall.remove).toList else []) = v at hr
    have hv1 : v.length ≤ 1 := by
      rw [← hv]; split
      · cases r.victim c x.vis.info.minimize x.vis.curFitness <;> simp
      · simp
    rw [List.take_append] at hr ⊢
    rcases List.mem_append.1 hr with h1 | h1
    · have := List.mem_of_mem_take h1
      simp at this
    · have hk : 0 < k - (FsCall.create (c.parName x.vis) :: s.map (.append (c.parName x.vis))).length := by
        by_contra h0
        rw [show k - (FsCall.create (c.parName x.vis) :: s.map (.append (c.parName x.vis))).length = 0 by omega] at h1
        simp at h1
      rw [List.take_of_length_le (by omega), List.take_of_length_le (by omega)]

/-- Of the files of the bests so far, a callback can only remove that of the last one, and only if it announces a new best, and there is a file that is almost as good. -/
theorem calls_target {fails : Bool} {c : FileCfg} {info : ObjInfo} {fs : Str → Option Str} {a a' : Phase} {bs : List Call} {r g : FileRep} {x : Call} {l : List FsCall}
    (hm : 1 ≤ c.maxSteps) (h : FInv c info fs a bs g) (hs : LogStep info a (x.event, x.vis) a') (hr : SameMem r g) (hl : r.Calls fails c x l) :
    ∀ w ∈ bs, ∀ k ∈ l, k.target = c.parName w.vis → k = .remove (c.parName w.vis) ∧ bs.getLast? = some w ∧ x.isBest = true ∧
      ∃ y ∈ bs, y.vis.stepCount < w.vis.stepCount ∧ y.Kept c g.files ∧ small c info y w ∧ small c info w x := by
  have hbs : ∀ n, a.n = n → a.b = false → ∀ y ∈ bs, y.vis.stepCount < n := by
    intro n hn hb y hy
    rcases h.lt y hy with h1 | ⟨h1, -⟩
    · omega
    · simp [hb] at h1
  intro w hw k hk ht
  unfold FileRep.Calls at hl
  obtain ⟨ev, v, upd, labels, state⟩ := x
  dsimp only at hs hl ⊢
  generalize he : (ev, v) = e at hs
  cases hs with
  | start w' | preStep n w' | stop n k' w' | postStep n w' hn hi hll =>
    obtain ⟨rfl, rfl⟩ := Prod.mk.inj he
    dsimp only at hl; subst hl; simp at hk
  | preEvaluate n pop w' hn =>
    obtain ⟨rfl, rfl⟩ := Prod.mk.inj he
    dsimp only at hl
    split at hl
    · obtain ⟨t, e⟩ := individualCalls_target hl k hk
      rw [e] at ht
      exact absurd (decN_inj ht) (by have := hbs n rfl rfl w hw; omega)
    · subst hl; simp at hk
  | postEvaluate n b pop fs' nb w' hn hi hll =>
    obtain ⟨rfl, rfl⟩ := Prod.mk.inj he
    dsimp only at hl
    split at hl
    · next hmax =>
      have hb : b = false := by
        by_contra hb
        have h1 := h.out (by simpa using hb)
        simp only [hr.fields.2, hn, h1] at hmax
        have h2 : (n % 2 ^ 64 + 2 ^ 64 - n % 2 ^ 64) = 2 ^ 64 := by omega
        rw [h2] at hmax; simp at hmax; omega
      subst hb
      rcases writeCalls_target hl k hk with h1 | ⟨h1, -⟩
      · rw [ht] at h1
        have := parName_inj h1
        have := hbs n rfl rfl w hw
        dsimp only at *; omega
      · simp at h1
    · subst hl; simp at hk
  | newBest n q f w' hn hi hll hf hq =>
    obtain ⟨rfl, rfl⟩ := Prod.mk.inj he
    dsimp only at hl
    rcases writeCalls_target hl k hk with h1 | ⟨-, v', rfl, hv⟩
    · rw [ht] at h1
      have := parName_inj h1
      have := hbs n rfl rfl w hw
      dsimp only at *; omega
    · have hv' : v' = c.parName w.vis := ht
      subst hv'
      unfold FileRep.victim at hv
      rw [hr.fields.1] at hv
      rcases h.rc with ⟨e, hrc⟩ | ⟨y, e, hrc⟩ | ⟨pre, z, y, e, hpre, hy, hrc, hky, hmax⟩
      · rw [hrc] at hv; simp at hv
      · rw [hrc] at hv; simp at hv
      · rw [hrc] at hv
        dsimp only at hv
        split at hv
        · next hc =>
          have hn := Option.some.inj hv
          have hz : z ∈ bs := by rw [e]; simp
          have hst := h.steps
          rw [e, List.pairwise_append] at hst
          have hzw : w = z := by
            rw [e] at hw
            rcases List.mem_append.1 hw with h1 | h1
            · have := hst.2.2 w h1 z (by simp)
              have := parName_inj hn; omega
            · simpa using h1
          subst hzw
          refine ⟨rfl, by rw [e]; simp, rfl, y, by rw [e]; exact List.mem_append_left _ hy, hst.2.2 y hy w (by simp), hky, ?_⟩
          rw [Bool.and_eq_true, hi] at hc
          exact hc
        · simp at hv

theorem finv_start (c : FileCfg) (info : ObjInfo) (fs : Str → Option Str) (n : Nat) : FInv c info fs ⟨n, false, n⟩ [] { files := fs } :=
  ⟨.nil, by simp, by simp, .inl ⟨rfl, rfl⟩, by simp, by simp, by simp, fun name h => .inr ⟨h, by simp⟩⟩

theorem logPath_split {info : ObjInfo} {a a' : Phase} {l l' : List (Event × Vis)} (h : LogPath info a (l ++ l') a') : ∃ b, LogPath info a l b ∧ LogPath info b l' a' := by
  induction l generalizing a with
  | nil => exact ⟨a, .nil _, h⟩
  | cons e l ih =>
    cases h with
    | cons hs hp =>
      obtain ⟨b, h1, h2⟩ := ih hp
      exact ⟨b, .cons hs h1, h2⟩

theorem nil_or_snoc {α : Type} (l : List α) : l = [] ∨ ∃ l' x, l = l' ++ [x] := by
  rcases List.eq_nil_or_concat l with h | ⟨l', x, h⟩
  · exact .inl h
  · exact .inr ⟨l', x, by rw [h]; simp⟩

theorem mem_take {α : Type} {l : List α} {k : Nat} {x : α} (h : x ∈ l.take k) : x ∈ l := List.mem_of_mem_take h

theorem bests_append (xs ys : List Call) : bests (xs ++ ys) = bests xs ++ bests ys := List.filter_append ..

/-- Where a reporter is when `pre` of the callbacks are done. -/
theorem at_callback {fails : Bool} {c : FileCfg} {E : OptEnv} {info : ObjInfo} {m : Int} (hd : info.dim ≠ 0) {h0 h : List Op} (hv : ∀ o ∈ h0 ++ h, o.Valid info)
    (hm : 1 ≤ c.maxSteps) {pre : List Call} {x : Call} {post : List Call} (hx : Receives E info m h0 h (pre ++ x :: post)) (hu : ∀ y ∈ pre ++ x :: post, y.upd.dim = info.dim)
    {fs : Str → Option Str} {r : FileRep} (hr : FileRep.Runs fails c E { files := fs } pre r) :
    ∃ a a' g, FileRep.run c E { files := fs } pre = .ok g ∧ SameMem r g ∧ FInv c info fs a (bests pre) g ∧ LogStep info a (x.event, x.vis) a' := by
  have hp := hx.path hd hv
  rw [List.map_append, List.map_cons] at hp
  obtain ⟨a, hp1, hp2⟩ := logPath_split hp
  obtain ⟨g, hg, hsm⟩ := runs_same (r := { files := fs }) (g := { files := fs }) (show SameMem _ _ from rfl) hr
  obtain ⟨g', hg', hinv⟩ := (finv_start c info fs _).run (E := E) hm (fun y hy => hu y (List.mem_append_left _ hy)) hp1
  rw [hg] at hg'
  have := Res.ok.inj hg'
  subst this
  cases hp2 with
  | cons hs _ => exact ⟨_, _, g, hg, hsm, by simpa using hinv, hs⟩

/-- **C115.** The process dies in any callback of any history, at any moment, with any part of the data still in the buffers. Then the file of the first best is complete (if it was announced
before that callback); the files of the other bests that were announced before are as they were before the callback, except that the file of the newest of them, `z`, may be missing: then the callback
announces a new best, whose file is already complete, and so is the file of some earlier best `y`, where both improvements, from `y` to `z` and from `z` to the one announced, are below the minimum. -/
theorem C115_crash (c : FileCfg) (E : OptEnv) (info : ObjInfo) (m : Int) (hd : info.dim ≠ 0) (h0 h : List Op) (hv : ∀ o ∈ h0 ++ h, o.Valid info)
    (hm : 1 ≤ c.maxSteps) (pre : List Call) (x : Call) (post : List Call) (hx : Receives E info m h0 h (pre ++ x :: post)) (hu : ∀ y ∈ pre ++ x :: post, y.upd.dim = info.dim)
    (fs : Str → Option Str) (r : FileRep) (hr : FileRep.Runs false c E { files := fs } pre r) (fs' : Str → Option Str) (hc : r.Crash false c x fs') :
    (∀ w, (bests pre).head? = some w → w.Kept c fs') ∧
    (∀ w ∈ (bests pre).dropLast, fs' (c.parName w.vis) = r.files (c.parName w.vis)) ∧
    ∀ z, (bests pre).getLast? = some z → z.Kept c fs' ∨
      fs' (c.parName z.vis) = none ∧ x.Kept c fs' ∧ ∃ y ∈ (bests pre).dropLast, y.Kept c fs' ∧ small c info y z ∧ small c info z x := by
  obtain ⟨a, a', g, hg, hsm, hinv, hs⟩ := at_callback hd hv hm hx hu hr
  have hrg : r = g := by
    have := (C115_complete c E _ _ _).1 hr
    rw [hg] at this; exact (Res.ok.inj this).symm
  subst hrg
  obtain ⟨l, k, hl, rfl⟩ := hc
  have ht := calls_target hm hinv hs hsm hl
  have hlast : ∀ w ∈ (bests pre).dropLast, ∃ z, (bests pre).getLast? = some z ∧ w.vis.stepCount < z.vis.stepCount := by
    intro w hw
    rcases nil_or_snoc (bests pre) with e | ⟨l', z, e⟩
    · rw [e] at hw; simp at hw
    · refine ⟨z, by rw [e]; simp, ?_⟩
      have hst := hinv.steps
      rw [e, List.pairwise_append] at hst
      rw [e, List.dropLast_concat] at hw
      exact hst.2.2 w hw z (by simp)
  have hdrop : ∀ w ∈ (bests pre).dropLast, execAll r.files (l.take k) (c.parName w.vis) = r.files (c.parName w.vis) := by
    intro w hw
    refine execAll_frame (fun j hj e => ?_) _
    obtain ⟨-, h2, -⟩ := ht w (List.mem_of_mem_dropLast hw) j (mem_take hj) e
    obtain ⟨z, hz, hlt⟩ := hlast w hw
    rw [h2] at hz
    have := Option.some.inj hz
    subst this; omega
  have hz : ∀ z, (bests pre).getLast? = some z → z.Kept c (execAll r.files (l.take k)) ∨
      execAll r.files (l.take k) (c.parName z.vis) = none ∧ x.Kept c (execAll r.files (l.take k)) ∧ ∃ y ∈ (bests pre).dropLast, y.Kept c (execAll r.files (l.take k)) ∧ small c info y z ∧ small c info z x := by
    intro z hz
    have hzm := List.mem_of_getLast? hz
    rcases execAll_remove (l := l.take k) (n := c.parName z.vis) (fun j hj e => (ht z hzm j (mem_take hj) e).1) r.files with h1 | ⟨h1, h2⟩
    · exact .inl ((Kept_congr h1).2 (hinv.last z hz))
    · obtain ⟨-, -, h3, y, hy, hlt, hky, h4, h5⟩ := ht z hzm _ (mem_take h1) rfl
      have hyd : y ∈ (bests pre).dropLast := by
        rcases nil_or_snoc (bests pre) with e | ⟨l', z', e⟩
        · rw [e] at hy; simp at hy
        · rw [e] at hz hy ⊢
          simp at hz; subst hz
          rw [List.dropLast_concat]
          rcases List.mem_append.1 hy with h6 | h6
          · exact h6
          · simp at h6; subst h6; omega
      have hall : l.take k = l := by
        unfold FileRep.Calls at hl
        unfold Call.isBest at h3
        cases hev : x.event with
        | newBest q f =>
          rw [hev] at hl
          exact take_removed hl h1
        | _ => rw [hev] at h3; simp at h3
      obtain ⟨r', hr', hinv'⟩ := hinv.step (E := E) hm (hu x (by simp)) hs
      have hkx : x.Kept c r'.files := hinv'.last x (by
        rw [show bests [x] = [x] from by unfold bests; rw [List.filter_cons, if_pos h3]; rfl]; simp)
      rw [hall, ← calls_exec hl hr']
      rw [hall, ← calls_exec hl hr'] at h2
      refine .inr ⟨h2, hkx, y, hyd, ?_, h4, h5⟩
      have := (Kept_congr (hdrop y hyd)).2 hky
      rwa [hall, ← calls_exec hl hr'] at this
  refine ⟨?_, hdrop, hz⟩
  intro w hw
  by_cases hwd : w ∈ (bests pre).dropLast
  · exact (Kept_congr (hdrop w hwd)).2 (hinv.first w hw)
  · have : (bests pre) = [w] := by
      cases hb : bests pre with
      | nil => rw [hb] at hw; simp at hw
      | cons b l' =>
        rw [hb] at hw hwd
        simp at hw; subst hw
        cases l' with
        | nil => rfl
        | cons b' l' => simp at hwd
    rcases hz w (by rw [this]; rfl) with h1 | ⟨-, -, y, hy, -⟩
    · exact h1
    · rw [this] at hy; simp at hy

/-- **C115.** Writes may fail, and nobody notices. Still, once there is a newer best, the file of a best is never touched again: not in any later callback, and not by a crash. -/
theorem C115_stays (fails : Bool) (c : FileCfg) (E : OptEnv) (info : ObjInfo) (m : Int) (hd : info.dim ≠ 0) (h0 h : List Op) (hv : ∀ o ∈ h0 ++ h, o.Valid info)
    (hm : 1 ≤ c.maxSteps) (pre mid : List Call) (x : Call) (post : List Call) (hx : Receives E info m h0 h (pre ++ mid ++ x :: post))
    (hu : ∀ y ∈ pre ++ mid ++ x :: post, y.upd.dim = info.dim)
    (fs : Str → Option Str) (r1 r2 : FileRep) (hr1 : FileRep.Runs fails c E { files := fs } pre r1) (hr2 : FileRep.Runs fails c E r1 mid r2)
    (fs' : Str → Option Str) (hc : r2.Crash fails c x fs') :
    ∀ w ∈ (bests pre).dropLast, fs' (c.parName w.vis) = r1.files (c.parName w.vis) := by
  intro w hw
  have hwpre : w ∈ bests pre := List.mem_of_mem_dropLast hw
  -- one callback
  have one : ∀ (pre' : List Call) (y : Call) (post' : List Call), pre ++ mid ++ x :: post = pre' ++ y :: post' → pre <+: pre' → ∀ r, FileRep.Runs fails c E { files := fs } pre' r →
      ∀ l, r.Calls fails c y l → ∀ k ∈ l, k.target ≠ c.parName w.vis := by
    intro pre' y post' e hpp r hr l hl k hk ht
    rw [e] at hx hu
    obtain ⟨a, a', g, hg, hsm, hinv, hs⟩ := at_callback hd hv hm hx hu hr
    obtain ⟨t, rfl⟩ := hpp
    rw [bests_append] at hinv
    obtain ⟨-, h2, -⟩ := calls_target hm hinv hs hsm hl w (List.mem_append_left _ hwpre) k hk ht
    have hst := hinv.steps
    rcases nil_or_snoc (bests t) with e2 | ⟨l', z, e2⟩
    · rw [e2, List.append_nil] at h2 hst
      rcases nil_or_snoc (bests pre) with e3 | ⟨l', z, e3⟩
      · rw [e3] at hw; simp at hw
      · rw [e3] at h2 hst hw
        rw [List.dropLast_concat] at hw
        simp at h2; subst h2
        rw [List.pairwise_append] at hst
        have := hst.2.2 _ hw z (by simp)
        omega
    · rw [e2] at h2 hst
      simp at h2; subst h2
      rw [List.pairwise_append] at hst
      have := hst.2.2 z hwpre z (by simp)
      omega
  -- the callbacks in between
  have runs : ∀ (mid' : List Call) (pre' : List Call) (rest : List Call), pre ++ mid ++ x :: post = pre' ++ mid' ++ rest → pre <+: pre' → ∀ r r', FileRep.Runs fails c E { files := fs } pre' r →
      FileRep.Runs fails c E r mid' r' → r'.files (c.parName w.vis) = r.files (c.parName w.vis) ∧ FileRep.Runs fails c E { files := fs } (pre' ++ mid') r' := by
    intro mid'
    induction mid' with
    | nil =>
      intro pre' rest e hpp r r' hr hr'
      cases hr'
      exact ⟨rfl, by rw [List.append_nil]; exact hr⟩
    | cons y mid' ih =>
      intro pre' rest e hpp r r' hr hr'
      cases hr' with
      | @cons _ s1 _ _ _ l hl h1 t =>
        have hsnoc : ∀ {xs : List Call} {q q' : FileRep}, FileRep.Runs fails c E q xs q' → q'.Calls fails c y l → q'.on c E y = .ok s1 →
            FileRep.Runs fails c E q (xs ++ [y]) { s1 with files := execAll q'.files l } := by
          intro xs q q' h2 h3 h4
          induction h2 with
          | nil => exact .cons h3 h4 .nil
          | cons hl' h1' _ ih' => exact .cons hl' h1' (ih' h3 h4)
        obtain ⟨h2, h3⟩ := ih (pre' ++ [y]) rest (by rw [e]; simp) (hpp.trans (List.prefix_append _ _)) _ _ (hsnoc hr hl h1) t
        refine ⟨h2.trans ?_, by rw [List.append_assoc] at h3; exact h3⟩
        exact execAll_frame (one pre' y (mid' ++ rest) (by rw [e]; simp) hpp r hr l hl) _
  obtain ⟨h1, h2⟩ := runs mid pre (x :: post) rfl List.prefix_rfl r1 r2 hr1 hr2
  obtain ⟨l, k, hl, rfl⟩ := hc
  rw [← h1]
  exact execAll_frame (fun j hj => one (pre ++ mid) x post (by simp) (List.prefix_append _ _) r2 h2 l hl j (mem_take hj)) _

/-- Finding: the state of the stream is not checked. If nothing can be written, the complete file of the best before is still removed, in favour of an empty one. -/
theorem C115_disk_full (c : FileCfg) (E : OptEnv) (r r' : FileRep) (x : Call) (q : Pt) (f : Dbl) (v : Str) (he : x.event = .newBest q f) (hr : r.on c E x = .ok r')
    (hv : r.victim c x.vis.info.minimize x.vis.curFitness = some v) (hne : v ≠ c.parName x.vis) :
    ∃ s, FileRep.Runs true c E r [x] s ∧ s.files v = none ∧ s.files (c.parName x.vis) = some [] := by
  have hr' := hr
  unfold FileRep.on at hr
  rw [he] at hr
  dsimp only at hr
  unfold FileRep.write at hr
  obtain ⟨sp, h1, -⟩ := Res.bind_eq_ok.1 hr
  refine ⟨_, .cons (l := .create (c.parName x.vis) :: ([] : List Str).map (.append (c.parName x.vis)) ++
        (if true then ((r.victim c x.vis.info.minimize x.vis.curFitness).map FsCall.remove).toList else [])) ?_ hr' .nil, ?_⟩
  · unfold FileRep.Calls; rw [he]; exact .mk (a := []) h1 (by unfold Output; simp)
  · rw [hv]
    constructor
    · exact removeFile_self _ _
    · exact (removeFile_ne (Ne.symm hne)).trans (putFile_self _ _ _)

/-- Finding: the same if the file cannot be opened: then there is no file of the new best, and the complete file of the best before is removed. -/
theorem C115_unopened (c : FileCfg) (E : OptEnv) (r r' : FileRep) (x : Call) (q : Pt) (f : Dbl) (v : Str) (he : x.event = .newBest q f) (hr : r.on c E x = .ok r')
    (hv : r.victim c x.vis.info.minimize x.vis.curFitness = some v) (hnew : r.files (c.parName x.vis) = none) :
    ∃ s, FileRep.Runs true c E r [x] s ∧ s.files v = none ∧ s.files (c.parName x.vis) = none ∧ ∀ n, n ≠ v → s.files n = r.files n := by
  have hr' := hr
  unfold FileRep.on at hr
  rw [he] at hr
  dsimp only at hr
  unfold FileRep.write at hr
  obtain ⟨sp, h1, -⟩ := Res.bind_eq_ok.1 hr
  refine ⟨_, .cons (l := if true then ((r.victim c x.vis.info.minimize x.vis.curFitness).map FsCall.remove).toList else []) ?_ hr' .nil, ?_⟩
  · unfold FileRep.Calls; rw [he]; exact .unopened rfl h1
  · rw [hv]
    refine ⟨removeFile_self _ _, ?_, fun n hn => removeFile_ne hn⟩
    by_cases hn : c.parName x.vis = v
    · rw [hn]; exact removeFile_self _ _
    · exact (removeFile_ne hn).trans hnew

/-! ### history.txt -/

/-- The text of some lines. -/
def linesText (l : List Str) : Str := (l.map (· ++ ['\n'])).flatten

theorem linesText_append (l l' : List Str) : linesText (l ++ l') = linesText l ++ linesText l' := by unfold linesText; simp

/-- The stream after some callbacks. -/
def HistStream.run (c : FileCfg) (E : OptEnv) (xs : List Call) : Option HistStream := xs.foldl (HistStream.on c E) none

/-- `lines` have been inserted, and `k` of them are in the file; `p` steps are completed. -/
structure StreamInv (h : HistStream) (lines : List Str) (p k : Nat) : Prop where
  text : h.text = linesText lines
  safe : h.safe = (linesText (lines.take k)).length
  one : 1 ≤ k
  le : k ≤ lines.length
  few : lines.length ≤ k + p % 10

/-- No stream and no lines, or a stream with lines. -/
def HistOk (c : FileCfg) (h : Option HistStream) (hist : Option (List Str)) (p : Nat) : Prop :=
  h = none ∧ hist = none ∨ c.fitHistory = true ∧ ∃ s lines k, h = some s ∧ hist = some lines ∧ StreamInv s lines p k

theorem hist_step {c : FileCfg} {E : OptEnv} {info : ObjInfo} {a a' : Phase} {r r' : FileRep} {x : Call} {h : Option HistStream}
    (hs : LogStep info a (x.event, x.vis) a') (hr : r.on c E x = .ok r') (hi : HistOk c h r.history a.p) :
    HistOk c (HistStream.on c E h x) r'.history a'.p := by
  unfold HistStream.on FileRep.on at *
  obtain ⟨ev, v, upd, labels, state⟩ := x
  dsimp only at hs hr ⊢
  generalize he : (ev, v) = e at hs
  cases hf : c.fitHistory with
  | false =>
    have hh : h = none ∧ r.history = none := by
      rcases hi with h | ⟨h1, -⟩
      · exact h
      · rw [hf] at h1; simp at h1
    refine .inl ⟨by rw [if_neg (by simp)]; exact hh.1, ?_⟩
    rw [← hh.2]
    cases ev with
    | start | postStep => dsimp only at hr; rw [hf, if_neg (by simp)] at hr; rw [← Res.ok.inj hr]
    | preStep | stop k => rw [← Res.ok.inj hr]
    | preEvaluate pop => rw [← Res.ok.inj hr]; split <;> rfl
    | postEvaluate pop fs nb =>
      dsimp only at hr
      split at hr
      · exact write_history hr
      · rw [← Res.ok.inj hr]
    | newBest q f => exact write_history hr
  | true =>
    rw [if_pos rfl]
    cases hs with
    | start w =>
      obtain ⟨rfl, rfl⟩ := Prod.mk.inj he
      refine .inr ⟨hf, _, [c.header ⟨.start, v, upd, labels, state⟩], 1, rfl, ?_, ?_⟩
      · rw [← Res.ok.inj hr, if_pos hf]
      · refine ⟨?_, ?_, le_rfl, by simp, by simp⟩ <;> simp [linesText]
    | preStep n w =>
      obtain ⟨rfl, rfl⟩ := Prod.mk.inj he
      rw [← Res.ok.inj hr]; exact hi
    | preEvaluate n pop w hn =>
      obtain ⟨rfl, rfl⟩ := Prod.mk.inj he
      rw [← Res.ok.inj hr]
      have : (if c.individuals = true then { r with files := putIndividuals c v 0 pop r.files } else r).history = r.history := by split <;> rfl
      dsimp only at this ⊢
      rw [this]; exact hi
    | newBest n q f w hn hi' hl hf' hq =>
      obtain ⟨rfl, rfl⟩ := Prod.mk.inj he
      rw [write_history hr]; exact hi
    | postEvaluate n b pop fs' nb w hn hi' hl =>
      obtain ⟨rfl, rfl⟩ := Prod.mk.inj he
      have : r'.history = r.history := by
        dsimp only at hr
        split at hr
        · exact write_history hr
        · rw [← Res.ok.inj hr]
      rw [this]; exact hi
    | stop n k w =>
      obtain ⟨rfl, rfl⟩ := Prod.mk.inj he
      rw [← Res.ok.inj hr]
      · rcases hi with ⟨h1, h2⟩ | ⟨-, s, lines, k, h1, h2, h3⟩
        · exact .inl ⟨by rw [h1]; rfl, h2⟩
        · refine .inr ⟨hf, { s with safe := s.text.length }, lines, lines.length, by rw [h1]; rfl, h2, h3.text, ?_, by have := h3.one; have := h3.le; omega, le_rfl, by omega⟩
          dsimp only; rw [h3.text, List.take_length]
    | postStep n w hn hi' hl =>
      obtain ⟨rfl, rfl⟩ := Prod.mk.inj he
      rw [← Res.ok.inj hr, if_pos hf]
      rcases hi with ⟨h1, h2⟩ | ⟨-, s, lines, k, h1, h2, h3⟩
      · exact .inl ⟨by rw [h1]; rfl, by dsimp only; rw [h2]; rfl⟩
      · subst h1
        refine .inr ⟨hf, _, lines ++ [c.histLine E ⟨.postStep, v, upd, labels, state⟩], if v.stepCount % 10 = 9 then lines.length + 1 else k, rfl, by dsimp only; rw [h2]; rfl, ?_, ?_, ?_, ?_, ?_⟩
        · dsimp only; rw [linesText_append, h3.text]; simp [linesText]
        · dsimp only
          split
          · rw [List.take_of_length_le (by simp), linesText_append, h3.text]; simp [linesText]
          · rw [List.take_append_of_le_length h3.le]; exact h3.safe
        · have := h3.one; split <;> omega
        · have := h3.le
          rw [List.length_append, List.length_singleton]; split <;> omega
        · have := h3.few
          rw [List.length_append, List.length_singleton]
          split
          · omega
          · dsimp only at this ⊢; omega

theorem hist_run {c : FileCfg} {E : OptEnv} {info : ObjInfo} {xs : List Call} : ∀ {a a' : Phase} {r r' : FileRep} {h : Option HistStream},
    LogPath info a (xs.map fun x => (x.event, x.vis)) a' → FileRep.run c E r xs = .ok r' → HistOk c h r.history a.p → HistOk c (xs.foldl (HistStream.on c E) h) r'.history a'.p := by
  induction xs with
  | nil =>
    intro a a' r r' h hp hr hi
    cases hp
    rw [← Res.ok.inj hr]; exact hi
  | cons x xs ih =>
    intro a a' r r' h hp hr hi
    cases hp with
    | cons hs hp =>
      unfold FileRep.run at hr
      obtain ⟨r1, h1, h2⟩ := Res.bind_eq_ok.1 hr
      exact ih hp h2 (hist_step hs h1 hi)

/-- **C115.** The process dies in any callback of any history, after history.txt was opened: then at most the lines of the last nine completed steps are missing in the file, or incomplete, and what
is there is a beginning of what would have been written. (The lines are those of C80; the first one is the header.) -/
theorem C115_history (c : FileCfg) (E : OptEnv) (info : ObjInfo) (m : Int) (hd : info.dim ≠ 0) (h0 h : List Op) (hv : ∀ o ∈ h0 ++ h, o.Valid info)
    (pre : List Call) (x : Call) (post : List Call) (hx : Receives E info m h0 h (pre ++ x :: post))
    (fs : Str → Option Str) (r r' : FileRep) (hr : FileRep.run c E { files := fs } pre = .ok r) (hr' : r.on c E x = .ok r') (hne : x.event ≠ .start)
    (s : HistStream) (hs : HistStream.run c E pre = some s) (d : Str) (hc : s.Crash c E x d) :
    ∃ lines lines' k, r.history = some lines ∧ r'.history = some lines' ∧ 1 ≤ k ∧ k ≤ lines.length ∧ lines.length ≤ k + 9 ∧
      linesText (lines.take k) <+: d ∧ d <+: linesText lines' := by
  have hp := hx.path hd hv
  rw [List.map_append, List.map_cons] at hp
  obtain ⟨a, hp1, hp2⟩ := logPath_split hp
  have h1 : HistOk c (HistStream.run c E pre) r.history a.p := hist_run hp1 hr (.inl ⟨rfl, rfl⟩)
  cases hp2 with
  | cons hst _ =>
    have h2 := hist_step hst hr' h1
    obtain ⟨hsafe, s', hs', hd'⟩ := hc
    rw [hs] at h1 h2
    rw [hs'] at h2
    rcases h1 with ⟨h1, -⟩ | ⟨hf, s1, lines, k, e1, e2, h1⟩
    · simp at h1
    rcases h2 with ⟨h2, -⟩ | ⟨-, s2, lines', k', e3, e4, h2⟩
    · simp at h2
    have := Option.some.inj e1; subst this
    have := Option.some.inj e3; subst this
    have hfew := h1.few
    refine ⟨lines, lines', k, e2, e4, h1.one, h1.le, by omega, ?_, by rw [← h2.text]; exact hd'⟩
    have hpre : linesText (lines.take k) <+: s'.text := by
      refine List.IsPrefix.trans (l₂ := s.text) ?_ ?_
      · rw [h1.text]
        exact ⟨linesText (lines.drop k), by rw [← linesText_append, List.take_append_drop]⟩
      · revert hs' hne
        unfold HistStream.on
        rw [if_pos hf]
        cases x.event with
        | start => simp
        | postStep => simp; rintro rfl; simp
        | preStep | stop i | preEvaluate pop | postEvaluate pop fs nb | newBest q f => simp; rintro rfl; simp
    exact List.prefix_of_prefix_length_le hpre hd' (by rw [← h1.safe]; exact hsafe)

/-- **C115.** Once an optimizer has told the reporter that it stopped, the whole text is in the file. -/
theorem C115_history_stop (c : FileCfg) (E : OptEnv) (hf : c.fitHistory = true) (pre : List Call) (x : Call) (i : Nat) (he : x.event = .stop i) (s : HistStream)
    (hs : HistStream.run c E (pre ++ [x]) = some s) (d : Str) (hc : s.Disk d) : d = s.text := by
  have h1 : s.safe = s.text.length := by
    unfold HistStream.run at hs
    rw [List.foldl_append] at hs
    simp only [List.foldl_cons, List.foldl_nil] at hs
    unfold HistStream.on at hs
    rw [if_pos hf, he] at hs
    dsimp only at hs
    obtain ⟨s0, -, rfl⟩ := Option.map_eq_some_iff.1 hs
    rfl
  exact hc.2.eq_of_length (by have := hc.2.length_le; have := hc.1; omega)

/-- The stream is open, and the five lines and the header are not yet in the file: the buffer was emptied only after the header. -/
example : (HistStream.run repCfg optEnv repCalls).isSome = true ∧
    (HistStream.run repCfg optEnv repCalls).map (fun h => decide (h.safe < h.text.length)) = some true := by decide +kernel

/-- With the callbacks of `repHist` (see C59), the callback number 17 announces the third best and removes the file of the second. -/
example : (match FileRep.run repCfg optEnv { files := fun _ => none } (repCalls.take 17), repCalls[17]? with
    | .ok r, some x => (match r.on repCfg optEnv x, r.victim repCfg x.vis.info.minimize x.vis.curFitness, (bests (repCalls.take 17)).map (fun z => repCfg.parName z.vis) with
      | .ok _, some v, [_, b] => decide (x.isBest = true ∧ v ≠ repCfg.parName x.vis ∧ b = v) && (r.files (repCfg.parName x.vis)).isNone
      | _, _, _ => false)
    | _, _ => false) = true := by decide +kernel

end Spot
