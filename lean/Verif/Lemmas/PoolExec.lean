import Verif.Lemmas.PoolSelect

/-!
# One schedule of a pool, computed

To show concrete histories: all members are stepped one after the other, then the futures are looked at.
-/

namespace Spot

/-- Step the members one after the other. -/
def finishAll (E : OptEnv) (ins : Nat → In) : List Nat → List Opt → Option (List Opt)
  | [], ms => some ms
  | i :: is, ms =>
    match ms[i]? with
    | none => none
    | some m => match m.step E (Opt.internal E (ins i)) with
      | (m', .ok _) => finishAll E ins is (ms.set i m')
      | _ => none

def collectAll : List Nat → Pool → Option Pool
  | [], p => some p
  | i :: is, p => match p.collect i with
    | (p', .ok ()) => collectAll is p'
    | _ => none

theorem RunExec.trans {E : OptEnv} {ins : Nat → In} {a b c : RunSt} (h : RunExec E ins a b) (h' : RunExec E ins b c) : RunExec E ins a c := by
  induction h' with
  | nil => exact h
  | snoc _ st ih => exact ih.snoc st

theorem finishAll_sound {E : OptEnv} {ins : Nat → In} (futs : List Nat) : ∀ (is : List Nat) (p : Pool) (ms : List Opt),
    finishAll E ins is p.members = some ms →
    RunExec E ins { pool := p, running := is, futs := futs } { pool := { p with members := ms }, running := [], futs := futs } := by
  intro is
  induction is with
  | nil => intro p ms h; simp only [finishAll, Option.some.injEq] at h; subst h; exact .nil
  | cons i is ih =>
    intro p ms h
    simp only [finishAll] at h
    split at h
    · cases h
    · rename_i m hm
      split at h
      · rename_i m' x hs
        have := ih { p with members := p.members.set i m' } ms h
        have st : RunStep E ins { pool := p, running := i :: is, futs := futs } _ := .finish (by simp) hm hs
        simp only [List.erase_cons_head] at st
        exact (RunExec.nil.snoc st).trans this
      · cases h

theorem collectAll_sound {E : OptEnv} {ins : Nat → In} : ∀ (is : List Nat) (p p' : Pool),
    collectAll is p = some p' →
    RunExec E ins { pool := p, running := [], futs := is } { pool := p', running := [], futs := [] } := by
  intro is
  induction is with
  | nil => intro p p' h; simp only [collectAll, Option.some.injEq] at h; subst h; exact .nil
  | cons i is ih =>
    intro p p' h
    simp only [collectAll] at h
    split at h
    · rename_i q hc
      have st : RunStep E ins { pool := p, running := [], futs := i :: is } _ := .collect rfl (by simp) (by simp) hc
      exact (RunExec.nil.snoc st).trans (ih q p' h)
    · cases h

def sortedB (info : ObjInfo) (preds : List Dbl) (ord : List Nat) : Bool :=
  decide (ord.Perm (List.range preds.length)) &&
  decide (ord.Pairwise (fun i j => (match preds[i]?, preds[j]? with
    | some x, some y => info.isBetter y x
    | _, _ => false) = false))

theorem sortedB_sound {info : ObjInfo} {preds : List Dbl} {ord : List Nat} (h : sortedB info preds ord = true) :
    SortedOrder info preds ord := by
  simp only [sortedB, Bool.and_eq_true, decide_eq_true_eq] at h
  refine ⟨h.1, fun _ => h.2.imp ?_⟩
  intro i j hij x y hx hy
  rw [hx, hy] at hij
  exact hij

def refillWith (E : OptEnv) (ord : List Nat) (p : Pool) : Option (List Nat × Pool) :=
  if p.queue = [] then
    match predictLoop E p.cfg p.own.info 0 p.members with
    | (ms, .ok preds) =>
      if sortedB p.own.info preds ord then
        match fillLoop E p.cfg.concurrent preds ord [] ms with
        | (ms', .ok q) =>
          if p.own.stepCount = 0 then some (q, { p with members := ms', queue := q })
          else match p.bestMember with
            | .ok _ => some (q, { p with members := ms', queue := q })
            | _ => none
        | _ => none
      else none
    | _ => none
  else some ([], p)

theorem refillWith_sound {E : OptEnv} {ord : List Nat} {p p' : Pool} {sel : List Nat} (h : refillWith E ord p = some (sel, p')) :
    Refill E p sel p' := by
  unfold refillWith at h
  split at h
  · rename_i hq
    split at h
    · rename_i ms preds hp
      split at h
      · rename_i hs
        split at h
        · rename_i ms' q hf
          split at h
          · rename_i h0
            cases h
            exact .fill hq hp (sortedB_sound hs) hf (fun h => absurd h (by omega))
          · split at h
            · rename_i b hb
              cases h
              exact .fill hq hp (sortedB_sound hs) hf (fun _ => by rw [hb]; simp)
            · cases h
        · cases h
      · cases h
    · cases h
  · rename_i hq
    cases h
    exact .keep hq

/-- A step of a pool with a given order of the predictions. -/
def Pool.stepWith (E : OptEnv) (ins : Nat → In) (ord : List Nat) (p : Pool) : Option (List Nat × List Nat × Pool × Option Nat) :=
  if p.own.info.dim = 0 ∨ p.members.length = 0 then none
  else
    match refillWith E ord ((if p.own.stepCount = 0 then p.signal .start else p).signal .preStep) with
    | none => none
    | some (sel, p₂) =>
      match finishAll E ins p₂.launch.futs p₂.members with
      | none => none
      | some ms =>
        match collectAll p₂.launch.futs { p₂.launch.pool with members := ms } with
        | none => none
        | some t =>
          match Pool.testStop E { t.signal .postStep with own := { t.own with stepCount := t.own.stepCount + 1 } } with
          | (p₃, .ok r) => some (sel, p₂.launch.futs, p₃, r)
          | _ => none

theorem stepWith_sound {E : OptEnv} {ins : Nat → In} {ord : List Nat} {p p' : Pool} {sel run : List Nat} {r : Option Nat}
    (h : p.stepWith E ins ord = some (sel, run, p', r)) : Pool.Step E ins p sel run p' r := by
  unfold Pool.stepWith at h
  split at h
  · cases h
  · rename_i hd
    push Not at hd
    split at h
    · cases h
    · rename_i sel' p₂ hr
      split at h
      · cases h
      · rename_i ms hf
        split at h
        · cases h
        · rename_i t hc
          split at h
          · rename_i p₃ r' ht
            cases h
            refine .mk (t := { pool := t, running := [], futs := [] }) hd.1 (by intro h0; rw [h0] at hd; simp at hd) rfl
              (refillWith_sound hr) ?_ ⟨rfl, rfl, rfl⟩ ht
            exact (finishAll_sound (E := E) (ins := ins) _ _ p₂.launch.pool ms hf).trans (collectAll_sound _ _ _ hc)
          · cases h

end Spot
