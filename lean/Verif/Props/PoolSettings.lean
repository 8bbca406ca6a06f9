import Verif.Model.PoolSettings
import Verif.Props.PoolSelect
import Verif.Props.Pool

/-!
# C123: the settings of a pool
-/

namespace Spot

/-! ## The specification -/

/-- What the user asked for with `key`: the default `d` without such a key, the value of its text otherwise. -/
def Asked {α : Type} (parse : Str → Option α) (pn : Settings) (key : String) (d v : α) : Prop :=
  (pn key.toList = none ∧ v = d) ∨ ∃ t, pn key.toList = some t ∧ parse t = some v

/-- The text of `key` is no value. -/
def Unreadable {α : Type} (parse : Str → Option α) (pn : Settings) (key : String) : Prop :=
  ∃ t, pn key.toList = some t ∧ parse t = none

/-- `w`, ..., `c` are the settings of a pool that the user asked for. -/
structure AskedPool (num : Str → Option Nat) (bool : Str → Option Bool) (pn : Settings) (w s l : Nat) (u : Bool) (a c : Nat) : Prop where
  window : Asked num pn "prediction_window" 100 w
  start : Asked num pn "prediction_start" w s
  lookAhead : Asked num pn "prediction_look_ahead" w l
  usePredicted : Asked bool pn "use_predicted_fitness_stop_condition" false u
  active : Asked num pn "active_optimizations" 6 a
  concurrent : Asked num pn "concurrent_optimizations" 3 c

/-- What a pool makes of an optimizer `m` added to it. -/
structure AskedMember (info : ObjInfo) (w s l : Nat) (u : Bool) (m m' : Opt) : Prop where
  conds : m'.conds = m.conds ++ (if u then [.predicted info.worstFitness l s] else [])
  window : m'.vis.capacity = if u then max w s else w
  steps : m'.vis.stepCount = m.vis.stepCount
  best : m'.vis.bestFitness = m.vis.bestFitness ∧ m'.vis.bestPoint = m.vis.bestPoint
  log : m'.log = m.log ∧ m'.stopped = m.stopped

/-! ## Proofs -/

theorem Asked.unique {α : Type} {parse : Str → Option α} {pn : Settings} {key : String} {d v w : α} (h : Asked parse pn key d v) (h' : Asked parse pn key d w) : v = w := by
  rcases h with ⟨h1, rfl⟩ | ⟨t, h1, h2⟩ <;> rcases h' with ⟨h3, rfl⟩ | ⟨t', h3, h4⟩
  · rfl
  · rw [h1] at h3; cases h3
  · rw [h1] at h3; cases h3
  · rw [h1] at h3; cases h3; rw [h2] at h4; exact Option.some.inj h4

theorem get_cases {α : Type} (parse : Str → Option α) (pn : Settings) (key : String) (d : α) :
    (∃ v, pn.get parse key.toList (some d) = .ok v ∧ Asked parse pn key d v) ∨ (pn.get parse key.toList (some d) = .err ∧ Unreadable parse pn key) := by
  unfold Settings.get Asked Unreadable
  cases h : pn key.toList with
  | none => exact .inl ⟨d, rfl, .inl ⟨rfl, rfl⟩⟩
  | some t =>
    cases h2 : parse t with
    | none => exact .inr ⟨by simp [h2], t, rfl, h2⟩
    | some v => exact .inl ⟨v, by simp [h2], .inr ⟨t, rfl, h2⟩⟩

theorem Asked.readable {α : Type} {parse : Str → Option α} {pn : Settings} {key : String} {d v : α} (h : Asked parse pn key d v) : ¬ Unreadable parse pn key := by
  rintro ⟨t, h1, h2⟩
  rcases h with ⟨h3, -⟩ | ⟨t', h3, h4⟩
  · rw [h1] at h3; cases h3
  · rw [h1] at h3; cases h3; rw [h2] at h4; cases h4

variable (num : Str → Option Nat) (bool : Str → Option Bool) (pn : Settings) (info : ObjInfo)

theorem ofNode_cases : (∃ w s l u a c, AskedPool num bool pn w s l u a c ∧ Pool.ofNode num bool pn info = .ok (Pool.init ⟨w, s, l, u, a, c⟩ info)) ∨
    (Pool.ofNode num bool pn info = .err ∧ (Unreadable num pn "prediction_window" ∨ Unreadable num pn "prediction_start" ∨ Unreadable num pn "prediction_look_ahead" ∨
      Unreadable bool pn "use_predicted_fitness_stop_condition" ∨ Unreadable num pn "active_optimizations" ∨ Unreadable num pn "concurrent_optimizations")) := by
  unfold Pool.ofNode poolOrder
  simp only [PoolFields.run, PoolFields.set]
  rcases get_cases num pn "prediction_window" 100 with ⟨w, e1, h1⟩ | ⟨e1, h1⟩
  swap
  · right; rw [e1]; exact ⟨rfl, .inl h1⟩
  rw [e1]; simp only [Res.ok_bind]
  rcases get_cases num pn "prediction_start" w with ⟨s, e2, h2⟩ | ⟨e2, h2⟩
  swap
  · right; rw [e2]; exact ⟨rfl, .inr (.inl h2)⟩
  rw [e2]; simp only [Res.ok_bind]
  rcases get_cases num pn "prediction_look_ahead" w with ⟨l, e3, h3⟩ | ⟨e3, h3⟩
  swap
  · right; rw [e3]; exact ⟨rfl, .inr (.inr (.inl h3))⟩
  rw [e3]; simp only [Res.ok_bind]
  rcases get_cases bool pn "use_predicted_fitness_stop_condition" false with ⟨u, e4, h4⟩ | ⟨e4, h4⟩
  swap
  · right; rw [e4]; exact ⟨rfl, .inr (.inr (.inr (.inl h4)))⟩
  rw [e4]; simp only [Res.ok_bind]
  rcases get_cases num pn "active_optimizations" 6 with ⟨a, e5, h5⟩ | ⟨e5, h5⟩
  swap
  · right; rw [e5]; exact ⟨rfl, .inr (.inr (.inr (.inr (.inl h5))))⟩
  rw [e5]; simp only [Res.ok_bind]
  rcases get_cases num pn "concurrent_optimizations" 3 with ⟨c, e6, h6⟩ | ⟨e6, h6⟩
  swap
  · right; rw [e6]; exact ⟨rfl, .inr (.inr (.inr (.inr (.inr h6))))⟩
  rw [e6]; simp only [Res.ok_bind]
  exact .inl ⟨w, s, l, u, a, c, ⟨h1, h2, h3, h4, h5, h6⟩, rfl⟩

/-- **C123.** A pool with settings is made if and only if those that are given can be read; the settings it then has are those asked for, and prediction starts after the window that was asked for, and
looks as far ahead, if nothing else was. -/
theorem C123_settings (p : Pool) : Pool.ofNode num bool pn info = .ok p ↔
    ∃ w s l u a c, AskedPool num bool pn w s l u a c ∧ p = Pool.init { window := w, start := s, lookAhead := l, usePredicted := u, active := a, concurrent := c } info := by
  rcases ofNode_cases num bool pn info with ⟨w, s, l, u, a, c, h, e⟩ | ⟨e, h⟩
  · rw [e]
    constructor
    · intro hp; cases hp; exact ⟨w, s, l, u, a, c, h, rfl⟩
    · rintro ⟨w', s', l', u', a', c', h', rfl⟩
      obtain rfl := h.window.unique h'.window
      obtain rfl := h.start.unique h'.start
      obtain rfl := h.lookAhead.unique h'.lookAhead
      obtain rfl := h.usePredicted.unique h'.usePredicted
      obtain rfl := h.active.unique h'.active
      obtain rfl := h.concurrent.unique h'.concurrent
      rfl
  · rw [e]
    constructor
    · intro hp; cases hp
    · rintro ⟨w', s', l', u', a', c', h', -⟩
      rcases h with h | h | h | h | h | h
      · exact absurd h h'.window.readable
      · exact absurd h h'.start.readable
      · exact absurd h h'.lookAhead.readable
      · exact absurd h h'.usePredicted.readable
      · exact absurd h h'.active.readable
      · exact absurd h h'.concurrent.readable

/-- **C123.** The constructor throws if and only if the text of one of the keys is no value; no setting is read before it has a value. -/
theorem C123_throws : Pool.ofNode num bool pn info ≠ .ub ∧ (Pool.ofNode num bool pn info = .err ↔
    Unreadable num pn "prediction_window" ∨ Unreadable num pn "prediction_start" ∨ Unreadable num pn "prediction_look_ahead" ∨
      Unreadable bool pn "use_predicted_fitness_stop_condition" ∨ Unreadable num pn "active_optimizations" ∨ Unreadable num pn "concurrent_optimizations") := by
  rcases ofNode_cases num bool pn info with ⟨w, s, l, u, a, c, h', e⟩ | ⟨e, h⟩
  · rw [e]
    refine ⟨by simp, by simp, ?_⟩
    rintro (h | h | h | h | h | h)
    · exact absurd h h'.window.readable
    · exact absurd h h'.start.readable
    · exact absurd h h'.lookAhead.readable
    · exact absurd h h'.usePredicted.readable
    · exact absurd h h'.active.readable
    · exact absurd h h'.concurrent.readable
  · rw [e]; exact ⟨by simp, fun _ => h, fun _ => rfl⟩

/-- **C123.** Other keys make no difference. -/
theorem C123_other_keys (pn' : Settings) (h : ∀ k ∈ ["prediction_window", "prediction_start", "prediction_look_ahead", "use_predicted_fitness_stop_condition", "active_optimizations",
    "concurrent_optimizations"], pn' k.toList = pn k.toList) : Pool.ofNode num bool pn' info = Pool.ofNode num bool pn info := by
  simp only [List.mem_cons, List.not_mem_nil, or_false, forall_eq_or_imp, forall_eq] at h
  obtain ⟨h1, h2, h3, h4, h5, h6⟩ := h
  simp only [Pool.ofNode, poolOrder, PoolFields.run, PoolFields.set, Settings.get, h1, h2, h3, h4, h5, h6]

/-- **C123.** A new pool has no members, has made no step and has not stopped. -/
theorem C123_new {p : Pool} (h : Pool.ofNode num bool pn info = .ok p) : p.members = [] ∧ p.queue = [] ∧ p.own.stepCount = 0 ∧ p.stopped = none ∧ p.log = [] := by
  obtain ⟨w, s, l, u, a, c, -, rfl⟩ := (C123_settings num bool pn info p).1 h
  exact ⟨rfl, rfl, rfl, rfl, rfl⟩

variable {num bool pn info}

/-- **C123.** A member added to a new pool keeps the fitness of as many steps as the window asked for (or those its prediction needs), and its stop conditions are its own and, only if that was asked for,
the one for predicted fitness, with the start and the look-ahead asked for. -/
theorem C123_member {w s l : Nat} {u : Bool} {a c : Nat} (hp : AskedPool num bool pn w s l u a c) {p : Pool} (h : Pool.ofNode num bool pn info = .ok p) (m : Opt) :
    ∃ m', (p.push m).members = [m'] ∧ m'.conds = m.conds ++ (if u then [.predicted info.worstFitness l s] else []) ∧
      m'.vis.capacity = (if u then max w s else w) ∧ m'.vis.stepCount = m.vis.stepCount ∧ m'.vis.bestFitness = m.vis.bestFitness := by
  obtain rfl : p = Pool.init ⟨w, s, l, u, a, c⟩ info := by
    have := (C123_settings num bool pn info _).2 ⟨w, s, l, u, a, c, hp, rfl⟩
    rw [h] at this; exact Res.ok.inj this
  refine ⟨_, rfl, ?_⟩
  cases u with
  | false => exact ⟨(List.append_nil _).symm, rfl, rfl, rfl⟩
  | true =>
    refine ⟨rfl, ?_, ?_, ?_⟩
    · show (if s > w then _ else _ : Vis).capacity = max w s
      split
      · show s = max w s; omega
      · show w = max w s; omega
    · show (if s > w then _ else _ : Vis).stepCount = _
      split <;> rfl
    · show (if s > w then _ else _ : Vis).bestFitness = _
      split <;> rfl

theorem push_fold (cfg : PoolCfg) : ∀ (ms : List Opt) (p : Pool), p.cfg = cfg → p.own.info = info → (∃ ms', (ms.foldl Pool.push p).members = p.members ++ ms' ∧
    List.Forall₂ (AskedMember info cfg.window cfg.start cfg.lookAhead cfg.usePredicted) ms ms')
  | [], p, _, _ => ⟨[], by simp, .nil⟩
  | m :: ms, p, hc, hi => by
    obtain ⟨ms', h1, h2⟩ := push_fold cfg ms (p.push m) hc hi
    subst hc; subst hi
    refine ⟨_ :: ms', ?_, List.Forall₂.cons (b := if p.cfg.usePredicted then ({ m with vis := m.vis.setWindow p.cfg.window } : Opt).addCond (.predicted p.own.info.worstFitness p.cfg.lookAhead p.cfg.start) else { m with vis := m.vis.setWindow p.cfg.window }) ?_ h2⟩
    · rw [List.foldl_cons, h1]; simp [Pool.push]
    · cases hu : p.cfg.usePredicted with
      | false => exact ⟨(List.append_nil _).symm, rfl, rfl, ⟨rfl, rfl⟩, rfl, rfl⟩
      | true =>
        rw [if_pos rfl]
        unfold Opt.addCond
        have hmw : (Cond.predicted p.own.info.worstFitness p.cfg.lookAhead p.cfg.start).minWindow = p.cfg.start := rfl
        have hcap : (m.vis.setWindow p.cfg.window).capacity = p.cfg.window := rfl
        dsimp only
        rw [hmw, hcap]
        refine ⟨by simp, ?_, ?_, ⟨?_, ?_⟩, rfl, rfl⟩
        all_goals dsimp only
        all_goals split
        all_goals first | rfl | (simp [Vis.setWindow]; omega)

/-- **C123.** The same for any number of members, in the order in which they are added. -/
theorem C123_members {w s l : Nat} {u : Bool} {a c : Nat} (hp : AskedPool num bool pn w s l u a c) {p : Pool} (h : Pool.ofNode num bool pn info = .ok p) (ms : List Opt) :
    List.Forall₂ (AskedMember info w s l u) ms (ms.foldl Pool.push p).members := by
  obtain rfl : p = Pool.init ⟨w, s, l, u, a, c⟩ info := by
    have := (C123_settings num bool pn info _).2 ⟨w, s, l, u, a, c, hp, rfl⟩
    rw [h] at this; exact Res.ok.inj this
  obtain ⟨ms', h1, h2⟩ := push_fold ⟨w, s, l, u, a, c⟩ ms (Pool.init ⟨w, s, l, u, a, c⟩ info) rfl (rfl : _ = info)
  rw [h1]; exact h2

/-- **C123.** No more members are stepped at once than asked for. -/
theorem C123_concurrent (E : OptEnv) {w s l : Nat} {u : Bool} {a c : Nat} (hp : AskedPool num bool pn w s l u a c) {p0 p : Pool} (h : Pool.ofNode num bool pn info = .ok p0)
    {P : Opt → Prop} {ls : List (List Nat × List Nat)} (hh : Pool.Hist E P p0 ls p) : ∀ x ∈ ls, x.2.Nodup ∧ x.2.length ≤ c := by
  obtain rfl : p0 = Pool.init ⟨w, s, l, u, a, c⟩ info := by
    have := (C123_settings num bool pn info _).2 ⟨w, s, l, u, a, c, hp, rfl⟩
    rw [h] at this; exact Res.ok.inj this
  exact fun x hx => ((C41_selected_and_stepped _ info hh).2 x hx).2

/-- **C123.** The priorities of the members: of those that have not stopped as many count as asked for; the best fitness possible is assumed for those that have not made the steps asked for, and for the
others what is predicted for as many steps ahead as asked for. -/
theorem C123_priorities (E : OptEnv) {w s l : Nat} {u : Bool} {a c : Nat} (hp : AskedPool num bool pn w s l u a c) {p0 : Pool} (h : Pool.ofNode num bool pn info = .ok p0)
    {ms ms' : List Opt} {preds : List Dbl} (hl : predictLoop E p0.cfg info 0 ms = (ms', .ok preds)) {i : Nat} {m : Opt} {x : Dbl} (hm : ms[i]? = some m) (hx : preds[i]? = some x) :
    if m.Going E ∧ ((ms.take i).filter (fun m => decide (m.Going E))).length < a then
      (if s ≤ m.vis.stepCount then (m.vis.predictedFitness E l).2 = .ok x else x = info.bestFitness)
    else x = info.worstFitness := by
  obtain rfl : p0 = Pool.init ⟨w, s, l, u, a, c⟩ info := by
    have := (C123_settings num bool pn info _).2 ⟨w, s, l, u, a, c, hp, rfl⟩
    rw [h] at this; exact Res.ok.inj this
  have := (predictLoop_priorities E _ info ms 0 ms' preds hl).2 i m x hm hx
  rw [Nat.zero_add] at this
  exact this

/-- Only a window is given, and a setting that does not exist: prediction starts after 10 steps and looks 10 steps ahead. -/
example : ∃ p, Pool.ofNode (fun t => if t = "10".toList then some 10 else none) (fun _ => none)
      (fun k => if k = "prediction_window".toList then some "10".toList else if k = "other".toList then some "x".toList else none) optInfo = .ok p ∧
    p.cfg.window = 10 ∧ p.cfg.start = 10 ∧ p.cfg.lookAhead = 10 ∧ p.cfg.active = 6 ∧ p.cfg.concurrent = 3 ∧ p.cfg.usePredicted = false :=
  ⟨_, rfl, by decide +kernel⟩

/-- A number of active members that is no number. -/
example : Pool.ofNode (fun _ => none) (fun _ => none) (fun k => if k = "active_optimizations".toList then some "many".toList else none) optInfo = .err := by
  refine (C123_throws _ _ _ _).2.2 (.inr (.inr (.inr (.inr (.inl ⟨"many".toList, ?_, rfl⟩)))))
  decide +kernel

end Spot
