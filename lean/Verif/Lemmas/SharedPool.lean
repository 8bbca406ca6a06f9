import Verif.Model.SharedPool
import Verif.Props.Evaluators

/-!
# Executions of a shared evaluator are executions of the evaluator
-/

namespace Spot.Evaluators

variable {α F S : Type}

theorem getElem?_append_some {β : Type} {l m : List β} {i : Nat} {a : β} (h : l[i]? = some a) : (l ++ m)[i]? = some a := by
  have : i < l.length := by
    by_contra hc; rw [List.getElem?_eq_none (by omega)] at h; simp at h
  rw [List.getElem?_append_left this]; exact h

theorem set_append_some {β : Type} {l m : List β} {i : Nat} {a b : β} (h : l[i]? = some a) : (l ++ m).set i b = l.set i b ++ m := by
  have : i < l.length := by
    by_contra hc; rw [List.getElem?_eq_none (by omega)] at h; simp at h
  exact List.set_append_left i b this

/-- The evaluator with one more call that has not begun. -/
def PSt.more (s : PSt F) : PSt F := { s with clients := s.clients ++ [.idle] }

theorem PStep.more {o : Objective α F} {pts : List (List α)} {p : List α} {k : PKind} {s t : PSt F} (h : PStep o pts k s t) :
    PStep o (pts ++ [p]) k s.more t.more := by
  cases h with
  | test h => exact .test (s := s.more) h
  | acquire h hm => exact .acquire (s := s.more) h hm
  | pop h hq => exact .pop (s := s.more) h hq
  | wait h hq => exact .wait (s := s.more) h hq
  | spurious h => exact .spurious (s := s.more) h
  | reacquire h hm => exact .reacquire (s := s.more) h hm
  | leave h hs => exact .leave (s := s.more) h hs
  | goOn h hs => exact .goOn (s := s.more) h hs
  | «begin» h => exact .begin (s := s.more) h
  | finish h hps hp ho => exact .finish (s := s.more) h (getElem?_append_some hps) hp ho
  | call h =>
    have := PStep.call (o := o) (pts := pts ++ [p]) (s := s.more) (getElem?_append_some h)
    simpa only [PSt.more, set_append_some h] using this
  | clientLock h hm =>
    have := PStep.clientLock (o := o) (pts := pts ++ [p]) (s := s.more) (getElem?_append_some h) hm
    simpa only [PSt.more, set_append_some h] using this
  | push h hps =>
    have := PStep.push (o := o) (pts := pts ++ [p]) (s := s.more) (getElem?_append_some h) (getElem?_append_some hps)
    simpa only [PSt.more, set_append_some h] using this
  | notify h =>
    have := PStep.notify (o := o) (pts := pts ++ [p]) (s := s.more) (getElem?_append_some h)
    simpa only [PSt.more, set_append_some h] using this
  | get h hps hk hr =>
    have := PStep.get (o := o) (pts := pts ++ [p]) (s := s.more) (getElem?_append_some h) (getElem?_append_some hps) hk hr
    simpa only [PSt.more, set_append_some h] using this
  | done h hps hk =>
    have := PStep.done (o := o) (pts := pts ++ [p]) (s := s.more) (getElem?_append_some h) (getElem?_append_some hps) hk
    simpa only [PSt.more, set_append_some h] using this
  | resize h => exact .resize (s := s.more) h
  | destroy h => exact .destroy (s := s.more) h
  | ctlLock h hm => exact .ctlLock (s := s.more) h hm
  | ctlStop h => exact .ctlStop (s := s.more) h
  | ctlNotify h => exact .ctlNotify (s := s.more) h
  | join h hw => exact .join (s := s.more) h hw
  | destroyed h hw => exact .destroyed (s := s.more) h hw
  | joined h hw => exact .joined (s := s.more) h hw
  | start h => exact .start (s := s.more) h
  | spawn h hn => exact .spawn (s := s.more) h hn
  | started h hn => exact .started (s := s.more) h hn

theorem Exec.more' {o : Objective α F} {pts : List (List α)} (p : List α) {ks : List PKind} {s t : PSt F} (h : Exec (PStep o pts) ks s t) :
    Exec (PStep o (pts ++ [p])) ks s.more t.more := by
  induction h with
  | nil => exact .nil
  | snoc _ st ih => exact ih.snoc st.more

theorem Exec.more {o : Objective α F} {pts : List (List α)} (p : List α) {ks : List PKind} {n : Nat} {t : PSt F}
    (h : Exec (PStep o pts) ks (PSt.init F n pts.length) t) : Exec (PStep o (pts ++ [p])) ks (PSt.init F n (pts ++ [p]).length) t.more := by
  have := h.more' p
  have hi : (PSt.init F n pts.length).more = PSt.init F n (pts ++ [p]).length := by
    simp [PSt.more, PSt.init, List.replicate_succ']
  rwa [hi] at this

end Spot.Evaluators
