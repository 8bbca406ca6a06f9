import Verif.Model.Evaluators

/-!
# spot/pooled_evaluator.h, spot/pooled_evaluator.cpp

All threads of a `pooled_evaluator`: its workers, any number of calls of `evaluate` (each in some client thread; a client that calls
twice is two calls of which the second begins after the first has returned), and a controlling thread that may call
`set_max_threads` repeatedly and finally the destructor. The release of the mutex at the end of a critical section is one transition
with the last action of the section, as nobody can observe the difference.
-/

namespace Spot.Evaluators

/-- A task: number of the call of `evaluate` and index of the point. -/
abbrev Task := Nat × Nat

/-- Where a worker is in `thread_func` (spot/pooled_evaluator.cpp:86-105). -/
inductive WPc
  /-- at the test `while ( !stop_signal_ )`, line 89 -/
  | loop
  /-- waiting for the mutex, line 93 -/
  | lock
  /-- holding the mutex, at the test `while ( queue_.empty() )`, line 94 -/
  | check
  /-- blocked inside `queue_cv_.wait`, mutex released, line 96 -/
  | waiting
  /-- inside `queue_cv_.wait`, woken, waiting for the mutex -/
  | woken
  /-- holding the mutex, at `if ( stop_signal_ )`, line 97 -/
  | afterWait
  /-- the task has been removed from the queue and the mutex released, line 102 -/
  | task (t : Task)
  /-- the task is running, line 103 -/
  | running (t : Task)
  /-- the thread function has returned -/
  | exited
deriving DecidableEq

/-- Where a call of `evaluate` is (spot/pooled_evaluator.cpp:23-51). -/
inductive CPc (F : Type)
  /-- not yet called -/
  | idle
  /-- tasks and futures are prepared, waiting for the mutex, line 38 -/
  | lock
  /-- holding the mutex, line 39 -/
  | pushing
  /-- mutex released, before `notify_all`, line 43 -/
  | notify
  /-- `rs` have been fetched, at the next `f.get()`, line 49 -/
  | get (rs : List (Result F))
  /-- line 50 -/
  | returned (rs : List (Result F))

/-- Where the controlling thread is. `some n` is `set_max_threads` resulting in `n` threads (spot/pooled_evaluator.cpp:53-73), `none`
the destructor (lines 15-21). -/
inductive KPc
  | idle
  /-- destructor: waiting for the mutex, line 17 -/
  | lock
  /-- `stop_threads`, before setting the signal, line 77; the destructor holds the mutex from here on -/
  | stop (op : Option Nat)
  /-- before `notify_all`, line 78 -/
  | notify (op : Option Nat)
  /-- joining the last thread of the vector, lines 79-83 -/
  | join (op : Option Nat)
  /-- `start_threads`, before `stop_signal_ = false`, line 68 -/
  | start (n : Nat)
  /-- `start_threads`, the loop of lines 70-71 -/
  | spawn (n : Nat)
  /-- the destructor has returned -/
  | destroyed
deriving DecidableEq

structure PSt (F : Type) where
  workers : List WPc
  clients : List (CPc F)
  ctl : KPc := .idle
  locked : Bool := false
  stop : Bool := false
  queue : List Task := []
  fut : Task → Fut F := fun _ => .absent
  log : List (Ev Task F) := []

/-- A new evaluator with `n` threads (spot/pooled_evaluator.cpp:8-13, 64-73), none of which has done anything yet, and `m` calls that
will be made. -/
def PSt.init (F : Type) (n m : Nat) : PSt F := { workers := List.replicate n .loop, clients := List.replicate m .idle }

/-- `queue_cv_.notify_all()`. -/
def wakeAll (ws : List WPc) : List WPc := ws.map (fun w => if w = .waiting then .woken else w)

/-- Kinds of transitions: a call of `evaluate` begins; a call of `set_max_threads` or the destructor begins; a waiting thread wakes up
without having been notified; everything else, by the workers and clients, and by the controlling thread. -/
inductive PKind
  | call
  | request
  | spurious
  | work
  | control
deriving DecidableEq

/-- The transitions. `pts` are the points of all calls. -/
inductive PStep {α F : Type} (o : Objective α F) (pts : List (List α)) : PKind → PSt F → PSt F → Prop
  /-- line 89 -/
  | test {s : PSt F} {w : Nat} (h : s.workers[w]? = some .loop) :
      PStep o pts .work s { s with workers := s.workers.set w (if s.stop then .exited else .lock) }
  /-- line 93 -/
  | acquire {s : PSt F} {w : Nat} (h : s.workers[w]? = some .lock) (hm : s.locked = false) :
      PStep o pts .work s { s with workers := s.workers.set w .check, locked := true }
  /-- lines 94, 100-102 -/
  | pop {s : PSt F} {w : Nat} {t q} (h : s.workers[w]? = some .check) (hq : s.queue = t :: q) :
      PStep o pts .work s { s with workers := s.workers.set w (.task t), queue := q, locked := false }
  /-- lines 94, 96 -/
  | wait {s : PSt F} {w : Nat} (h : s.workers[w]? = some .check) (hq : s.queue = []) :
      PStep o pts .work s { s with workers := s.workers.set w .waiting, locked := false }
  /-- a spurious wake-up -/
  | spurious {s : PSt F} {w : Nat} (h : s.workers[w]? = some .waiting) :
      PStep o pts .spurious s { s with workers := s.workers.set w .woken }
  /-- line 96, wait returns -/
  | reacquire {s : PSt F} {w : Nat} (h : s.workers[w]? = some .woken) (hm : s.locked = false) :
      PStep o pts .work s { s with workers := s.workers.set w .afterWait, locked := true }
  /-- lines 97-98, stop -/
  | leave {s : PSt F} {w : Nat} (h : s.workers[w]? = some .afterWait) (hs : s.stop = true) :
      PStep o pts .work s { s with workers := s.workers.set w .exited, locked := false }
  /-- line 97, go on -/
  | goOn {s : PSt F} {w : Nat} (h : s.workers[w]? = some .afterWait) (hs : s.stop = false) :
      PStep o pts .work s { s with workers := s.workers.set w .check }
  /-- line 103, the evaluation starts -/
  | begin {s : PSt F} {w : Nat} {t} (h : s.workers[w]? = some (.task t)) :
      PStep o pts .work s { s with
        workers := s.workers.set w (.running t), fut := Function.update s.fut t .running, log := s.log ++ [.start t] }
  /-- line 103, the evaluation ends -/
  | finish {s : PSt F} {w : Nat} {t ps p out} (h : s.workers[w]? = some (.running t)) (hps : pts[t.1]? = some ps)
      (hp : ps[t.2]? = some p) (ho : o p out) :
      PStep o pts .work s { s with
        workers := s.workers.set w .loop, fut := Function.update s.fut t (.ready (evaluateNoexcept out)), log := s.log ++ [.finish t out] }
  /-- `evaluate` is called; lines 26-34 -/
  | call {s : PSt F} {c : Nat} (h : s.clients[c]? = some .idle) :
      PStep o pts .call s { s with clients := s.clients.set c .lock }
  /-- line 38 -/
  | clientLock {s : PSt F} {c : Nat} (h : s.clients[c]? = some .lock) (hm : s.locked = false) :
      PStep o pts .work s { s with clients := s.clients.set c .pushing, locked := true }
  /-- lines 39-40 -/
  | push {s : PSt F} {c : Nat} {ps} (h : s.clients[c]? = some .pushing) (hps : pts[c]? = some ps) :
      PStep o pts .work s { s with
        clients := s.clients.set c .notify, locked := false, queue := s.queue ++ (List.range ps.length).map (fun i => (c, i))
        fut := fun t => if t.1 = c ∧ t.2 < ps.length then .spawned else s.fut t }
  /-- line 43 -/
  | notify {s : PSt F} {c : Nat} (h : s.clients[c]? = some .notify) :
      PStep o pts .work s { s with clients := s.clients.set c (.get []), workers := wakeAll s.workers }
  /-- line 49 -/
  | get {s : PSt F} {c : Nat} {rs r ps} (h : s.clients[c]? = some (.get rs)) (hps : pts[c]? = some ps) (hk : rs.length < ps.length)
      (hr : s.fut (c, rs.length) = .ready r) :
      PStep o pts .work s { s with
        clients := s.clients.set c (.get (rs ++ [r])), fut := Function.update s.fut (c, rs.length) .taken }
  /-- line 50 -/
  | done {s : PSt F} {c : Nat} {rs ps} (h : s.clients[c]? = some (.get rs)) (hps : pts[c]? = some ps) (hk : rs.length = ps.length) :
      PStep o pts .work s { s with clients := s.clients.set c (.returned rs) }
  /-- `set_max_threads` with a different setting; lines 55-59 -/
  | resize {s : PSt F} {n : Nat} (h : s.ctl = .idle) : PStep o pts .request s { s with ctl := .stop (some n) }
  /-- the destructor is called -/
  | destroy {s : PSt F} (h : s.ctl = .idle) : PStep o pts .request s { s with ctl := .lock }
  /-- line 17 -/
  | ctlLock {s : PSt F} (h : s.ctl = .lock) (hm : s.locked = false) :
      PStep o pts .control s { s with ctl := .stop none, locked := true }
  /-- line 77 -/
  | ctlStop {s : PSt F} {op} (h : s.ctl = .stop op) : PStep o pts .control s { s with ctl := .notify op, stop := true }
  /-- line 78 -/
  | ctlNotify {s : PSt F} {op} (h : s.ctl = .notify op) :
      PStep o pts .control s { s with ctl := .join op, workers := wakeAll s.workers }
  /-- lines 81-82: `threads_.back().join()` returns when that thread has ended -/
  | join {s : PSt F} {op ws} (h : s.ctl = .join op) (hw : s.workers = ws ++ [.exited]) :
      PStep o pts .control s { s with workers := ws }
  /-- line 79, all joined: the destructor returns and releases the mutex -/
  | destroyed {s : PSt F} (h : s.ctl = .join none) (hw : s.workers = []) :
      PStep o pts .control s { s with ctl := .destroyed, locked := false }
  /-- line 79, all joined: on to `start_threads`, lines 60, 66-67 -/
  | joined {s : PSt F} {n} (h : s.ctl = .join (some n)) (hw : s.workers = []) : PStep o pts .control s { s with ctl := .start n }
  /-- line 68 -/
  | start {s : PSt F} {n} (h : s.ctl = .start n) : PStep o pts .control s { s with ctl := .spawn n, stop := false }
  /-- line 71 -/
  | spawn {s : PSt F} {n} (h : s.ctl = .spawn n) (hn : s.workers.length < n) :
      PStep o pts .control s { s with workers := s.workers ++ [.loop] }
  /-- line 70, all threads started -/
  | started {s : PSt F} {n} (h : s.ctl = .spawn n) (hn : ¬ s.workers.length < n) : PStep o pts .control s { s with ctl := .idle }

end Spot.Evaluators
