import Verif.Spec.Optimizer
import Verif.Model.Evaluators

/-!
# spot/optimizer.cpp:204-222 `verify_results`, the messages

Model/Optimizer keeps only whether the error condition is set; here the results of evaluations and the error condition carry their messages.
-/

namespace Spot

open Evaluators (Result)

/-- `xo::flat_set< string >::insert`: a sorted vector without duplicates (characters are compared by their code). -/
def flatInsert (x : String) : List String → List String
  | [] => [x]
  | y :: ys => if x < y then x :: y :: ys else if x = y then y :: ys else y :: flatInsert x ys

/-- `!r` of a result (spot/optimizer.cpp:206). -/
def isError : Result Dbl → Bool
  | .error _ => true
  | .ok _ => false

/-- One round of the loop of spot/optimizer.cpp:212-213. -/
def collectOne (ms : List String) : Result Dbl → List String
  | .error e => flatInsert e ms
  | .ok _ => ms

/-- spot/optimizer.cpp:211-213: the loop over the results. -/
def collectErrors (rs : List (Result Dbl)) : List String :=
  rs.foldl collectOne []

/-- spot/optimizer.cpp:204-222: the message that the error condition is set to, or nothing. `toStr` is `xo::to_str` of a set of strings. `errors` and `max_errors` are compared
as integers. -/
def verifyResults (toStr : List String → String) (maxErrors : Int) (rs : List (Result Dbl)) : Option String :=
  let errors := (rs.filter isError).length
  let allowed : Int := if maxErrors ≥ 0 then maxErrors else (rs.length : Int) + maxErrors
  if (errors : Int) > allowed then
    let messages := collectErrors rs
    let messages := if messages.isEmpty then flatInsert "Unknown error" messages else messages
    some ("Errors found in " ++ toString errors ++ " of " ++ toString rs.length ++ " evaluations (" ++ toString allowed ++ " allowed):\n" ++ toStr messages)
  else none

/-- What happens outside the optimizer during one step, with the messages of the evaluations that failed. -/
structure MsgIn where
  pop : List Pt
  res : List (Result Dbl)
  interrupt : Bool := false

/-- Without the messages. -/
def MsgIn.toIn (i : MsgIn) : In := { pop := i.pop, res := i.res.map fun r => match r with | .ok v => some v | .error _ => none, interrupt := i.interrupt }

/-- A call of the interface. -/
inductive MsgOp
  | step (i : MsgIn)
  /-- Any call but `step`. -/
  | other (o : Op)

def MsgOp.toOp : MsgOp → Op
  | .step i => .step i.toIn
  | .other o => o

/-- An optimizer and the message of its error condition (spot/stop_condition.h:25-32, empty if it is not set). -/
structure MsgOpt where
  opt : Opt
  what : String := ""

/-- The message is set in line 218 of spot/optimizer.cpp and nowhere else; a step without free parameters throws before (line 47). -/
def MsgOp.apply (E : OptEnv) (toStr : List String → String) (s : MsgOpt) : MsgOp → MsgOpt
  | .step i => { opt := (s.opt.step E (Opt.internal E i.toIn)).1
                 what := if s.opt.vis.info.dim = 0 then s.what else (verifyResults toStr s.opt.vis.maxErrors i.res).getD s.what }
  | .other o => { s with opt := o.apply E s.opt }

def MsgOpt.after (E : OptEnv) (toStr : List String → String) (s : MsgOpt) (h : List MsgOp) : MsgOpt := h.foldl (MsgOp.apply E toStr) s

end Spot
