import Verif.Model.FileReporter

/-!
# spot/file_reporter.cpp: the operations on the folder

`Model/FileReporter.lean` describes the folder after each callback. Here a callback is the list of operations that the program asks of the operating system, so that one can say what is in the folder
when the process dies in between. A `std::ofstream` has a buffer: what is inserted is appended to the file in pieces, of any size and at any time until the stream is flushed or destroyed. A file can be removed
while it is open (POSIX; on Windows `remove` then fails). What has been appended survives the process.
-/

namespace Spot

/-- An operation on the folder. -/
inductive FsCall
  /-- Create the file, or make it empty. -/
  | create (name : Str)
  | append (name s : Str)
  | remove (name : Str)

/-- Its effect. -/
def FsCall.exec (fs : Str → Option Str) : FsCall → Str → Option Str
  | .create name => putFile fs name []
  | .append name s => match fs name with
    | some t => putFile fs name (t ++ s)
    | none => fs
  | .remove name => removeFile fs name

/-- All effects, in order. -/
def execAll (fs : Str → Option Str) (l : List FsCall) : Str → Option Str := l.foldl FsCall.exec fs

/-- What is written of a text: all of it, or, if a write fails (the disk is full, say), some part at the beginning: after an error the stream accepts nothing. -/
def Output (fails : Bool) (s text : Str) : Prop := if fails then s <+: text else s = text

/-- spot/file_reporter.cpp:114-139: the file that the cleanup removes. -/
def FileRep.victim (c : FileCfg) (r : FileRep) (minimize : Bool) (best : Dbl) : Option Str := match r.recent with
  | [f1, f2] => if Dbl.lt (improvement minimize f1.2 f2.2) c.minImp && Dbl.lt (improvement minimize f2.2 best) c.minImp then some f2.1 else none
  | _ => none

/-- spot/file_reporter.cpp:103-142: every line of a search point ends with `std::endl` (spot/search_point.cpp:120), which empties the buffer, so all of it is in the file when `str << sp` is done. -/
inductive FileRep.WriteCalls (fails : Bool) (c : FileCfg) (r : FileRep) (x : Call) (tryCleanup : Bool) : List FsCall → Prop
  | mk {sp : SearchPoint} {a : List Str} (hs : SearchPoint.ofValues x.upd x.vis.curPoint = .ok sp) (ho : Output fails a.flatten (sp.write c.fmt)) :
      WriteCalls fails c r x tryCleanup (.create (c.parName x.vis) :: a.map (.append (c.parName x.vis)) ++
        (if tryCleanup then ((r.victim c x.vis.info.minimize x.vis.curFitness).map FsCall.remove).toList else []))
  /-- The file cannot be opened: the stream is in an error state and nothing is written; nobody checks. -/
  | unopened {sp : SearchPoint} (hf : fails = true) (hs : SearchPoint.ofValues x.upd x.vis.curPoint = .ok sp) :
      WriteCalls fails c r x tryCleanup (if tryCleanup then ((r.victim c x.vis.info.minimize x.vis.curFitness).map FsCall.remove).toList else [])

/-- spot/file_reporter.cpp:56-63: each stream is destroyed before the next is opened. -/
inductive IndividualCalls (fails : Bool) (c : FileCfg) (v : Vis) : Nat → List Pt → List FsCall → Prop
  | nil {i : Nat} : IndividualCalls fails c v i [] []
  | cons {i : Nat} {p : Pt} {ps : List Pt} {a : List Str} {l : List FsCall} (ho : Output fails a.flatten ((SearchPoint.mk v.info p).write c.fmt)) (t : IndividualCalls fails c v (i + 1) ps l) :
      IndividualCalls fails c v i (p :: ps) (.create (decN 4 v.stepCount ++ '_' :: ("individual".toList ++ decN 2 i ++ ".par".toList)) ::
        a.map (.append (decN 4 v.stepCount ++ '_' :: ("individual".toList ++ decN 2 i ++ ".par".toList))) ++ l)
  | unopened {i : Nat} {p : Pt} {ps : List Pt} {l : List FsCall} (hf : fails = true) (t : IndividualCalls fails c v (i + 1) ps l) : IndividualCalls fails c v i (p :: ps) l

/-- spot/file_reporter.cpp:23-101: the operations of a callback, without those on history.txt. -/
def FileRep.Calls (fails : Bool) (c : FileCfg) (r : FileRep) (x : Call) (l : List FsCall) : Prop :=
  match x.event with
  | .preEvaluate pop => if c.individuals then IndividualCalls fails c x.vis 0 pop l else l = []
  | .postEvaluate _ _ _ =>
    if c.maxSteps ≤ (x.vis.stepCount % 2 ^ 64 + 2 ^ 64 - r.lastOutput) % 2 ^ 64 then r.WriteCalls fails c x false l else l = []
  | .newBest _ _ => r.WriteCalls fails c x true l
  | .start | .postStep | .preStep | .stop _ => l = []

/-- What is in the folder if the process dies during a callback. -/
def FileRep.Crash (fails : Bool) (c : FileCfg) (r : FileRep) (x : Call) (fs : Str → Option Str) : Prop :=
  ∃ l k, r.Calls fails c x l ∧ fs = execAll r.files (l.take k)

/-- Callbacks, with the data members as in `FileRep.on`. -/
inductive FileRep.Runs (fails : Bool) (c : FileCfg) (E : OptEnv) : FileRep → List Call → FileRep → Prop
  | nil {r : FileRep} : Runs fails c E r [] r
  | cons {r r1 r' : FileRep} {x : Call} {xs : List Call} {l : List FsCall} (hl : r.Calls fails c x l) (h1 : r.on c E x = .ok r1)
      (t : Runs fails c E { r1 with files := execAll r.files l } xs r') : Runs fails c E r (x :: xs) r'

/-- `history_` (spot/file_reporter.h:32): what has been inserted since it was opened, and how many characters are known to be in the file. -/
structure HistStream where
  text : Str
  safe : Nat := 0

/-- spot/file_reporter.cpp:23-52, 77-101: a callback. `std::endl` and `flush` empty the buffer. -/
def HistStream.on (c : FileCfg) (E : OptEnv) (h : Option HistStream) (x : Call) : Option HistStream :=
  if c.fitHistory then
    match x.event with
    | .start => some { text := c.header x ++ ['\n'], safe := (c.header x).length + 1 }
    | .postStep => h.map fun h =>
      let text := h.text ++ (c.histLine E x ++ ['\n'])
      { text := text, safe := if x.vis.stepCount % 10 = 9 then text.length else h.safe }
    | .stop _ => h.map fun h => { h with safe := h.text.length }
    | .preEvaluate _ | .postEvaluate _ _ _ | .newBest _ _ | .preStep => h
  else h

/-- What can be in history.txt between two callbacks. -/
def HistStream.Disk (h : HistStream) (d : Str) : Prop := h.safe ≤ d.length ∧ d <+: h.text

/-- What is in history.txt, after some callbacks, if the process dies during the next callback `x` (which does not open the file): everything up to the last time that the buffer was emptied, and
perhaps some of what was inserted since. -/
def HistStream.Crash (c : FileCfg) (E : OptEnv) (h : HistStream) (x : Call) (d : Str) : Prop :=
  h.safe ≤ d.length ∧ ∃ h', HistStream.on c E (some h) x = some h' ∧ d <+: h'.text

end Spot
