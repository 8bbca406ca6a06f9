import Verif.Model.SearchPoint

/-!
# spot/par_io.h, spot/par_io.cpp, spot/par_tools.h
-/

namespace Spot

/-- The virtual functions of `par_io` (spot/par_io.h:23-24) as implemented by a class with state `σ`. -/
structure Backend (σ : Type) where
  tryGet : σ → Str → Res (Option Dbl)
  add : σ → ParInfo → σ × Res Dbl

/-- spot/objective_info.h:24-25. -/
def oiBackend : Backend ObjInfo := ⟨fun i n => .ok (i.tryGet n), ObjInfo.add⟩

/-- spot/search_point.h:24-25. -/
def spBackend : Backend SearchPoint := ⟨SearchPoint.tryGet, SearchPoint.add⟩

/-- spot/par_io.h:59-65 `null_objective_info`. -/
def nullBackend : Backend Unit := ⟨fun _ _ => .ok none, fun _ p => ((), .ok p.mean)⟩

/-- spot/static_par_set.cpp:46-57. -/
def staticBackend : Backend StaticPars := ⟨fun s n => .ok (s.lookup n), fun s p => (mapSet s p.name p.mean, .ok p.mean)⟩

/-- External functions used by `par_io` (xo, parameters of the model): the number reader, `xo::replace_str( text, from, to )` and
`xo::needs_quotes`. -/
structure Env where
  R : Reader
  replace : Str → Str → Str → Str
  needsQuotes : Str → Bool

/-- spot/par_io.h:42-43: the data members of `par_io`. The prefix is an `xo::stack_string`: a stack of segments (here innermost
first) whose text is their concatenation; `set` makes the given text the only segment (xo, assumed). The stack of options has
its top first. -/
structure IOState where
  prefixes : List Str
  options : List ParOptions
deriving DecidableEq

/-- spot/par_io.h:18: constructor. -/
def IOState.init : IOState := ⟨[], [ParOptions.default]⟩

/-- spot/par_io.h:30 `prefix()`. -/
def segText (segs : List Str) : Str := segs.reverse.flatten
def IOState.prefixText (io : IOState) : Str := segText io.prefixes

/-- spot/par_io.h:36-37 `options()`, with its assertion. -/
def IOState.opts (io : IOState) : Res ParOptions :=
  match io.options with
  | [] => .ub
  | o :: _ => .ok o

variable {σ : Type}

/-- spot/par_io.cpp:8-18 `get( name, mean, std, min, max )`. -/
def getNum (B : Backend σ) (io : IOState) (s : σ) (name : Str) (mean std min max : Dbl) : σ × Res Dbl :=
  let full := io.prefixText ++ name
  match B.tryGet s full with
  | .ok (some v) => (s, .ok v)
  | .ok none => match ParInfo.make full mean std min max with
    | .ok p => B.add s p
    | .err => (s, .err)
    | .ub => (s, .ub)
  | .err => (s, .err)
  | .ub => (s, .ub)

/-- spot/par_io.cpp:24-25: replace all aliases, in order. -/
def aliased (env : Env) (o : ParOptions) (n : Str) : Str :=
  o.aliases.foldl (fun t a => env.replace t a.1 a.2) n

/-- spot/par_io.cpp:38-41: look for the reference under the prefix, then under every shorter prefix. -/
def refLoop (tg : Str → Res (Option Dbl)) (ref : Str) : List Str → Res (Option Dbl)
  | [] => .ok none
  | p :: ps => match tg (segText (p :: ps) ++ ref) with
    | .ok (some v) => .ok (some v)
    | .ok none => refLoop tg ref ps
    | .err => .err
    | .ub => .ub

/-- spot/par_io.cpp:34-46: value of a reference to another parameter. -/
def getRef (tg : Str → Res (Option Dbl)) (io : IOState) (ref : Str) : Res Dbl := do
  let r ← if io.prefixText.isEmpty then .ok none else refLoop tg ref io.prefixes
  match r with
  | some v => .ok v
  | none => do
    let r ← tg ref
    match r with
    | some v => .ok v
    | none => .err

/-- `!str.empty() && std::isalpha( str.front() )` (spot/par_io.cpp:34; `isalpha` in the C locale). -/
def isRef (s : Str) : Bool :=
  match s with
  | [] => false
  | c :: _ => c.isAlpha

/-- spot/par_io.cpp:48-53: register a new parameter, unless it is a constant. -/
def addNew (B : Backend σ) (env : Env) (o : ParOptions) (s : σ) (full : Str) (pn : PNode) : σ × Res Dbl :=
  if env.needsQuotes full then (s, .err)
  else match ParInfo.parse env.R full pn o with
    | .ok p => if p.isConstant then (s, .ok p.mean) else B.add s p
    | .err => (s, .err)
    | .ub => (s, .ub)

/-- spot/par_io.cpp:20-54 `get( name, pn )`. -/
def getNode (B : Backend σ) (env : Env) (io : IOState) (s : σ) (name : Str) (pn : PNode) : σ × Res Dbl :=
  match io.opts with
  | .ok o =>
    let full := aliased env o (io.prefixText ++ name)
    match B.tryGet s full with
    | .ok (some v) => (s, .ok v)
    | .ok none =>
      if isRef pn.str then (s, getRef (B.tryGet s) io pn.str) else addNew B env o s full pn
    | .err => (s, .err)
    | .ub => (s, .ub)
  | .err => (s, .err)
  | .ub => (s, .ub)

/-- spot/par_io.cpp:56-61 `try_get( name, parent, key, default )`: `child` is the child node found, if any. Also
spot/par_tools.h:19-27 `try_get_par( ps, name, pn, def )`. -/
def tryGetNode (B : Backend σ) (env : Env) (io : IOState) (s : σ) (name : Str) (child : Option PNode) (dflt : Dbl) :
    σ × Res Dbl :=
  match child with
  | some pn => getNode B env io s name pn
  | none => (s, .ok dflt)

/-- spot/par_io.h:81-84: which options a `scoped_par_options` overrides. -/
structure OptOverride where
  factor : Option Dbl := none
  offset : Option Dbl := none
  minimum : Option Dbl := none
  aliases : Option (List (Str × Str)) := none

/-- spot/par_io.h:79-85. -/
def OptOverride.apply (v : OptOverride) (o : ParOptions) : ParOptions :=
  { o with autoStdFactor := v.factor.getD o.autoStdFactor, autoStdOffset := v.offset.getD o.autoStdOffset,
           autoStdMinimum := v.minimum.getD o.autoStdMinimum, aliases := v.aliases.getD o.aliases }

/-- Requests an objective makes of a `par_io`, well nested in `scoped_prefix` and `scoped_par_options`. -/
inductive Prog
  | skip
  | seq (a b : Prog)
  | num (name : Str) (mean std min max : Dbl)
  | node (name : Str) (pn : PNode)
  | tryNode (name : Str) (child : Option PNode) (dflt : Dbl)
  | scope (pre : Str) (addDot : Bool) (body : Prog)
  | opts (ov : OptOverride) (body : Prog)

/-- spot/par_io.h:48-52: the segment a `scoped_prefix` pushes. -/
def scopeSeg (pre : Str) (addDot : Bool) : Str :=
  if addDot && !pre.isEmpty && pre.getLast? != some '.' then pre ++ ['.'] else pre

/-- Collect a returned value. -/
def one (x : σ × Res Dbl) : σ × Res (List Dbl) :=
  (x.1, x.2 >>= fun v => .ok [v])

/-- Run the requests: new prefix/option stacks, new state, and the values returned in order or the exception that ended the run.
Destructors (spot/par_io.h:54, 86-88) run also when the body throws; popping an empty stack is undefined behaviour. -/
def exec (B : Backend σ) (env : Env) : Prog → IOState → σ → IOState × σ × Res (List Dbl)
  | .skip, io, s => (io, s, .ok [])
  | .seq a b, io, s =>
    match exec B env a io s with
    | (io, s, .ok vs) => match exec B env b io s with
      | (io, s, .ok ws) => (io, s, .ok (vs ++ ws))
      | r => r
    | r => r
  | .num n m d l u, io, s => (io, one (getNum B io s n m d l u))
  | .node n pn, io, s => (io, one (getNode B env io s n pn))
  | .tryNode n c d, io, s => (io, one (tryGetNode B env io s n c d))
  | .scope p dot b, io, s =>
    let (io', s', r) := exec B env b { io with prefixes := scopeSeg p dot :: io.prefixes } s
    match io'.prefixes with
    | [] => (io', s', .ub)
    | _ :: ps => ({ io' with prefixes := ps }, s', r)
  | .opts ov b, io, s =>
    match io.options with
    | [] => (io, s, .ub)
    | o :: os =>
      let (io', s', r) := exec B env b { io with options := ov.apply o :: o :: os } s
      match io'.options with
      | [] => (io', s', .ub)
      | _ :: os' => ({ io' with options := os' }, s', r)

/-- spot/par_io.h:32 `set_prefix` (xo `stack_string::set`, assumed to leave one segment). -/
def IOState.setPrefix (io : IOState) (t : Str) : IOState := { io with prefixes := [t] }

end Spot
