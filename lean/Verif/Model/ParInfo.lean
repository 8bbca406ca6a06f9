import Verif.Model.CharStream

/-!
# spot/par_info.h, spot/par_info.cpp, spot/par_options.h
-/

namespace Spot

/-- spot/par_info.h:19-23, the data members of `par_info`. -/
structure ParInfo where
  name : Str
  mean : Dbl
  std : Dbl
  min : Dbl
  max : Dbl
deriving DecidableEq

/-- spot/par_info.h:14 `is_constant`. -/
def ParInfo.isConstant (p : ParInfo) : Bool := Dbl.eq p.std (.fin 0)

/-- spot/par_info.h:15 `is_valid`. -/
def ParInfo.isValid (p : ParInfo) : Bool :=
  Dbl.eq p.mean p.mean && Dbl.le (.fin 0) p.std && Dbl.le p.min p.max && Dbl.le p.min p.mean && Dbl.le p.mean p.max

/-- spot/par_info.h:16 `is_within_range`. -/
def ParInfo.isWithinRange (p : ParInfo) (v : Dbl) : Bool := Dbl.le p.min v && Dbl.le v p.max

/-- spot/par_options.h:12-20 `par_options`. The aliases are a `flat_map<string,string>`, iterated in stored order. -/
structure ParOptions where
  autoStdFactor : Dbl
  autoStdOffset : Dbl
  autoStdMinimum : Dbl
  lower : Dbl
  upper : Dbl
  aliases : List (Str × Str)
deriving DecidableEq

/-- spot/par_options.h:9-10,14-18: default member initializers; `0.1` and `0.01` are the nearest doubles. -/
def ParOptions.default : ParOptions :=
  { autoStdFactor := .fin (bin64 (1 / 10)), autoStdOffset := .fin 0, autoStdMinimum := .fin (bin64 (1 / 100)),
    lower := .fin (-10 ^ 12), upper := .fin (10 ^ 12), aliases := [] }

/-- What `par_info` sees of an `xo::prop_node`: its text and, if it has children, their values converted to a number
(`none` where the conversion of that child's text throws). -/
structure PNode where
  str : Str
  kids : List (Str × Option Dbl) := []
deriving DecidableEq

/-- `prop_node::get_any<par_t>( keys )`: first key that exists; throws if none does or the text is no number (xo, assumed). -/
def PNode.getAny (p : PNode) : List Str → Res Dbl
  | [] => .err
  | k :: ks => match p.kids.lookup k with
    | some (some v) => .ok v
    | some none => .err
    | none => p.getAny ks

/-- `prop_node::get<par_t>( key, default )` (xo, assumed). -/
def PNode.getD (p : PNode) (k : Str) (d : Dbl) : Res Dbl :=
  match p.kids.lookup k with
  | some (some v) => .ok v
  | some none => .err
  | none => .ok d

/-- spot/par_info.cpp:10-14, first constructor. -/
def ParInfo.make (name : Str) (mean std min max : Dbl) : Res ParInfo :=
  let p : ParInfo := ⟨name, mean, std, min, max⟩
  if p.isValid then .ok p else .err

/-- Local variables of the second constructor while it parses (spot/par_info.cpp:16-23). -/
structure PState where
  mean : Dbl
  std : Dbl
  min : Dbl
  max : Dbl
  stdSet : Bool
deriving DecidableEq

/-- spot/par_info.cpp:17-23: members as initialized before parsing. -/
def PState.init (o : ParOptions) : PState := ⟨.nan, .fin 0, o.lower, o.upper, false⟩

/-- spot/par_info.cpp:43-49: the `~` branch. A failed read of the number is not checked here. -/
def parseStd (R : Reader) (p : PState) (s : CS) : Res (PState × CS) := do
  Res.errIf (!Dbl.eq p.std (.fin 0))
  let s := s.getc.2
  let (v, s) := s.num R
  .ok ({ p with std := v, stdSet := true }, s)

/-- spot/par_info.cpp:50-61: the range branch, `c` is the opening bracket. -/
def parseRange (R : Reader) (c : Char) (p : PState) (s : CS) : Res (PState × CS) := do
  let s := s.getc.2
  let (lo, s) := s.num R
  Res.errIf s.failed
  let (comma, s) := s.getc
  Res.errIf (comma != ',')
  let (hi, s) := s.num R
  Res.errIf s.failed
  let (c2, s) := s.getc
  Res.errIf ((c == '[' && c2 != ']') || (c == '<' && c2 != '>') || (c == '(' && c2 != ')'))
  .ok ({ p with min := lo, max := hi }, s)

/-- spot/par_info.cpp:62-69: just a value, the mean. -/
def parseMean (R : Reader) (p : PState) (s : CS) : Res (PState × CS) := do
  let (v, s) := s.num R
  Res.errIf s.failed
  Res.errIf (!p.mean.isNaN)
  .ok ({ p with mean := v }, s)

/-- spot/par_info.cpp:38-71: the `while ( str.good() )` loop. `fuel` bounds the number of iterations; running out of it is
reported as `ub`, and `parse_terminates` proves that this never happens with the fuel `ParInfo.parse` gives. -/
def parseLoop (R : Reader) : Nat → PState → CS → Res PState
  | 0, _, _ => .ub
  | fuel + 1, p, s =>
    if s.good then
      let (c, s) := s.peekc
      if s.good then do
        let (p, s) ← if c = '~' then parseStd R p s
          else if c = '[' ∨ c = '<' ∨ c = '(' then parseRange R c p s
          else parseMean R p s
        parseLoop R fuel p s
      else parseLoop R fuel p s
    else .ok p

/-- spot/par_info.cpp:74-93: sanity checks and derived values. -/
def finish (name : Str) (o : ParOptions) (p : PState) : Res ParInfo := do
  Res.errIf (Dbl.lt p.mean p.min || Dbl.lt p.max p.mean)
  Res.errIf (Dbl.le p.max p.min)
  Res.errIf (p.mean.isNaN && Dbl.eq p.std (.fin 0) && Dbl.eq p.min o.lower && Dbl.eq p.max o.upper)
  let p := if p.stdSet && p.mean.isNaN then
      { p with mean := p.std
               std := Dbl.max (Dbl.add (Dbl.mul o.autoStdFactor p.std.abs) o.autoStdOffset) o.autoStdMinimum }
    else p
  let p := if !Dbl.eq p.min o.lower && !Dbl.eq p.max o.upper then
      let p := if p.mean.isNaN then { p with mean := Dbl.add p.min (Dbl.divQ (Dbl.sub p.max p.min) 2) } else p
      if Dbl.eq p.std (.fin 0) then { p with std := Dbl.divQ (Dbl.sub p.max p.min) 4 } else p
    else p
  ParInfo.make name p.mean p.std p.min p.max

/-- spot/par_info.cpp:26-72: the values read from the children of the prop_node, or from its text. -/
def readNode (R : Reader) (pn : PNode) (o : ParOptions) : Res PState :=
  if pn.kids ≠ [] then do
    let mean ← pn.getAny ["mean".toList, "init_mean".toList]
    let std ← pn.getAny ["std".toList, "init_std".toList]
    let min ← pn.getD "min".toList o.lower
    let max ← pn.getD "max".toList o.upper
    .ok ⟨mean, std, min, max, false⟩
  else parseLoop R (pn.str.length + 1) (PState.init o) { rest := pn.str }

/-- spot/par_info.cpp:16-93, second constructor. -/
def ParInfo.parse (R : Reader) (name : Str) (pn : PNode) (o : ParOptions) : Res ParInfo :=
  readNode R pn o >>= finish name o

end Spot
