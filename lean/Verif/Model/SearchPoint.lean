import Verif.Model.ParFile

/-!
# spot/search_point.h, spot/search_point.cpp
-/

namespace Spot

/-- spot/search_point.cpp:102-108 `rounded`: print with 8 significant digits, read back. Printing `inf`/`nan` and reading that
back fails and stores 0 (libstdc++). -/
def rounded : Dbl → Dbl
  | .fin q => .fin (bin64 (dec8 q))
  | _ => .fin 0

/-- spot/search_point.h:43-44. `info_` is a reference in C++; here the info the point was made for. -/
structure SearchPoint where
  info : ObjInfo
  values : List Dbl
deriving DecidableEq

namespace SearchPoint

/-- spot/search_point.cpp:16-23. -/
def ofInfo (i : ObjInfo) : SearchPoint := ⟨i, (i.pars.map ParInfo.mean).map rounded⟩

/-- spot/search_point.cpp:25-35 (both overloads); failed assertion is undefined behaviour. -/
def ofValues (i : ObjInfo) (v : List Dbl) : Res SearchPoint :=
  if i.dim = v.length then .ok ⟨i, v.map rounded⟩ else .ub

/-- spot/search_point.cpp:42-49 `try_get`; a values vector that is too short is read out of bounds. -/
def tryGet (s : SearchPoint) (n : Str) : Res (Option Dbl) :=
  match s.info.findIndex n with
  | some k => match s.values[k]? with
    | some v => .ok (some v)
    | none => .ub
  | none => .ok (s.info.tryGetLocked n)

/-- spot/search_point.cpp:51-57 `add`: always throws. -/
def add (s : SearchPoint) (_ : ParInfo) : SearchPoint × Res Dbl := (s, .err)

/-- spot/search_point.cpp:89-94 `set_values`. -/
def setValues (s : SearchPoint) (v : List Dbl) : Res SearchPoint :=
  if s.values.length = v.length then .ok { s with values := v.map rounded } else .ub

/-- spot/search_point.cpp:73-84: effect of one record of `import_values` on the point and on (set, skipped). The value is not
rounded. -/
def importRec (x : SearchPoint × Nat × Nat) (r : Rec) : SearchPoint × Nat × Nat :=
  let (s, a, b) := x
  match s.info.findIndex r.name with
  | some k => ({ s with values := s.values.set k r.value }, a + 1, b)
  | none => (s, a, b + 1)

/-- spot/search_point.cpp:59-87 `import_values`; an unreadable or empty file throws. -/
def importValues (R : Reader) (s : SearchPoint) (file : Option Str) : SearchPoint × Res (Nat × Nat) :=
  match file with
  | none => (s, .err)
  | some text =>
    if text.isEmpty then (s, .err)
    else
      let x := (scanGood R (text.length + 1) { rest := text }).foldl importRec (s, 0, 0)
      (x.1, .ok x.2)

/-- spot/search_point.cpp:37-40: the constructor from a file; if `import_values` throws there is no point. -/
def ofFile (R : Reader) (i : ObjInfo) (file : Option Str) : Res SearchPoint :=
  match (ofInfo i).importValues R file with
  | (s, .ok _) => .ok s
  | (_, .err) => .err
  | (_, .ub) => .ub

/-- One line of spot/search_point.cpp:118-120: name padded to `w`, value, mean, std, each followed by a tab, and a newline. -/
def line (fmt : Dbl → Str) (w : Nat) (p : ParInfo) (v : Dbl) : Str :=
  p.name ++ List.replicate (w - p.name.length) ' ' ++ '\t' :: fmt v ++ '\t' :: fmt p.mean ++ '\t' :: fmt p.std ++ ['\t', '\n']

/-- spot/search_point.cpp:112-114: width of the name column. -/
def nameWidth (i : ObjInfo) : Nat := i.pars.foldl (fun w p => Nat.max w p.name.length) 0

/-- spot/search_point.cpp:110-123 `operator<<`; `fmt` prints a double with 8 significant digits. -/
def write (fmt : Dbl → Str) (s : SearchPoint) : Str :=
  ((s.info.pars.zip s.values).map fun x => line fmt (nameWidth s.info) x.1 x.2).flatten

end SearchPoint
end Spot
