import Verif.Model.ObjInfo

/-!
# Parameter files: spot/objective_info.cpp:60-133, spot/search_point.cpp:59-87, spot/static_par_set.cpp:9-44

All readers loop `str >> name >> value >> mean >> std` over a file. The loop is split here into scanning the text into records
and applying the records one by one; nothing that is applied influences the scanning. `import_mean_std` uses `std::ifstream`, the
others `xo::char_stream`; both are modelled by `CS` (for an ifstream "no text left" is `eof`, which reading the last token sets).
-/

namespace Spot

/-- One line of a parameter file. -/
structure Rec where
  name : Str
  value : Dbl
  mean : Dbl
  std : Dbl
deriving DecidableEq

/-- `str >> name >> value >> mean >> std`. -/
def readRec (R : Reader) (s : CS) : Rec × CS :=
  let (n, s) := s.word
  let (v, s) := s.num R
  let (m, s) := s.num R
  let (d, s) := s.num R
  (⟨n, v, m, d⟩, s)

/-- spot/objective_info.cpp:67-77, 114-123: `while ( str.good() )`, a record is taken unless the stream failed; if it failed
after a name was read an error is thrown (`true`), and if not the loop ends. -/
def scanStrict (R : Reader) : Nat → CS → List Rec × Bool
  | 0, _ => ([], false)
  | fuel + 1, s =>
    if s.good then
      let (r, s) := readRec R s
      if s.failed then ([], !r.name.isEmpty)
      else let (rs, e) := scanStrict R fuel s; (r :: rs, e)
    else ([], false)

/-- spot/static_par_set.cpp:12-19, 28-41: as above, but a failed record is silently dropped. -/
def scanLenient (R : Reader) (text : Str) : List Rec := (scanStrict R (text.length + 1) { rest := text }).1

/-- spot/search_point.cpp:66-85: a record is taken only if the stream is still good after it, i.e. if text follows it. -/
def scanGood (R : Reader) : Nat → CS → List Rec
  | 0, _ => []
  | fuel + 1, s =>
    if s.good then
      let (r, s) := readRec R s
      if s.good then r :: scanGood R fuel s else scanGood R fuel s
    else []

/-- `xo::pattern_matcher` (xo, external): `none` when empty, otherwise a predicate on names. -/
abbrev Matcher := Option (Str → Bool)

/-- spot/objective_info.cpp:79-80, 125-126: the include / exclude filter. -/
def accepted (incl excl : Matcher) (n : Str) : Bool :=
  !((match incl with | none => false | some f => !f n) || (match excl with | none => false | some f => f n))

/-- spot/par_options.h:23-35 `par_import_settings` (`locked` is not used by the importers). -/
structure ImportSettings where
  importStd : Bool := true
  useBestAsMean : Bool := false
  stdFactor : Dbl := .fin 1
  stdOffset : Dbl := .fin 0
  valueFactor : Dbl := .fin 1
  valueOffset : Dbl := .fin 0
  incl : Matcher := none
  excl : Matcher := none

/-- spot/objective_info.cpp:92-97: new mean and std of an existing parameter. -/
def importPar (st : ImportSettings) (r : Rec) (p : ParInfo) : ParInfo :=
  let mean := Dbl.add st.valueOffset (Dbl.mul st.valueFactor (if st.useBestAsMean then r.value else r.mean))
  let p := { p with mean := mean }
  if st.importStd then { p with std := Dbl.add st.stdOffset (Dbl.mul st.stdFactor r.std) }
  else if !Dbl.eq st.stdFactor (.fin 1) then { p with std := Dbl.add st.stdOffset (Dbl.mul st.stdFactor p.mean.abs) }
  else p

/-- Apply `f` to the first parameter of that name (the pointer returned by `try_find`, spot/objective_info.cpp:189-193). -/
def updateFirst (n : Str) (f : ParInfo → ParInfo) : List ParInfo → List ParInfo
  | [] => []
  | p :: ps => if p.name = n then f p :: ps else p :: updateFirst n f ps

/-- spot/objective_info.cpp:79-103: effect of one record on the info and on (set, not found). -/
def importRec (st : ImportSettings) (x : ObjInfo × Nat × Nat) (r : Rec) : ObjInfo × Nat × Nat :=
  let (i, a, b) := x
  if !accepted st.incl st.excl r.name then x
  else if Dbl.eq r.std (.fin 0) then
    match i.lock r.name r.value with
    | (i', true) => (i', a + 1, b)
    | (i', false) => (i', a, b + 1)
  else if (i.find r.name).isSome then ({ i with pars := updateFirst r.name (importPar st r) i.pars }, a + 1, b)
  else (i, a, b + 1)

/-- spot/objective_info.cpp:60-106 `import_mean_std`; `none` = the file cannot be opened. -/
def ObjInfo.importMeanStd (R : Reader) (i : ObjInfo) (file : Option Str) (st : ImportSettings) : ObjInfo × Res (Nat × Nat) :=
  match file with
  | none => (i, .err)
  | some text =>
    let (rs, e) := scanStrict R (text.length + 1) { rest := text }
    let (i', c) := rs.foldl (importRec st) (i, 0, 0)
    (i', if e then .err else .ok c)

/-- spot/objective_info.cpp:125-130: effect of one record of `import_locked`. -/
def lockRec (incl excl : Matcher) (x : ObjInfo × Nat × Nat) (r : Rec) : ObjInfo × Nat × Nat :=
  let (i, a, b) := x
  if !accepted incl excl r.name then x
  else match i.lock r.name r.value with
    | (i', true) => (i', a + 1, b)
    | (i', false) => (i', a, b + 1)

/-- spot/objective_info.cpp:108-133 `import_locked`; `load_string` throws if the file cannot be read. -/
def ObjInfo.importLocked (R : Reader) (i : ObjInfo) (file : Option Str) (incl excl : Matcher) : ObjInfo × Res (Nat × Nat) :=
  match file with
  | none => (i, .err)
  | some text =>
    let (rs, e) := scanStrict R (text.length + 1) { rest := text }
    let (i', c) := rs.foldl (lockRec incl excl) (i, 0, 0)
    (i', if e then .err else .ok c)

/-! ## spot/static_par_set.cpp -/

/-- spot/static_par_set.h:23 `values_`. -/
abbrev StaticPars := List (Str × Dbl)

/-- spot/static_par_set.cpp:9-22 `load`: returns the new set; its size is the returned count. -/
def StaticPars.load (R : Reader) (s : StaticPars) (text : Str) : StaticPars :=
  (scanLenient R text).foldl (fun m r => mapSet m r.name r.value) s

/-- spot/static_par_set.cpp:24-44 `merge`: new set and number of values taken. -/
def StaticPars.merge (R : Reader) (s : StaticPars) (text : Str) (overwrite : Bool) : StaticPars × Nat :=
  (scanLenient R text).foldl (fun x r =>
    if overwrite || (x.1.lookup r.name).isNone then (mapSet x.1 r.name r.value, x.2 + 1) else x) (s, 0)

end Spot
