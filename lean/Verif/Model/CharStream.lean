import Verif.Num.Dbl

/-!
# `xo::char_stream` (external library, assumed)

Used by spot/par_info.cpp:37, spot/search_point.cpp:63 and spot/objective_info.cpp:113. The `xo` sources are not in /repo; the
behaviour below is an assumption recorded in DESIGN.md: a stream is the unread text plus a failure flag; it is good while
nothing failed and text is left; `peekc` moves past white space; `getc` takes one raw character; reading a number skips white
space and delegates to `strtod`, leaving the text after the number untouched; a failed read sets the flag and stores zero.
-/

namespace Spot

/-- The number reader (`strtod`): a number at the beginning of the text and the text after it. Parameter of the model. -/
structure Reader where
  rd : Str → Option (Dbl × Str)
  /-- a successful read consumes at least one character and leaves a suffix -/
  consumes : ∀ s v r, rd s = some (v, r) → ∃ p, p ≠ [] ∧ s = p ++ r

/-- White space (C locale `isspace`). -/
def isWs (c : Char) : Bool := c = ' ' || c = '\t' || c = '\n' || c = '\r' || c = '\x0b' || c = '\x0c'

/-- Drop leading white space. -/
def skipWs (s : Str) : Str := s.dropWhile isWs

/-- State of a character stream. -/
structure CS where
  rest : Str
  failed : Bool := false
deriving DecidableEq

namespace CS

/-- `good()`. -/
def good (s : CS) : Bool := !s.failed && !s.rest.isEmpty

/-- `peekc()`: the stream moves to the next non-space character, which is returned (0 at the end). -/
def peekc (s : CS) : Char × CS :=
  let t := skipWs s.rest
  (t.headD '\x00', { s with rest := t })

/-- `getc()`: takes one character; at the end of the text it fails and returns 0. -/
def getc (s : CS) : Char × CS :=
  match s.rest with
  | [] => ('\x00', { s with failed := true })
  | c :: t => (c, { s with rest := t })

/-- `str >> number`: skips white space, then reads a number; stores 0 and fails if there is none (or if already failed). -/
def num (R : Reader) (s : CS) : Dbl × CS :=
  if s.failed then (.fin 0, s)
  else match R.rd (skipWs s.rest) with
    | some (v, r) => (v, { s with rest := r })
    | none => (.fin 0, { s with failed := true })

/-- `str >> string`: skips white space, then takes the characters up to the next white space; fails if there are none. -/
def word (s : CS) : Str × CS :=
  if s.failed then ([], s)
  else
    let t := skipWs s.rest
    let w := t.takeWhile (fun c => !isWs c)
    if w.isEmpty then ([], { rest := t, failed := true }) else (w, { s with rest := t.dropWhile (fun c => !isWs c) })

end CS
end Spot
