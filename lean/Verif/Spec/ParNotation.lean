import Verif.Num.Dbl
import Verif.Model.CharStream

/-!
# Specification of the parameter notation `mean ~std [min,max]`

Independent of the parser: what texts are written in the notation (`Lexes`) and what such a text means (`meaning`).
Only the number reader `R` (what text denotes which number) and white space are shared with the model.
-/

namespace Spot.Notation

/-- The three kinds of brackets. -/
inductive Bracket | square | angle | round
deriving DecidableEq

def Bracket.opening : Bracket → Char
  | square => '[' | angle => '<' | round => '('
def Bracket.closing : Bracket → Char
  | square => ']' | angle => '>' | round => ')'

/-- One component of the notation. -/
inductive Item
  | mean (v : Dbl)
  | std (v : Dbl)
  | range (b : Bracket) (lo hi : Dbl)
deriving DecidableEq

/-- White space only. -/
def Blank (s : Str) : Prop := ∀ c ∈ s, isWs c = true

/-- `t` begins with a non-space character. -/
def StartsSolid (t : Str) : Prop := ∃ c u, t = c :: u ∧ isWs c = false

/-- The text `t`, possibly after white space, begins with a number `v`, followed by `r`. -/
def Number (R : Reader) (t : Str) (v : Dbl) (r : Str) : Prop :=
  ∃ w u, t = w ++ u ∧ Blank w ∧ StartsSolid u ∧ R.rd u = some (v, r)

/-- The text `t`, possibly after white space, does not begin with a number. -/
def NoNumber (R : Reader) (t : Str) : Prop :=
  ∃ w u, t = w ++ u ∧ Blank w ∧ (u = [] ∨ StartsSolid u) ∧ R.rd u = none

/-- `c` can begin a mean. -/
def MeanStart (c : Char) : Prop := isWs c = false ∧ c ≠ '~' ∧ c ≠ '[' ∧ c ≠ '<' ∧ c ≠ '('

/-- One component at the beginning of `s`, followed by `r`. -/
inductive Lex1 (R : Reader) : Str → Item → Str → Prop
  | mean {w c u v r} : Blank w → MeanStart c → R.rd (c :: u) = some (v, r) → Lex1 R (w ++ c :: u) (.mean v) r
  | std {w t v r} : Blank w → Number R t v r → Lex1 R (w ++ '~' :: t) (.std v) r
  | range {w} {b : Bracket} {t lo t' hi r} : Blank w → Number R t lo (',' :: t') → Number R t' hi (b.closing :: r) →
      Lex1 R (w ++ b.opening :: t) (.range b lo hi) r

/-- `s` consists of the components `items`, followed by `r`. -/
inductive Lexes (R : Reader) : Str → List Item → Str → Prop
  | nil {s} : Lexes R s [] s
  | cons {s i t is r} : Lex1 R s i t → Lexes R t is r → Lexes R s (i :: is) r

/-- The parameter (mean, std, min, max) denoted by an optional mean, standard deviation and range, or `none` if they do not
denote one. `factor`, `offset`, `minimum` are the automatic-std options, `lower`, `upper` the default bounds. -/
def meaning (factor offset minimum lower upper : Dbl) (m sd : Option Dbl) (rg : Option (Dbl × Dbl)) :
    Option (Dbl × Dbl × Dbl × Dbl) :=
  let lo := (rg.map Prod.fst).getD lower
  let hi := (rg.map Prod.snd).getD upper
  let bothBounds := !Dbl.eq lo lower && !Dbl.eq hi upper
  let noBounds := Dbl.eq lo lower && Dbl.eq hi upper
  let quarter := Dbl.divQ (Dbl.sub hi lo) 4
  let orQuarter := fun s => if bothBounds && Dbl.eq s (.fin 0) then quarter else s
  match m, sd with
  | some m, sd => some (m, orQuarter (sd.getD (.fin 0)), lo, hi)
  | none, some v =>
    if Dbl.eq v (.fin 0) && noBounds then none
    else some (v, orQuarter (Dbl.max (Dbl.add (Dbl.mul factor v.abs) offset) minimum), lo, hi)
  | none, none => if bothBounds then some (Dbl.add lo (Dbl.divQ (Dbl.sub hi lo) 2), quarter, lo, hi) else none

/-- A proper parameter: a number as mean, non-negative std, `min < max` and the mean between them. -/
def proper : Dbl × Dbl × Dbl × Dbl → Bool
  | (m, s, lo, hi) => !m.isNaN && Dbl.le (.fin 0) s && Dbl.lt lo hi && Dbl.le lo m && Dbl.le m hi

end Spot.Notation
