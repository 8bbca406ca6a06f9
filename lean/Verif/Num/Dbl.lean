import Verif.Num.Round

/-!
# C++ `double` values and outcomes of C++ calls

`par_t`, `fitness_t` are `double` (spot/spot_config.h, spot/spot_types.h:35-39). Modelled as NaN, the two infinities and
rationals. Simplifications: one zero (no `-0.0`); a finite `Dbl` may be any rational, the doubles are those with `IsDouble`.
Comparisons are the IEEE ones (everything with NaN is false), arithmetic rounds correctly (`bin64`) and overflows to infinity.
-/

namespace Spot

/-- A C++ `double`. -/
inductive Dbl
  | nan
  | ninf
  | fin (q : ℚ)
  | pinf
deriving DecidableEq, Repr

namespace Dbl

/-- `DBL_MAX`, i.e. `xo::constants<double>::max()` (spot/objective_info.h:36-39). -/
def maxQ : ℚ := (2 ^ 53 - 1) * 2 ^ 971

/-- IEEE `<`. -/
def lt : Dbl → Dbl → Bool
  | nan, _ => false
  | _, nan => false
  | ninf, ninf => false
  | ninf, _ => true
  | pinf, _ => false
  | fin _, ninf => false
  | fin a, fin b => decide (a < b)
  | fin _, pinf => true

/-- IEEE `<=`. -/
def le : Dbl → Dbl → Bool
  | nan, _ => false
  | _, nan => false
  | ninf, _ => true
  | pinf, pinf => true
  | pinf, _ => false
  | fin _, ninf => false
  | fin a, fin b => decide (a ≤ b)
  | fin _, pinf => true

/-- IEEE `==`. -/
def eq : Dbl → Dbl → Bool
  | nan, _ => false
  | ninf, ninf => true
  | pinf, pinf => true
  | fin a, fin b => decide (a = b)
  | _, _ => false

/-- `std::isnan`. -/
def isNaN : Dbl → Bool
  | nan => true
  | _ => false

/-- Result of an arithmetic operation whose exact value is `q`: round to nearest, overflow to infinity. -/
def ofQ (q : ℚ) : Dbl :=
  let r := bin64 q
  if maxQ < r then pinf else if r < -maxQ then ninf else fin r

/-- Unary minus. -/
def neg : Dbl → Dbl
  | nan => nan
  | ninf => pinf
  | fin q => fin (-q)
  | pinf => ninf

/-- `fabs`. -/
def abs : Dbl → Dbl
  | nan => nan
  | ninf => pinf
  | fin q => fin |q|
  | pinf => pinf

/-- `a + b`. -/
def add : Dbl → Dbl → Dbl
  | fin a, fin b => ofQ (a + b)
  | nan, _ => nan
  | _, nan => nan
  | pinf, ninf => nan
  | ninf, pinf => nan
  | pinf, _ => pinf
  | _, pinf => pinf
  | ninf, _ => ninf
  | _, ninf => ninf

/-- `a - b`. -/
def sub (a b : Dbl) : Dbl := add a (neg b)

/-- Infinity with the sign of `q` (NaN for 0 * inf). -/
def infSign (q : ℚ) : Dbl := if 0 < q then pinf else if q < 0 then ninf else nan

/-- `a * b`. -/
def mul : Dbl → Dbl → Dbl
  | fin a, fin b => ofQ (a * b)
  | nan, _ => nan
  | _, nan => nan
  | fin a, pinf => infSign a
  | fin a, ninf => infSign (-a)
  | pinf, fin b => infSign b
  | ninf, fin b => infSign (-b)
  | pinf, pinf => pinf
  | ninf, ninf => pinf
  | _, _ => ninf

/-- `a / k` for a positive finite constant `k` (the only divisions by values that cannot be zero). -/
def divQ : Dbl → ℚ → Dbl
  | fin a, k => ofQ (a / k)
  | x, _ => x

/-- `std::max(a, b)` / `xo::max`: `a < b ? b : a`. -/
def max (a b : Dbl) : Dbl := if lt a b then b else a

/-- `v` is finite. -/
def isFin : Dbl → Bool
  | fin _ => true
  | _ => false

end Dbl

/-- Outcome of a C++ call: a value, a thrown `xo_error`, or undefined behaviour (out-of-bounds access,
failed `xo_assert`, float-to-int overflow). -/
inductive Res (α : Type)
  | ok (a : α)
  | err
  | ub
deriving DecidableEq, Repr

namespace Res

/-- Sequencing: exceptions and undefined behaviour propagate. -/
def bind {α β : Type} : Res α → (α → Res β) → Res β
  | ok a, f => f a
  | err, _ => err
  | ub, _ => ub

instance : Monad Res where
  pure := ok
  bind := bind

@[simp] theorem pure_eq {α : Type} (a : α) : (pure a : Res α) = ok a := rfl
@[simp] theorem ok_bind {α β : Type} (a : α) (f : α → Res β) : (ok a >>= f) = f a := rfl
@[simp] theorem err_bind {α β : Type} (f : α → Res β) : ((err : Res α) >>= f) = err := rfl
@[simp] theorem ub_bind {α β : Type} (f : α → Res β) : ((ub : Res α) >>= f) = ub := rfl

/-- `xo_error_if( c, ... )`. -/
def errIf (c : Bool) : Res Unit := if c then err else ok ()

@[simp] theorem errIf_true : errIf true = err := rfl
@[simp] theorem errIf_false : errIf false = ok () := rfl

theorem bind_eq_ok {α β : Type} {r : Res α} {f : α → Res β} {b : β} :
    (r >>= f) = ok b ↔ ∃ a, r = ok a ∧ f a = ok b := by
  cases r <;> simp

theorem errIf_eq_ok {c : Bool} {u : Unit} : errIf c = ok u ↔ c = false := by cases c <;> simp

@[simp] theorem ite_err_eq_ok {α : Type} {c : Prop} [Decidable c] {a b : α} :
    (if c then ok a else err) = ok b ↔ c ∧ a = b := by
  split <;> simp_all

@[simp] theorem ite_err_eq_ok' {α : Type} {c : Prop} [Decidable c] {a b : α} :
    (if c then err else ok a) = ok b ↔ ¬ c ∧ a = b := by
  split <;> simp_all

end Res

/-- Text and names are character lists. -/
abbrev Str := List Char

end Spot
