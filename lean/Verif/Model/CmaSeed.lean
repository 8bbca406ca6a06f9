import Verif.Model.CmaRandom
import Verif.Model.ObjInfo

/-!
# spot/cma_optimizer.cpp:1177-1191, 225-276, 346, 1301-1304: where the seed of CMA-ES comes from and how it is reported

`options.random_seed` is a `long` (spot/cma_optimizer.h:12), passed on as an `int` (line 229), stored as an `unsigned int` (line 237): what remains is the value modulo 2^32.
-/

namespace Spot

/-- spot/cma_optimizer.cpp:1178-1180, 229, 237: the seed that is stored, for the option `opt`; `device` is what `std::random_device` returns. -/
def storedSeed (opt : Int) (device : Nat) : Nat := ((if opt = 0 then (device : Int) else opt) % 2 ^ 32).toNat

/-- spot/cma_optimizer.cpp:346 and 115-143: the generator of an optimizer with at least one parameter; `clock` is the number computed from the clock if the stored seed is 0 (line 126). -/
def Rand.ofOption {K : Type} (opt : Int) (device clock : Nat) : Rand K := Rand.init (storedSeed opt device) clock

/-- spot/cma_optimizer.cpp:346, 142: the seed after `cmaes_random_init`. -/
def usedSeed (opt : Int) (device clock : Nat) : Nat := reduceSeed (if storedSeed opt device < 1 then clock else storedSeed opt device)

/-- spot/cma_optimizer.cpp:1301-1304 `random_seed` for an objective with `dim` parameters. Without parameters the stored seed (an `unsigned int`) is returned as an `int` (line 1184:
nothing else is initialized). -/
def randomSeed (dim : Nat) (opt : Int) (device clock : Nat) : Int :=
  if dim = 0 then (storedSeed opt device : Int).bmod (2 ^ 32) else usedSeed opt device clock

/-- spot/cma_optimizer.cpp:1191: the name of the optimizer; `%d` prints the decimal digits, with a sign if negative. -/
def cmaName (info : ObjInfo) (opt : Int) (device clock : Nat) : Str :=
  info.name ++ ".R".toList ++ (toString (randomSeed info.dim opt device clock)).toList

end Spot
