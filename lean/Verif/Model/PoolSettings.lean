import Verif.Model.Pool
import Verif.Model.ParInfo

/-!
# Model of the constructor of `optimizer_pool`: its settings (spot/optimizer_pool.cpp:22-34, spot/optimizer_pool.h:31-47)

`INIT_MEMBER( pn, member_, d )` (xo/container/prop_node_tools.h, not part of this repository) is assumed to be `member_( pn.get( "member", d ) )`: the key is the
name of the member without the underscore, an absent key gives the default, and a text that is no value of the type makes the conversion throw.
Conversions `num` and `bool` of a text are arbitrary functions.
-/

namespace Spot

/-- The texts of the children of an `xo::prop_node` by key. -/
abbrev Settings := Str → Option Str

/-- The settings while the constructor runs; `none`: not initialized yet. -/
structure PoolFields where
  window : Option Nat := none
  start : Option Nat := none
  lookAhead : Option Nat := none
  usePredicted : Option Bool := none
  active : Option Nat := none
  concurrent : Option Nat := none

/-- `pn.get< T >( key, default )` (xo, assumed). The default is evaluated first; reading a member that is not initialized is undefined. -/
def Settings.get {α : Type} (parse : Str → Option α) (pn : Settings) (key : Str) (dflt : Option α) : Res α :=
  match dflt with
  | none => .ub
  | some d => match pn key with
    | none => .ok d
    | some t => match parse t with
      | none => .err
      | some v => .ok v

/-- The members with an initializer. -/
inductive PoolField
  | window | start | lookAhead | usePredicted | active | concurrent
deriving DecidableEq

/-- spot/optimizer_pool.h:31-47: the order in which the members are declared, which is the order in which they are initialized. -/
def poolOrder : List PoolField := [.window, .start, .lookAhead, .usePredicted, .active, .concurrent]

/-- spot/optimizer_pool.cpp:24-29: the initializer of a member. -/
def PoolFields.set (num : Str → Option Nat) (bool : Str → Option Bool) (pn : Settings) (f : PoolFields) : PoolField → Res PoolFields
  | .window => (pn.get num "prediction_window".toList (some 100)) >>= fun v => .ok { f with window := some v }
  | .start => (pn.get num "prediction_start".toList f.window) >>= fun v => .ok { f with start := some v }
  | .lookAhead => (pn.get num "prediction_look_ahead".toList f.window) >>= fun v => .ok { f with lookAhead := some v }
  | .usePredicted => (pn.get bool "use_predicted_fitness_stop_condition".toList (some false)) >>= fun v => .ok { f with usePredicted := some v }
  | .active => (pn.get num "active_optimizations".toList (some 6)) >>= fun v => .ok { f with active := some v }
  | .concurrent => (pn.get num "concurrent_optimizations".toList (some 3)) >>= fun v => .ok { f with concurrent := some v }

/-- The initializers in order. -/
def PoolFields.run (num : Str → Option Nat) (bool : Str → Option Bool) (pn : Settings) : PoolFields → List PoolField → Res PoolFields
  | f, [] => .ok f
  | f, x :: xs => f.set num bool pn x >>= fun f => f.run num bool pn xs

/-- The members, all of which must have been initialized. -/
def PoolFields.cfg (f : PoolFields) : Res PoolCfg :=
  match f.window, f.start, f.lookAhead, f.usePredicted, f.active, f.concurrent with
  | some w, some s, some l, some u, some a, some c => .ok { window := w, start := s, lookAhead := l, usePredicted := u, active := a, concurrent := c }
  | _, _, _, _, _, _ => .ub

/-- spot/optimizer_pool.cpp:22-34, the constructor with the settings of `pn`. -/
def Pool.ofNode (num : Str → Option Nat) (bool : Str → Option Bool) (pn : Settings) (info : ObjInfo) : Res Pool :=
  (PoolFields.run num bool pn {} poolOrder >>= PoolFields.cfg) >>= fun c => .ok (Pool.init c info)

end Spot
