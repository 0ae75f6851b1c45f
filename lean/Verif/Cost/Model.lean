import Mathlib.Algebra.Order.Field.Basic
import Verif.Build.Model

/-!
Model of the routing cost modules and of the length they use.

Sources: lanelet2_routing/include/lanelet2_routing/RoutingCost.h, lanelet2_routing/src/RoutingCost.cpp and
approximatedLength2d in lanelet2_core/include/lanelet2_core/geometry/impl/Lanelet.h.

A double is a number of an ordered field (rounding and overflow are not modelled), an infinity or NaN. `none` is an exception
or undefined behaviour.
-/
namespace Verif.Cost
open Verif.Lanelet (LH)
open Verif.Build (Prim CostModule)

variable {P F : Type} [Field F] [LinearOrder F]

/-- approximatedLength2d, Lanelet.h 174-185: the loop. `line[i]` is `none` outside of the line. -/
def approxLoop (d : P → P → F) (line : List P) (step i1 i2 : Nat) (acc : F) : Option F :=
  if i2 < line.length then do
    let a ← line[i1]?
    let b ← line[i2]?
    let acc := acc + d a b
    let acc ←
      if i2 + step ≥ line.length then do
        let z ← line[line.length - 1]?
        pure (acc + d b z)
      else pure acc
    approxLoop d line step (i1 + step) (i2 + step) acc
  else some acc
partial_fixpoint

/-- approximatedLength2d, Lanelet.h 174-185; `line`: the points of the left bound, `d`: distance in 2d -/
def approximatedLength2d (d : P → P → F) (line : List P) : Option F :=
  let step := max 1 (line.length / 10)
  approxLoop d line step 0 step 0

/-- values of type double; IEEE 754 with exact finite values instead of rounded ones (simplification) -/
inductive Dbl (F : Type) where
  | fin (x : F)
  | pinf
  | ninf
  | nan
  deriving DecidableEq

/-- std::isfinite, RoutingGraphBuilder.cpp 347, Graph.h 190. -/
def Dbl.isFinite : Dbl F → Bool
  | .fin _ => true
  | _ => false

/-- `x < 0` -/
def Dbl.negative : Dbl F → Bool
  | .fin x => decide (x < 0)
  | .ninf => true
  | _ => false

/-- `+` of doubles. -/
def Dbl.add : Dbl F → Dbl F → Dbl F
  | .fin x, .fin y => .fin (x + y)
  | .nan, _ => .nan
  | _, .nan => .nan
  | .pinf, .ninf => .nan
  | .ninf, .pinf => .nan
  | .pinf, _ => .pinf
  | _, .pinf => .pinf
  | .ninf, _ => .ninf
  | _, .ninf => .ninf

/-- `x / 2` -/
def Dbl.half : Dbl F → Dbl F
  | .fin x => .fin (x / 2)
  | x => x

/-- division of two finite numbers; the divisor 0 is +0 -/
def Dbl.div (x y : F) : Dbl F :=
  if y = 0 then (if x = 0 then .nan else if 0 < x then .pinf else .ninf) else .fin (x / y)

/-- `x >= y` with a finite y; used in RoutingCost.h 70, 104 -/
def Dbl.ge : Dbl F → F → Bool
  | .fin x, y => decide (y ≤ x)
  | .pinf, _ => true
  | _, _ => false

/-- speedLimit, RoutingCost.cpp 12-21: a limit of 0 is replaced by `max * Velocity()`, where `Velocity()` is the quantity 0;
an infinite limit (here `none`) is an InvalidInputError. NaN is not considered. -/
def speedLimit (max : F) (limit : Option F) : Option F :=
  match limit with
  | none => none
  | some v => if v = 0 then some (max * 0) else some v

/-- travelTime, RoutingCost.cpp 24-33: length (perimeter of an area) divided by the speed limit -/
def travelTime (max : F) (length : Prim → F) (limit : Prim → Option F) (p : Prim) : Option (Dbl F) := do
  let v ← speedLimit max (limit p)
  return Dbl.div (length p) v

/-- the constructors, RoutingCost.h 52-57 and 89-94: laneChangeCost_ and minChangeLength_ or minChangeTime_ -/
structure Module (F : Type) where
  laneChangeCost : F
  minChange : F
  deriving DecidableEq

/-- The constructors of RoutingCost.h 52-57, 89-94; `none` if they throw. -/
def mkModule (laneChangeCost minChange : F) : Option (Module F) :=
  if laneChangeCost < 0 then none else some ⟨laneChangeCost, minChange⟩

/-- RoutingCostDistance::getCostSucceeding, RoutingCost.h 58-62 -/
def distanceSucc (length : Prim → F) (src dst : Prim) : Dbl F := ((Dbl.fin (length src)).add (.fin (length dst))).half

/-- RoutingCostDistance::getCostLaneChange, RoutingCost.h 63-71 -/
def distanceChange (m : Module F) (length : Prim → F) (src : List LH) (_dst : List LH) : Dbl F :=
  if m.minChange ≤ 0 then .fin m.laneChangeCost
  else
    let total := src.foldl (fun acc l => acc + length (.inl l)) 0
    if m.minChange ≤ total then .fin m.laneChangeCost else .pinf

/-- RoutingCostTravelTime::getCostSucceeding, RoutingCost.h 106-112 -/
def timeSucc (max : F) (length : Prim → F) (limit : Prim → Option F) (src dst : Prim) : Option (Dbl F) := do
  let a ← travelTime max length limit src
  let b ← travelTime max length limit dst
  return (a.add b).half

/-- RoutingCostTravelTime::getCostLaneChange, RoutingCost.h 96-105 (noexcept: an exception ends the program) -/
def timeChange (m : Module F) (max : F) (length : Prim → F) (limit : Prim → Option F) (src : List LH) (_dst : List LH) :
    Option (Dbl F) :=
  if m.minChange ≤ 0 then some (.fin m.laneChangeCost)
  else do
    let time ← src.foldlM (fun acc l => do return Dbl.add acc (← travelTime max length limit (.inl l))) (.fin 0)
    return if time.ge m.minChange then .fin m.laneChangeCost else .pinf

/-- the modules as seen by the graph builder; RoutingCost.h 48-77 -/
def distanceModule (m : Module F) (length : Prim → F) : CostModule (Dbl F) :=
  ⟨distanceSucc length, distanceChange m length⟩

/-- all speed limits finite: no exceptions; RoutingCost.h 82-119 -/
def timeModule (m : Module F) (max : F) (length : Prim → F) (limit : Prim → F) : CostModule (Dbl F) :=
  ⟨fun a b => (timeSucc max length (fun p => some (limit p)) a b).getD .nan,
   fun a b => (timeChange m max length (fun p => some (limit p)) a b).getD .nan⟩

end Verif.Cost
