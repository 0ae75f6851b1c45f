import Mathlib.Data.Rat.Defs
import Mathlib.Tactic.NormNum
import Mathlib.Tactic.Ring
import Mathlib.Tactic.FieldSimp
import Verif.Rules.Model
import Verif.RegElem.Model

/-!
Model of two parts of the Python bindings that carry meaning of their own: the classes of regulatory elements, as created in Python and
found again through a lanelet (lanelet2_python/python_api/core.cpp), and the speed limits in km/h and m/s
(lanelet2_python/python_api/traffic_rules.cpp).
-/
namespace Verif.Py.Kinds

/-- The classes of regulatory elements, BasicRegulatoryElements.h 17, 87, 163, 230 and 336 and RegulatoryElement.h 270 for any other -/
inductive Cls where
  | trafficLight | rightOfWay | allWayStop | trafficSign | speedLimit | other
  deriving DecidableEq, Repr

/-- Whether a dynamic_cast of an object of class `c` to class `d` succeeds: `SpeedLimit` is derived from `TrafficSign`,
BasicRegulatoryElements.h 336 -/
def Cls.isA (c d : Cls) : Bool := c == d || (c == .speedLimit && d == .trafficSign)

/-- RuleName, BasicRegulatoryElements.h 20, 90, 166, 233 and 339 -/
def Cls.rule : Cls → String
  | .trafficLight => "traffic_light"
  | .rightOfWay => "right_of_way"
  | .allWayStop => "all_way_stop"
  | .trafficSign => "traffic_sign"
  | .speedLimit => "speed_limit"
  | .other => "regulatory_element"

/-- The class of the object that the constructor of a class of the Python module creates: `make` of the class for all but `SpeedLimit`,
which uses `TrafficSign::make`, core.cpp 1228, 1258, 1292, 1337 and 1388 -/
def made : Cls → Cls
  | .trafficLight => .trafficLight
  | .rightOfWay => .rightOfWay
  | .allWayStop => .allWayStop
  | .trafficSign => .trafficSign
  | .speedLimit => .trafficSign
  | .other => .other

/-- The subtype that the construction of the data sets, BasicRegulatoryElements.cpp 97, 112, 120, 129 and 150 -/
def subtype : Cls → String
  | .trafficLight => "traffic_light"
  | .trafficSign => "traffic_sign"
  | .speedLimit => "speed_limit"
  | .rightOfWay => "right_of_way"
  | .allWayStop => "all_way_stop"
  | .other => ""

/-- regelemAs, core.cpp 464-467, with regulatoryElementsAs, Lanelet.h 50-53: the elements whose cast succeeds, in order. `dyn` is the class
of an element. The five methods of lanelets that use it are core.cpp 1058-1063. -/
def regelemAs (dyn : Nat → Cls) (c : Cls) (regs : List Nat) : List Nat := regs.filter fun x => (dyn x).isA c

/-- addRegulatoryElement, Lanelet.h 286-291: appends the element, a null pointer is not modelled -/
def addReg (regs : List Nat) (x : Nat) : List Nat := regs ++ [x]

/-- The cast in GermanVehicle::speedLimit, GermanTrafficRules.cpp 44: the type of the sign if the element is a speed limit -/
def limitKind (dyn : Nat → Cls) (type : Nat → Rules.Str) (x : Nat) : Option Rules.Str :=
  if (dyn x).isA .speedLimit then some (type x) else none

/-! ### Speed limits -/

/-- SpeedLimitInformation, TrafficRules.h 8-11, with the velocity in m/s as in Forward.h 204-210 -/
structure Speed where
  mps : ℚ
  mandatory : Bool
  deriving DecidableEq

/-- units::KmH, Units.h 12-19: a kilometre is 10^3 metres, an hour 3600 seconds -/
def kmh : ℚ := 10 ^ 3 / 3600

/-- makeSpeedLimit, traffic_rules.cpp 12-14 -/
def makeSpeedLimit (speedLimitKph : ℚ) (isMandatory : Bool) : Speed := ⟨speedLimitKph * kmh, isMandatory⟩

/-- getVelocity, traffic_rules.cpp 16 -/
def getVelocity (s : Speed) : ℚ := s.mps / kmh

/-- setVelocity, traffic_rules.cpp 18-20 -/
def setVelocity (s : Speed) (v : ℚ) : Speed := { s with mps := v * kmh }

/-- getVelocityMPS, traffic_rules.cpp 22 -/
def getVelocityMPS (s : Speed) : ℚ := s.mps

/-- setVelocityMPS, traffic_rules.cpp 24-26 -/
def setVelocityMPS (s : Speed) (v : ℚ) : Speed := { s with mps := v }

/-! ### Theorems -/

/-- An element created in Python and added to a lanelet is found by the method of its class, unless it is a speed limit; what was found
before is still found. -/
theorem made_found (dyn : Nat → Cls) (c : Cls) (hc : c ≠ .speedLimit) (regs : List Nat) (x : Nat) (hx : dyn x = made c) :
    regelemAs dyn c (addReg regs x) = regelemAs dyn c regs ++ [x] := by
  unfold regelemAs addReg
  rw [List.filter_append]
  congr 1
  cases c <;> simp_all [made, Cls.isA]

/-- The method of a class finds the elements of the class and, for traffic signs, the speed limits; in the order of the lanelet. -/
theorem found_iff (dyn : Nat → Cls) (c : Cls) (regs : List Nat) :
    (regelemAs dyn c regs).Sublist regs ∧
      ∀ x, x ∈ regelemAs dyn c regs ↔ x ∈ regs ∧ (dyn x = c ∨ c = .trafficSign ∧ dyn x = .speedLimit) := by
  refine ⟨List.filter_sublist, fun x => ?_⟩
  simp only [regelemAs, List.mem_filter, Cls.isA, Bool.or_eq_true, beq_iff_eq, Bool.and_eq_true]
  tauto

/-- The subtype of an element created in Python is the name under which its class is registered, unless it is a speed limit: a saved map
is read back with elements of the same class. -/
theorem made_subtype (c : Cls) (hc : c ≠ .speedLimit) (ho : c ≠ .other) : subtype (made c) = c.rule := by
  cases c <;> simp_all [made, subtype, Cls.rule]

/-- Different classes are registered under different names. -/
theorem rule_injective (c d : Cls) (h : c.rule = d.rule) : c = d := by
  revert h
  cases c <;> cases d <;> decide

/-- `SpeedLimit(...)` in Python creates a traffic sign: whatever elements created in Python a lanelet has, `speedLimits()` is empty and the
German traffic rules find no speed limit in them; the subtype is that of a traffic sign, so it stays one when the map is saved and loaded. -/
theorem speedLimit_counterexample {V : Type} (dyn : Nat → Cls) (type : Nat → Rules.Str) (sign : Rules.Str → Except Unit V) (regs : List Nat)
    (h : ∀ x ∈ regs, ∃ c, dyn x = made c) :
    regelemAs dyn .speedLimit regs = [] ∧ Rules.germanRegLimit (limitKind dyn type) sign regs = .ok none ∧
      subtype (made .speedLimit) = Cls.trafficSign.rule := by
  have hn : ∀ x ∈ regs, (dyn x).isA .speedLimit = false := by
    intro x hx
    obtain ⟨c, hc⟩ := h x hx
    rw [hc]
    cases c <;> rfl
  refine ⟨?_, ?_, rfl⟩
  · rw [regelemAs, List.filter_eq_nil_iff]
    intro x hx
    simp [hn x hx]
  · clear h
    induction regs with
    | nil => rfl
    | cons x regs ih =>
      have : limitKind dyn type x = none := by simp [limitKind, hn x (by simp)]
      rw [Rules.germanRegLimit, this]
      exact ih fun y hy => hn y (by simp [hy])

/-- In C++ and for loaded maps speed limits are found. -/
example (dyn : Nat → Cls) (h : dyn 7 = .speedLimit) (h2 : dyn 3 = .trafficLight) : regelemAs dyn .speedLimit [3, 7] = [7] := by
  simp [regelemAs, h, h2, Cls.isA]

/-- What is set is read back, in the same unit; 3.6 km/h are 1 m/s in whatever way they are set and read, and whether the limit is
mandatory is not touched. -/
theorem speed_units (s : Speed) (v : ℚ) (m : Bool) :
    getVelocity (setVelocity s v) = v ∧ getVelocityMPS (setVelocityMPS s v) = v ∧
      getVelocityMPS (setVelocity s (18 / 5 * v)) = v ∧ getVelocity (setVelocityMPS s v) = 18 / 5 * v ∧
      (setVelocity s v).mandatory = s.mandatory ∧ (setVelocityMPS s v).mandatory = s.mandatory ∧
      getVelocity (makeSpeedLimit v m) = v ∧ (makeSpeedLimit v m).mandatory = m := by
  refine ⟨?_, rfl, ?_, ?_, rfl, rfl, ?_, rfl⟩ <;>
    simp only [getVelocity, getVelocityMPS, setVelocity, setVelocityMPS, makeSpeedLimit, kmh] <;> ring

/-- `makeSpeedLimit` takes its argument in km/h, although keyword and documentation of the constructor say m/s. -/
theorem makeSpeedLimit_counterexample : getVelocityMPS (makeSpeedLimit 10 true) ≠ 10 := by
  norm_num [getVelocityMPS, makeSpeedLimit, kmh]

end Verif.Py.Kinds
