import Verif.Py.Convert
import Verif.Cost.Model

/-!
Model of routing costs that are written in Python, python_api/routing.cpp 56-161: which function runs when the routing graph asks for a
cost, and what happens if it fails.
-/
namespace Verif.Py.Costs
open Verif.Graph Verif.Build
open Verif.Lanelet (LH)

/-- What a Python function does when it is called: it returns a number, returns something else, or raises an exception -/
inductive Ret (K : Type) where
  | number (k : K)
  | other
  | raises

/-- A Python object of class RoutingCost, RoutingCostDistance or RoutingCostTravelTime or of a Python class derived from one of them: the C++
object that it wraps, none for RoutingCost itself, and the overrides of the Python class -/
structure PyCost (K : Type) where
  /-- the C++ cost module, RoutingCostWrapper of routing.cpp 69-102; none for RoutingCostBaseWrapper, 56-67 -/
  base : Option (CostModule K)
  /-- the override of getCostSucceeding -/
  succ : Option (Prim → Prim → Ret K)
  /-- the override of getCostLaneChange -/
  change : Option (List LH → List LH → Ret K)

/-- What the routing graph sees of a call: a number, or the end of the program as an exception leaves a function that is `noexcept` -/
inductive Seen (K : Type) where
  | value (k : K)
  | terminates
  deriving DecidableEq

/-- The conversion of the result of an override to `double` (Boost.Python); it throws for an object that is no number and for a raised
exception, in functions that are noexcept, routing.cpp 59, 64, 76 and 90 -/
def Ret.seen {K : Type} : Ret K → Seen K
  | .number k => .value k
  | .other => .terminates
  | .raises => .terminates

/-- getCostSucceeding, routing.cpp 58-61 for RoutingCost (without an override None is called, which raises) and 75-82 for the others -/
def getCostSucceeding {K : Type} (c : PyCost K) (src dst : Prim) : Seen K :=
  match c.succ with
  | some o => (o src dst).seen
  | none =>
    match c.base with
    | some m => .value (m.succ src dst)
    | none => Ret.seen .raises

/-- getCostLaneChange, routing.cpp 63-66 and 89-96 -/
def getCostLaneChange {K : Type} (c : PyCost K) (src dst : List LH) : Seen K :=
  match c.change with
  | some o => (o src dst).seen
  | none =>
    match c.base with
    | some m => .value (m.change src dst)
    | none => Ret.seen .raises

/-- A call of the method of the C++ class from Python, as `super().getCostSucceeding(...)` or on an object without override:
defaultGetCostSucceeding, routing.cpp 84-87 with 142-144, and pure_virtual for RoutingCost, 132, which raises -/
def defaultSucceeding {K : Type} (base : Option (CostModule K)) (src dst : Prim) : Ret K :=
  match base with
  | some m => .number (m.succ src dst)
  | none => .raises

/-- defaultGetCostLaneChange, routing.cpp 98-101 with 145-148, and pure_virtual, 134 -/
def defaultLaneChange {K : Type} (base : Option (CostModule K)) (src dst : List LH) : Ret K :=
  match base with
  | some m => .number (m.change src dst)
  | none => .raises

/-- A call of the method on the object from Python: the override if there is one (attribute lookup of Python), else that of the C++ class,
routing.cpp 132-136, 142-148 and 154-160 -/
def pySucceeding {K : Type} (c : PyCost K) (src dst : Prim) : Ret K :=
  match c.succ with
  | some o => o src dst
  | none => defaultSucceeding c.base src dst

/-- the same for lane changes, routing.cpp 134-136, 145-148 and 157-160 -/
def pyLaneChange {K : Type} (c : PyCost K) (src dst : List LH) : Ret K :=
  match c.change with
  | some o => o src dst
  | none => defaultLaneChange c.base src dst

/-- The first cost that a routing graph computes for cost id `i` with the list given to its constructor, routing.cpp 35-38 with
RoutingGraphBuilder.cpp 364 (`*routingCosts_[rci]`): undefined (`none`) for a null pointer, which None in the list becomes -/
def firstCost {K : Type} (costs : List (Option (PyCost K))) (i : Nat) (src dst : Prim) : Option (Seen K) :=
  match costs[i]? with
  | some (some c) => some (getCostSucceeding c src dst)
  | _ => none

/-! ### The specification -/

/-- Specification. An object that answers all questions with numbers. -/
structure Answers {K : Type} (c : PyCost K) : Prop where
  /-- an override, or the function of the C++ class -/
  succ : match c.succ with
    | some o => ∀ a b, ∃ k, o a b = Ret.number k
    | none => c.base ≠ none
  /-- the same -/
  change : match c.change with
    | some o => ∀ a b, ∃ k, o a b = Ret.number k
    | none => c.base ≠ none

/-! ### Proofs -/

/-- C93. An override is used for every pair, with the arguments in their order. -/
theorem override_used {K : Type} (c : PyCost K) (f : Prim → Prim → K) (g : List LH → List LH → K)
    (hs : c.succ = some fun a b => .number (f a b)) (hc : c.change = some fun a b => .number (g a b)) :
    (∀ a b, getCostSucceeding c a b = .value (f a b)) ∧ (∀ a b, getCostLaneChange c a b = .value (g a b)) := by
  constructor <;> intro a b
  · simp only [getCostSucceeding, hs, Ret.seen]
  · simp only [getCostLaneChange, hc, Ret.seen]

/-- C93. Each of the two functions that is not overridden is that of the C++ class, whatever the other does. -/
theorem base_used {K : Type} (c : PyCost K) (m : CostModule K) (hb : c.base = some m) :
    (c.succ = none → ∀ a b, getCostSucceeding c a b = .value (m.succ a b)) ∧
    (c.change = none → ∀ a b, getCostLaneChange c a b = .value (m.change a b)) := by
  constructor <;> intro h a b
  · simp only [getCostSucceeding, h, hb]
  · simp only [getCostLaneChange, h, hb]

/-- C93. An override may call the method of its base class, which then is the C++ function and not the override again: adding to the cost of
the base class adds exactly once. -/
theorem super_call {K : Type} (m : CostModule K) (add : K → K) (o : Prim → Prim → Ret K)
    (ho : ∀ a b, o a b = match defaultSucceeding (some m) a b with
      | .number k => .number (add k)
      | r => r) (ch : Option (List LH → List LH → Ret K)) (a b : Prim) :
    getCostSucceeding ⟨some m, some o, ch⟩ a b = .value (add (m.succ a b)) := by
  simp only [getCostSucceeding, ho, defaultSucceeding, Ret.seen]

/-- C93. For an object that answers with numbers there is a cost module that the routing graph sees and that Python sees: all that is proved
of routing graphs for every cost module holds for it. -/
theorem seen_module {K : Type} (c : PyCost K) (h : Answers c) :
    ∃ m : CostModule K,
      (∀ a b, getCostSucceeding c a b = .value (m.succ a b) ∧ pySucceeding c a b = .number (m.succ a b)) ∧
      (∀ a b, getCostLaneChange c a b = .value (m.change a b) ∧ pyLaneChange c a b = .number (m.change a b)) := by
  have hs : ∃ f : Prim → Prim → K, ∀ a b, getCostSucceeding c a b = .value (f a b) ∧ pySucceeding c a b = .number (f a b) := by
    have := h.succ
    cases ho : c.succ with
    | some o =>
      rw [ho] at this
      simp only at this
      choose f hf using this
      exact ⟨f, fun a b => by simp only [getCostSucceeding, pySucceeding, ho, hf, Ret.seen, and_self]⟩
    | none =>
      rw [ho] at this
      cases hb : c.base with
      | none => exact absurd hb this
      | some m => exact ⟨m.succ, fun a b => by simp only [getCostSucceeding, pySucceeding, defaultSucceeding, ho, hb, and_self]⟩
  have hc : ∃ f : List LH → List LH → K, ∀ a b, getCostLaneChange c a b = .value (f a b) ∧ pyLaneChange c a b = .number (f a b) := by
    have := h.change
    cases ho : c.change with
    | some o =>
      rw [ho] at this
      simp only at this
      choose f hf using this
      exact ⟨f, fun a b => by simp only [getCostLaneChange, pyLaneChange, ho, hf, Ret.seen, and_self]⟩
    | none =>
      rw [ho] at this
      cases hb : c.base with
      | none => exact absurd hb this
      | some m => exact ⟨m.change, fun a b => by simp only [getCostLaneChange, pyLaneChange, defaultLaneChange, ho, hb, and_self]⟩
  obtain ⟨f, hf⟩ := hs
  obtain ⟨g, hg⟩ := hc
  exact ⟨⟨f, g⟩, hf, hg⟩

/-- Counterexample to C93. An exception that an override raises, a result that is no number and a missing override of RoutingCost end the
program when the routing graph asks for the cost, instead of raising in Python, although the same call from Python just raises. -/
theorem cost_exception_counterexample {K : Type} (c : PyCost K) (a b : Prim) (h : pySucceeding c a b = .raises) :
    getCostSucceeding c a b = .terminates := by
  unfold pySucceeding at h
  unfold getCostSucceeding
  cases ho : c.succ with
  | some o =>
    rw [ho] at h
    simp only at h ⊢
    rw [h]
    rfl
  | none =>
    rw [ho] at h
    simp only at h ⊢
    cases hb : c.base with
    | none => rfl
    | some m => rw [hb] at h; cases h

/-- C93. Nothing else ends the program: a call either gives the routing graph the number that Python gets, or Python gets no number. -/
theorem seen_iff {K : Type} (c : PyCost K) (a b : Prim) (k : K) : getCostSucceeding c a b = .value k ↔ pySucceeding c a b = .number k := by
  unfold pySucceeding getCostSucceeding
  cases c.succ with
  | some o => cases h : o a b <;> simp [Ret.seen, h]
  | none => cases c.base <;> simp [Ret.seen, defaultSucceeding]

/-- C93. The same for lane changes. -/
theorem seen_change_iff {K : Type} (c : PyCost K) (a b : List LH) (k : K) :
    getCostLaneChange c a b = .value k ↔ pyLaneChange c a b = .number k := by
  unfold pyLaneChange getCostLaneChange
  cases c.change with
  | some o => cases h : o a b <;> simp [Ret.seen, h]
  | none => cases c.base <;> simp [Ret.seen, defaultLaneChange]

/-- Counterexample to C93. None in the list of costs is taken as a null pointer by the conversion, which the routing graph dereferences, instead
of being refused with an error. -/
theorem null_cost_counterexample {K : Type} (items : Convert.Cls → Nat → Option (List Convert.Obj)) (a b : Prim) :
    Convert.extract items (.vec (.ptr .routingCost)) (.list [.none]) = some ([none] : List (Option Nat)) ∧
    firstCost ([none] : List (Option (PyCost K))) 0 a b = none := ⟨rfl, rfl⟩

/-- C93. Without None in the list, cost id `i` is the object at that place of the list. -/
theorem cost_id {K : Type} (costs : List (PyCost K)) (i : Nat) (c : PyCost K) (h : costs[i]? = some c) (a b : Prim) :
    firstCost (costs.map some) i a b = some (getCostSucceeding c a b) := by
  simp [firstCost, h]

/-! ### Examples -/

/-- Example. A class derived from RoutingCostDistance that overrides one of the functions with double the cost. -/
def exCost : PyCost Int :=
  ⟨some ⟨fun _ _ => 5, fun _ _ => 2⟩, some fun a b => match defaultSucceeding (some ⟨fun _ _ => (5 : Int), fun _ _ => 2⟩) a b with
    | .number k => .number (2 * k)
    | r => r, none⟩

-- the hypotheses of super_call, base_used and seen_module
example (a b : Prim) : getCostSucceeding exCost a b = .value 10 ∧ getCostLaneChange exCost [] [] = .value 2 := ⟨rfl, rfl⟩
example : Answers exCost := ⟨fun _ _ => ⟨_, rfl⟩, by simp [exCost]⟩

-- a class derived from RoutingCost without overrides
example (a b : Prim) : getCostSucceeding (⟨none, none, none⟩ : PyCost Int) a b = .terminates := rfl

end Verif.Py.Costs
