import Verif.Search.Model

/-!
Vocabulary for stating the properties of the graph search, independent of how the search works.
-/
namespace Verif.Search
variable {σ K : Type} [Cost K]

/-- `Walk g A start c v`: there is a walk from `start` to `v` along edges of `g` with accumulated cost
`c` (summed from the start) on which all vertices but the last one satisfy `A`. -/
inductive Walk (g : Graph K) (A : Nat → Prop) (start : Nat) : K → Nat → Prop where
  | nil : Walk g A start Cost.zero start
  | snoc {c : K} {u : Nat} {e : Edge K} : Walk g A start c u → A u → e ∈ g u →
      Walk g A start (Cost.add c e.cost) e.dst

/-- any walk -/
abbrev AnyWalk (g : Graph K) (start : Nat) (c : K) (v : Nat) : Prop := Walk g (fun _ => True) start c v

/-- `PathCost g p c`: the successive vertices of the non-empty list `p` are joined by edges of `g` whose
costs accumulate to `c`. -/
inductive PathCost (g : Graph K) : List Nat → K → Prop where
  | single (v : Nat) : PathCost g [v] Cost.zero
  | snoc {p : List Nat} {c : K} {u : Nat} {e : Edge K} : PathCost g p c → p.getLast? = some u →
      e ∈ g u → PathCost g (p ++ [e.dst]) (Cost.add c e.cost)

/-- A finite graph: vertices are below `n`, all costs are non-negative (Graph.h 190-199 keeps infinite
and rejects negative costs when edges are added). -/
structure GraphOk (g : Graph K) (n : Nat) : Prop where
  dst : ∀ v < n, ∀ e ∈ g v, e.dst < n
  cost : ∀ v, ∀ e ∈ g v, Cost.le Cost.zero e.cost

/-- The queue returns an element of minimal cost; nothing is assumed about ties. -/
def PickMin (pick : Nat → (Nat → K) → List Nat → Nat) : Prop :=
  ∀ i cost q, q ≠ [] → pick i cost q ∈ q ∧ ∀ u ∈ q, Cost.le (cost (pick i cost q)) (cost u)

/-- The trace of calls is one that the callback produces when called in this order, starting in state
`u`. -/
def Replays (cb : Callback σ K) : σ → List (VisitInfo K × Option Bool) → Prop
  | _, [] => True
  | u, (i, r) :: t => (cb u i).2 = r ∧ Replays cb (cb u i).1 t

/-- state of the callback after the calls -/
def userAfter (cb : Callback σ K) : σ → List (VisitInfo K × Option Bool) → σ
  | u, [] => u
  | u, (i, _) :: t => userAfter cb (cb u i).1 t

/-- `v` was visited and the callback returned true for it. -/
def Accepted (trace : List (VisitInfo K × Option Bool)) (v : Nat) : Prop :=
  ∃ i, (i, some true) ∈ trace ∧ i.vertex = v

end Verif.Search
