/-
Model of the Dijkstra style graph search of lanelet2_routing.

Sources: lanelet2_routing/include/lanelet2_routing/internal/ShortestPath.h
         lanelet2_routing/src/RoutingGraph.cpp (buildPath, possiblePathsImpl, reachableSetImpl,
           shortestPathImpl, shortestPathViaImpl)
         boost::dijkstra_shortest_paths_no_color_map_no_init (boost/graph/
           dijkstra_shortest_paths_no_color_map.hpp), which is not part of the repository but whose control
           flow is modelled here because the visitor callbacks depend on it.

Costs are an abstract type with the few laws the search needs. In particular addition is not assumed to
be associative or commutative: the laws also hold for non-negative IEEE doubles (rounding is monotone),
where the cost of a path is the sum taken from the start of the path to its end.

`none` results stand for undefined behaviour, an exception of `std::map::at`, or non-termination.
-/
namespace Verif.Search

/-- The laws of routing costs. internal/Graph.h 36-40, 189-199 and ShortestPath.h 35-56 -/
class Cost (K : Type) where
  zero : K
  add : K → K → K
  le : K → K → Prop
  decLe : ∀ a b, Decidable (le a b)
  le_refl : ∀ a, le a a
  le_trans : ∀ {a b c}, le a b → le b c → le a c
  le_total : ∀ a b, le a b ∨ le b a
  /-- monotone in the accumulated cost -/
  add_mono : ∀ {a b} (w), le a b → le (add a w) (add b w)
  /-- adding a non-negative cost does not decrease the accumulated cost -/
  le_add : ∀ (a) {w}, le zero w → le a (add a w)

instance {K : Type} [Cost K] (a b : K) : Decidable (Cost.le a b) := Cost.decLe a b

/-- natural numbers as costs -/
instance : Cost Nat where
  zero := 0
  add := Nat.add
  le := Nat.le
  decLe := fun a b => Nat.decLe a b
  le_refl := Nat.le_refl
  le_trans := Nat.le_trans
  le_total := Nat.le_total
  add_mono := fun w h => Nat.add_le_add_right h w
  le_add := fun _ _ _ => Nat.le_add_right _ _

/-- the strict order used by the queue (`std::less<double>`, ShortestPath.h 125) -/
def Cost.lt {K : Type} [Cost K] (a b : K) : Prop := ¬ Cost.le b a

instance {K : Type} [Cost K] (a b : K) : Decidable (Cost.lt a b) := inferInstanceAs (Decidable (¬ _))

/-- RelationType (Forward.h 56-66) of an edge. -/
inductive Rel where
  | successor | left | right | adjacentLeft | adjacentRight | conflicting | area
deriving DecidableEq, Repr

/-- Outgoing edge of a vertex in a filtered graph: target and EdgeInfo (Graph.h 36-40). The cost id is
fixed by the filter. -/
structure Edge (K : Type) where
  dst : Nat
  cost : K
  rel : Rel

/-- A (filtered) graph: the out edges of every vertex in the order of the adjacency list. internal/Graph.h 63-100 -/
abbrev Graph (K : Type) := Nat → List (Edge K)

/-- ShortestPath.h 23-30 -/
structure VertexState (K : Type) where
  predecessor : Nat
  cost : K
  length : Nat
  numLaneChanges : Nat
  predicate : Bool
  isLeaf : Bool

/-- ShortestPath.h 15-21 -/
structure VisitInfo (K : Type) where
  vertex : Nat
  predecessor : Nat
  cost : K
  length : Nat
  numLaneChanges : Nat

/-- The visitor function with its own state `σ`; `none` means that it throws (used by
`shortestPathImpl` to stop the search). ShortestPath.h 64, 116-127, RoutingGraph.cpp 228-270 -/
abbrev Callback (σ K : Type) := σ → VisitInfo K → σ × Option Bool

/-- State of the search: the search map (ShortestPath.h 32-33, an ordered map; here a partial function), the
queue of the boost algorithm (as a list without particular order), the state of the callback, and – only
for stating properties – the calls of the callback so far with their results. -/
structure State (σ K : Type) where
  map : Nat → Option (VertexState K)
  queue : List Nat
  user : σ
  visits : List (VisitInfo K × Option Bool)

variable {σ K : Type} [Cost K]

/-- assignment to one entry of a map; ShortestPath.h 53-56 -/
def upd {β : Type} (m : Nat → Option β) (v : Nat) (x : β) : Nat → Option β :=
  fun u => if u = v then some x else m u

/-- ShortestPath.h 118-120 plus the initial push of boost's algorithm. -/
def initState (start : Nat) (user : σ) : State σ K :=
  { map := upd (fun _ => none) start ⟨start, Cost.zero, 1, 0, true, true⟩
    queue := [start], user := user, visits := [] }

/-- ShortestPath.h 88-93 (`examine_vertex`). The second component is `none` if the callback threw. -/
def examine (cb : Callback σ K) (s : State σ K) (v : Nat) : Option (State σ K × Option Bool) :=
  match s.map v with
  | none => none
  | some st =>
    let info : VisitInfo K := ⟨v, st.predecessor, st.cost, st.length, st.numLaneChanges⟩
    let r := cb s.user info
    let s := { s with user := r.1, visits := s.visits ++ [(info, r.2)] }
    match r.2 with
    | none => some (s, none)
    | some b =>
      let m := upd s.map v { st with predicate := b }
      match m st.predecessor with
      | none => none
      | some ps =>
        some ({ s with map := upd m st.predecessor { ps with isLeaf := v == st.predecessor } }, some b)

/-- One edge of boost's relaxation loop, with the `edge_relaxed` visitor (ShortestPath.h 95-103) and the
cost map accessors (ShortestPath.h 45-56): `get` of an unknown vertex is infinity, `put` creates the
default entry (`predicate{true}`, `isLeaf{true}`). The vertex is pushed iff it was undiscovered. -/
def relaxEdge (u : Nat) (s : State σ K) (e : Edge K) : Option (State σ K) :=
  match s.map u with
  | none => none
  | some us =>
    let d := Cost.add us.cost e.cost
    match s.map e.dst with
    | none =>
      let n : VertexState K := ⟨u, d, us.length + 1,
        us.numLaneChanges + (if e.rel ≠ Rel.successor then 1 else 0), true, true⟩
      some { s with map := upd s.map e.dst n, queue := s.queue ++ [e.dst] }
    | some vs =>
      if Cost.lt d vs.cost then
        -- `put` first changes the cost of the target, then `edge_relaxed` reads the source entry again
        let m := upd s.map e.dst { vs with cost := d }
        match m u with
        | none => none
        | some us' =>
          let n : VertexState K := ⟨u, d, us'.length + 1,
            us'.numLaneChanges + (if e.rel ≠ Rel.successor then 1 else 0), vs.predicate, vs.isLeaf⟩
          some { s with map := upd m e.dst n }
      else some s

/-- The loop over the out edges; the LeafFilter (ShortestPath.h 67-76) hides all edges of a vertex whose
predicate is false. -/
def relaxAll (u : Nat) : List (Edge K) → State σ K → Option (State σ K)
  | [], s => some s
  | e :: es, s => do relaxAll u es (← relaxEdge u s e)

/-- How a search ends. ShortestPath.h 116-127 -/
inductive Outcome where
  /-- the queue ran empty -/
  | done
  /-- the callback threw -/
  | stopped
deriving DecidableEq

/-- costs of the entries of the queue; ShortestPath.h 44-51 -/
def costOf (s : State σ K) (v : Nat) : K :=
  match s.map v with
  | some st => st.cost
  | none => Cost.zero

/-- Main loop of boost's algorithm. `pick i` selects the top of the queue in the `i`-th iteration: the
heap returns some vertex of minimal cost; which one among equals depends on the history of the heap and
is left open (theorems hold for every `pick` that returns a minimal element). called by ShortestPath.h 123-126 -/
def loop (g : Graph K) (pick : Nat → (Nat → K) → List Nat → Nat) (cb : Callback σ K) (i : Nat)
    (s : State σ K) : Option (Outcome × State σ K) :=
  if s.queue = [] then some (.done, s)
  else
    let v := pick i (costOf s) s.queue
    let s := { s with queue := s.queue.erase v }
    match examine cb s v with
    | none => none
    | some (s, none) => some (.stopped, s)
    | some (s, some b) =>
      match relaxAll v (if b then g v else []) s with
      | none => none
      | some s => loop g pick cb (i + 1) s
partial_fixpoint

/-- ShortestPath.h 116-127 -/
def query (g : Graph K) (pick : Nat → (Nat → K) → List Nat → Nat) (cb : Callback σ K) (start : Nat)
    (user : σ) : Option (Outcome × State σ K) :=
  loop g pick cb 0 (initState start user)

/-! ### RoutingGraph.cpp -/

/-- RoutingGraph.cpp 210-225, the loop of lines 215-223: `path` is the vector being filled (`none` =
default constructed element), writing outside of it is undefined behaviour. -/
def buildPathLoop (m : Nat → Option (VertexState K)) (backw : Bool) (size : Nat) (v : Nat)
    (path : List (Option Nat)) : Option (List (Option Nat)) :=
  match m v with
  | none => none
  | some info =>
    -- size_t arithmetic: an unsigned underflow gives an index outside of the vector
    if (backw ∧ size < info.length) ∨ (¬ backw ∧ info.length = 0) then none
    else
      let idx := if backw then size - info.length else info.length - 1
      if idx < path.length then
        let path := path.set idx (some v)
        if info.predecessor = v then some path
        else buildPathLoop m backw size info.predecessor path
      else none
partial_fixpoint

/-- RoutingGraph.cpp 210-225 -/
def buildPath (m : Nat → Option (VertexState K)) (backw : Bool) (v : Nat) :
    Option (List (Option Nat)) :=
  match m v with
  | none => none
  | some info => buildPathLoop m backw info.length v (List.replicate info.length none)

/-- RoutingGraph.cpp 328-353 after the vertices have been looked up. The outer option is the model's
error value, the inner one the result of the function. -/
def shortestPathImpl (g : Graph K) (pick : Nat → (Nat → K) → List Nat → Nat) (start target : Nat) :
    Option (Option (List (Option Nat))) :=
  match query g pick (fun (_ : Unit) (i : VisitInfo K) =>
      ((), if i.vertex = target then none else some true)) start () with
  | none => none
  | some (.stopped, s) => (buildPath s.map false target).map some
  | some (.done, _) => some none

/-- RoutingGraph.cpp 248-261 (`StopIfCostMoreThan`) -/
def stopIfCostMoreThan (eq : Bool) (c : K) (i : VisitInfo K) : Bool :=
  if eq then decide (Cost.le i.cost c) else decide (Cost.lt i.cost c)

/-- RoutingGraph.cpp 238-246 (`StopIfLaneletsMoreThan`) -/
def stopIfLaneletsMoreThan (eq : Bool) (n : Nat) (i : VisitInfo K) : Bool :=
  if eq then decide (i.length ≤ n) else decide (i.length < n)

/-- a stop criterion as a callback without state; RoutingGraph.cpp 228-270 -/
def pureCb (f : VisitInfo K → Bool) : Callback Unit K := fun _ i => ((), some (f i))

/-- RoutingGraph.cpp 312-326. `n` is the number of vertices of the graph; the map is iterated in key
order. -/
def reachableSetImpl (g : Graph K) (n : Nat) (pick : Nat → (Nat → K) → List Nat → Nat) (start : Nat)
    (f : VisitInfo K → Bool) : Option (List Nat) :=
  match query g pick (pureCb f) start () with
  | some (_, s) => some ((List.range n).filter fun v =>
      match s.map v with
      | some st => st.predicate
      | none => false)
  | none => none

/-- all results or an error; helper of the model -/
def allSome {β : Type} : List (Option β) → Option (List β)
  | [] => some []
  | x :: xs => do return (← x) :: (← allSome xs)

/-- RoutingGraph.cpp 263-281 -/
def possiblePathsImpl (g : Graph K) (n : Nat) (pick : Nat → (Nat → K) → List Nat → Nat)
    (backw keepShorter : Bool) (start : Nat) (f : VisitInfo K → Bool) :
    Option (List (List (Option Nat))) :=
  match query g pick (pureCb f) start () with
  | some (_, s) =>
    let keep := fun v =>
      match s.map v with
      | some st => st.isLeaf && (keepShorter || !st.predicate)
      | none => false
    allSome (((List.range n).filter keep).map (buildPath s.map backw))
  | none => none

/-- RoutingGraph.h PossiblePathsParams: cost limit, element limit, include shorter paths. -/
structure PossiblePathsParams (K : Type) where
  routingCostLimit : Option K
  elementLimit : Option Nat
  includeShorterPaths : Bool

/-- RoutingGraph.cpp 283-310: selection of the stop criterion; `Except.error` is the InvalidInputError. -/
def stopCriterion (p : PossiblePathsParams K) : Except Unit (VisitInfo K → Bool) :=
  match p.routingCostLimit, p.elementLimit with
  | some c, none => .ok (stopIfCostMoreThan false c)
  | none, some n => .ok (stopIfLaneletsMoreThan false n)
  | some c, some n => .ok fun i => stopIfCostMoreThan false c i && stopIfLaneletsMoreThan false n i
  | none, none => .error ()

/-- RoutingGraph.cpp 283-310 -/
def possiblePaths (g : Graph K) (n : Nat) (pick : Nat → (Nat → K) → List Nat → Nat) (backw : Bool)
    (start : Nat) (p : PossiblePathsParams K) : Except Unit (Option (List (List (Option Nat)))) := do
  let f ← stopCriterion p
  return possiblePathsImpl g n pick backw p.includeShorterPaths start f

/-- boost::reverse_graph of a graph with `n` vertices: the in edges of a vertex become its out edges. RoutingGraph.cpp 196-210 -/
def reverse (g : Graph K) (n : Nat) : Graph K := fun v =>
  (List.range n).flatMap fun u => (g u).filterMap fun e =>
    if e.dst = v then some { e with dst := u } else none

/-- RoutingGraph.cpp 355-368 with 76-83 (`addToPath`): concatenation of the paths between successive
route points, `path` is the path so far. `sp` is the shortest path query. -/
def viaLoop (sp : Nat → Nat → Option (List Nat)) : List Nat → List Nat → Option (List Nat)
  | a :: b :: rest, path =>
    match sp a b with
    | none => none
    | some r =>
      -- line 360-362
      let path := if r ≠ [] ∧ path = [] then path ++ r.take 1 else path
      -- `++newElements->begin()`
      viaLoop sp (b :: rest) (path ++ r.drop 1)
  | _, path => some path

/-- RoutingGraph.cpp 417-423, 355-368 -/
def shortestPathVia (sp : Nat → Nat → Option (List Nat)) (start : Nat) (via : List Nat) (target : Nat) :
    Option (List Nat) :=
  viaLoop sp ([start] ++ via ++ [target]) []

end Verif.Search
