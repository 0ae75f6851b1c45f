import Verif.Graph.Props2
import Mathlib.Tactic.ByContra
import Mathlib.Data.List.Induction
import Mathlib.Data.List.Nodup

/-!
The queries of the routing graph in terms of lanelets and areas: forEachSuccessor, forEachPredecessor, possiblePaths,
possiblePathsTowards, shortestPathVia and their variants with areas.

Source: lanelet2_routing/src/RoutingGraph.cpp.
-/
namespace Verif.Graph
open Verif.Search (Cost Rel PossiblePathsParams PickMin VisitInfo Callback Outcome GraphOk)
open RelationType

variable {P K σ : Type} [DecidableEq P] [Cost K]

/-! ### model -/

/-- LaneletVisitInformation, LaneletOrAreaVisitInformation; RoutingGraph.cpp 680-681, 696-698 -/
structure PVisit (P K : Type) where
  prim : P
  predecessor : P
  cost : K
  length : Nat
  numLaneChanges : Nat

/-- The function of the user with its own state; `none` is an exception. lanelet2_routing/Forward.h 80-84 -/
abbrev PCallback (σ P K : Type) := σ → PVisit P K → σ × Option Bool

/-- `graph_->get()[v].laneletOrArea`, RoutingGraph.cpp 680. The vertices of the search are those of the graph, so that the value `d` for others
is never used. -/
def RGraph.primAt (g : RGraph P K) (d : P) (v : Nat) : P := (g.vertices[v]?).getD d

/-- The graph of a query: GetGraph, RoutingGraph.cpp 193-207, 708-710 -/
def RGraph.searchGraph (g : RGraph P K) (id : Nat) (rels : RelationType) (backw : Bool) : Search.Graph K :=
  if backw then Search.reverse (g.filtered id rels) g.vertices.length else g.filtered id rels

/-- the lambda that calls the function of the user; RoutingGraph.cpp 679-682, 695-699, 711-714, 728-732 -/
def RGraph.visitCb (g : RGraph P K) (d : P) (f : PCallback σ P K) : Callback σ K := fun st i =>
  f st ⟨g.primAt d i.vertex, g.primAt d i.predecessor, i.cost, i.length, i.numLaneChanges⟩

/-- forEachSuccessor (RoutingGraph.cpp 671-683), forEachSuccessorIncludingAreas (685-700), forEachPredecessor (702-715),
forEachPredecessorIncludingAreas (717-733). The result tells how the search ended and the calls with what they returned. `Except.error` is the
InvalidInputError, `none` undefined behaviour or no end. -/
def RGraph.forEach (g : RGraph P K) (pick : Nat → (Nat → K) → List Nat → Nat) (backw : Bool) (src : P) (f : PCallback σ P K) (st : σ)
    (id : Nat) (lc areas : Bool) : Except Unit (Option (Outcome × List (PVisit P K × Option Bool))) :=
  match g.getVertex src with
  | none => .ok (some (.done, []))
  | some u => do
    let (id, rels) ← g.getFilteredGraph id
      (if areas then if lc then withAreasAndLaneChanges else withAreasWithoutLaneChanges
       else if lc then withLaneChanges else withoutLaneChanges)
    match Search.query (g.searchGraph id rels backw) pick (g.visitCb src f) u st with
    | none => .ok none
    | some (o, s) => .ok (some (o, s.visits.map fun i =>
        (⟨g.primAt src i.1.vertex, g.primAt src i.1.predecessor, i.1.cost, i.1.length, i.1.numLaneChanges⟩, i.2)))

/-- possiblePaths (RoutingGraph.cpp 604-612), possiblePathsTowards (624-633), possiblePathsIncludingAreas (647-656) -/
def RGraph.possiblePaths (g : RGraph P K) (pick : Nat → (Nat → K) → List Nat → Nat) (backw : Bool) (src : P) (p : PossiblePathsParams K)
    (id : Nat) (lc areas : Bool) : Except Unit (Option (List (List P))) :=
  match g.getVertex src with
  | none => .ok (some [])
  | some u => do
    let (id, rels) ← g.getFilteredGraph id
      (if areas then if lc then withAreasAndLaneChanges else withAreasWithoutLaneChanges
       else if lc then withLaneChanges else withoutLaneChanges)
    match ← Search.possiblePaths (g.searchGraph id rels backw) g.vertices.length pick backw u p with
    | none => .ok none
    | some paths => .ok (Search.allSome (paths.map fun q => Search.allSome (q.map fun x => x.bind fun v => g.vertices[v]?)))

/-- the overloads with a minimal cost, RoutingGraph.cpp 614-617, 635-639, 658-663 -/
def RGraph.possiblePathsCost (g : RGraph P K) (pick : Nat → (Nat → K) → List Nat → Nat) (backw : Bool) (src : P) (minCost : K)
    (id : Nat) (lc areas : Bool) : Except Unit (Option (List (List P))) :=
  g.possiblePaths pick backw src ⟨some minCost, none, false⟩ id lc areas

/-- the overloads with a minimal number of elements, RoutingGraph.cpp 619-622, 641-645, 665-669 -/
def RGraph.possiblePathsElements (g : RGraph P K) (pick : Nat → (Nat → K) → List Nat → Nat) (backw : Bool) (src : P) (minElements : Nat)
    (id : Nat) (lc areas : Bool) : Except Unit (Option (List (List P))) :=
  g.possiblePaths pick backw src ⟨none, some minElements, false⟩ id lc areas

/-- shortestPathViaImpl with addToPath, RoutingGraph.cpp 76-83, 355-368. Results: exception, undefined behaviour, no path, path. -/
def viaLoopP (sp : P → P → Except Unit (Option (Option (List P)))) : List P → List P → Except Unit (Option (Option (List P)))
  | a :: b :: rest, path => do
    match ← sp a b with
    | none => .ok none
    | some none => .ok (some none)
    | some (some r) =>
      let path := if r ≠ [] ∧ path = [] then path ++ r.take 1 else path
      if r = [] then .ok none else viaLoopP sp (b :: rest) (path ++ r.drop 1)
  | _, path => .ok (some (some path))

/-- shortestPathVia (RoutingGraph.cpp 417-423), shortestPathIncludingAreasVia (425-434) -/
def RGraph.shortestPathVia (g : RGraph P K) (pick : Nat → (Nat → K) → List Nat → Nat) (start : P) (via : List P) (target : P)
    (id : Nat) (lc areas : Bool) : Except Unit (Option (Option (List P))) :=
  viaLoopP (fun a b => g.shortestPath pick a b id lc areas) ([start] ++ via ++ [target]) []

/-! ### specification -/

/-- Specification. An edge of the cost module from p to q in the direction of the query. -/
def Arc (g : RGraph P K) (id : Nat) (backw : Bool) (p q : P) (r : RelationType) (w : K) : Prop :=
  if backw then HasEdge g q p id r w else HasEdge g p q id r w

/-- Specification. A sequence of lanelets and areas, each joined with the next by an edge with one of the relations; the costs are summed up
from the first one on. -/
inductive Trail (g : RGraph P K) (id : Nat) (backw : Bool) (rels : List RelationType) : List P → K → Prop
  | single (p : P) : Trail g id backw rels [p] Cost.zero
  | snoc {ps : List P} {c w : K} {p q : P} {r : RelationType} : Trail g id backw rels ps c → ps.getLast? = some p → r ∈ rels →
      Arc g id backw p q r w → Trail g id backw rels (ps ++ [q]) (Cost.add c w)

/-- Specification. As `Trail`, with only the ends: all elements but the last one satisfy A. -/
inductive Reach (g : RGraph P K) (id : Nat) (backw : Bool) (rels : List RelationType) (A : P → Prop) (start : P) : K → P → Prop
  | nil : Reach g id backw rels A start Cost.zero start
  | snoc {c w : K} {p q : P} {r : RelationType} : Reach g id backw rels A start c p → A p → r ∈ rels → Arc g id backw p q r w →
      Reach g id backw rels A start (Cost.add c w) q

/-- Specification. The calls in this order produce these results. -/
def PReplays (f : PCallback σ P K) : σ → List (PVisit P K × Option Bool) → Prop
  | _, [] => True
  | u, (i, r) :: t => (f u i).2 = r ∧ PReplays f (f u i).1 t

/-- Specification. The function was called for p and returned true. -/
def PAccepted (trace : List (PVisit P K × Option Bool)) (p : P) : Prop := ∃ i, (i, some true) ∈ trace ∧ i.prim = p

/-- Specification. What a user of forEachSuccessor and forEachPredecessor can rely on. -/
structure PVisitSpec (g : RGraph P K) (id : Nat) (backw : Bool) (rels : List RelationType) (start : P) (f : PCallback σ P K) (user : σ)
    (completed : Bool) (trace : List (PVisit P K × Option Bool)) : Prop where
  replays : PReplays f user trace
  /-- nothing is visited twice -/
  once : (trace.map (·.1.prim)).Nodup
  /-- costs never decrease -/
  sorted : trace.Pairwise fun i j => Cost.le i.1.cost j.1.cost
  /-- the start comes first; all others come over an edge from one that was accepted before, which explains cost, length and lane changes -/
  steps : ∀ pre i post, trace = pre ++ i :: post →
    (pre = [] ∧ i.1.prim = start ∧ i.1.predecessor = start ∧ i.1.cost = Cost.zero ∧ i.1.length = 1 ∧ i.1.numLaneChanges = 0) ∨
    (∃ j ∈ pre, ∃ r w, r ∈ rels ∧ Arc g id backw j.1.prim i.1.prim r w ∧ j.2 = some true ∧ i.1.predecessor = j.1.prim ∧
      i.1.cost = Cost.add j.1.cost w ∧ i.1.length = j.1.length + 1 ∧
      i.1.numLaneChanges = j.1.numLaneChanges + (if r = Successor then 0 else 1))
  /-- the cost is the least one over accepted elements -/
  minimal : ∀ i ∈ trace, Reach g id backw rels (PAccepted trace) start i.1.cost i.1.prim ∧
    ∀ c, Reach g id backw rels (PAccepted trace) start c i.1.prim → Cost.le i.1.cost c
  /-- unless the function throws, all that can be reached over accepted elements is visited -/
  complete : completed = true → ∀ c p, Reach g id backw rels (PAccepted trace) start c p → ∃ i ∈ trace, i.1.prim = p
  throws : ∀ pre i post, trace = pre ++ i :: post → i.2 = none → post = [] ∧ completed = false
  /-- the search is given up only because the function threw -/
  stops : completed = false → ∃ i, trace.getLast? = some i ∧ i.2 = none

/-! ### vertices and primitives -/

theorem view_eq (lc areas : Bool) : (if areas then if lc then withAreasAndLaneChanges else withAreasWithoutLaneChanges
    else if lc then withLaneChanges else withoutLaneChanges) = pathView lc areas := by
  cases lc <;> cases areas <;> rfl

theorem primAt_of {g : RGraph P K} {d p : P} {v : Nat} (h : g.vertices[v]? = some p) : g.primAt d v = p := by simp [RGraph.primAt, h]

theorem primAt_lt {g : RGraph P K} (d : P) {v : Nat} (h : v < g.vertices.length) : g.vertices[v]? = some (g.primAt d v) := by
  rw [List.getElem?_eq_getElem h, primAt_of (List.getElem?_eq_getElem h)]

theorem primAt_inj {g : RGraph P K} (hn : g.vertices.Nodup) {d : P} {v w : Nat} (hv : v < g.vertices.length)
    (hw : w < g.vertices.length) (h : g.primAt d v = g.primAt d w) : v = w := by
  have a := primAt_lt d hv
  have b := primAt_lt d hw
  rw [h, ← b] at a
  exact (List.getElem?_inj hv hn).1 a

theorem searchGraph_ok {t : CostTests K} (ht : TestsOk t) {g : RGraph P K} (h : Built t g) (id : Nat) (rels : RelationType) (backw : Bool) :
    GraphOk (g.searchGraph id rels backw) g.vertices.length := by
  rw [RGraph.searchGraph]
  split
  · exact Search.reverse_ok (filtered_ok ht h id rels)
  · exact filtered_ok ht h id rels

theorem toRel_successor {r : RelationType} : toRel r = .successor ↔ r = Successor := by
  unfold toRel
  constructor
  · intro h
    by_contra hc
    rw [if_neg hc] at h
    repeat' split at h
    all_goals cases h
  · rintro rfl; rfl

/-- edges of the search are arcs -/
theorem arc_of_edge {t : CostTests K} {g : RGraph P K} (h : Built t g) (lc areas : Bool) (id : Nat) (backw : Bool) (d : P) {v : Nat}
    {e : Search.Edge K} (he : e ∈ g.searchGraph id (pathView lc areas) backw v) :
    ∃ r ∈ pathRelations lc areas, Arc g id backw (g.primAt d v) (g.primAt d e.dst) r e.cost ∧ e.rel = toRel r := by
  have wf := built_wf h
  have hview := pathView_mem lc areas
  cases backw with
  | false =>
    simp only [RGraph.searchGraph, Bool.false_eq_true, if_false, RGraph.filtered, List.mem_map] at he
    obtain ⟨x, hx, rfl⟩ := he
    have hx := (view_exact h hview id v x).mp hx
    refine ⟨x.info.relation, hx.2.2.2, ⟨x, hx.1, ?_, primAt_lt d (wf.dst x hx.1), hx.2.2.1, rfl, rfl⟩, rfl⟩
    rw [hx.2.1]; exact primAt_lt d (hx.2.1 ▸ wf.src x hx.1)
  | true =>
    simp only [RGraph.searchGraph, if_true] at he
    obtain ⟨hl, he⟩ := Search.mem_reverse.mp he
    simp only [RGraph.filtered, List.mem_map] at he
    obtain ⟨x, hx, hxe⟩ := he
    have hx := (view_exact h hview id e.dst x).mp hx
    have h1 : x.dst = v := congrArg Search.Edge.dst hxe
    have h2 : x.info.routingCost = e.cost := congrArg Search.Edge.cost hxe
    have h3 : toRel x.info.relation = e.rel := congrArg Search.Edge.rel hxe
    refine ⟨x.info.relation, hx.2.2.2, ⟨x, hx.1, ?_, ?_, hx.2.2.1, rfl, h2⟩, h3.symm⟩
    · rw [hx.2.1]; exact primAt_lt d hl
    · rw [h1]; exact primAt_lt d (h1 ▸ wf.dst x hx.1)

/-- arcs are edges of the search -/
theorem edge_of_arc {t : CostTests K} {g : RGraph P K} (h : Built t g) (lc areas : Bool) (id : Nat) (backw : Bool) {p q : P} {v : Nat}
    {r : RelationType} {w : K} (hv : g.vertices[v]? = some p) (hr : r ∈ pathRelations lc areas) (ha : Arc g id backw p q r w) :
    ∃ e ∈ g.searchGraph id (pathView lc areas) backw v, g.vertices[e.dst]? = some q ∧ e.cost = w := by
  have wf := built_wf h
  have hview := pathView_mem lc areas
  have same : ∀ {a b : Nat} {x : P}, g.vertices[a]? = some x → g.vertices[b]? = some x → a = b := by
    intro a b x ha hb
    have h1 := (getVertex_iff wf.nodup).mpr ha
    rw [(getVertex_iff wf.nodup).mpr hb] at h1
    exact (Option.some.inj h1).symm
  cases backw with
  | false =>
    obtain ⟨x, x1, x2, x3, x4, x5, x6⟩ := ha
    have hs := same x2 hv
    refine ⟨⟨x.dst, x.info.routingCost, toRel x.info.relation⟩, ?_, x3, x6⟩
    simp only [RGraph.searchGraph, Bool.false_eq_true, if_false, RGraph.filtered, List.mem_map]
    exact ⟨x, (view_exact h hview id v x).mpr ⟨x1, hs, x4, by rw [x5]; exact hr⟩, rfl⟩
  | true =>
    obtain ⟨x, x1, x2, x3, x4, x5, x6⟩ := ha
    have hs := same x3 hv
    refine ⟨⟨x.src, x.info.routingCost, toRel x.info.relation⟩, ?_, x2, x6⟩
    simp only [RGraph.searchGraph, if_true]
    rw [Search.mem_reverse]
    refine ⟨wf.src x x1, ?_⟩
    simp only [RGraph.filtered, List.mem_map]
    exact ⟨x, (view_exact h hview id x.src x).mpr ⟨x1, rfl, x4, by rw [x5]; exact hr⟩, by rw [hs]⟩

theorem reach_of_walk {t : CostTests K} {g : RGraph P K} (h : Built t g) (lc areas : Bool) (id : Nat) (backw : Bool) (d : P) {u : Nat}
    {A : Nat → Prop} {B : P → Prop} (hAB : ∀ v, A v → B (g.primAt d v)) {c : K} {v : Nat}
    (hw : Search.Walk (g.searchGraph id (pathView lc areas) backw) A u c v) :
    Reach g id backw (pathRelations lc areas) B (g.primAt d u) c (g.primAt d v) := by
  induction hw with
  | nil => exact .nil
  | snoc hw ha he ih =>
    obtain ⟨r, hr, harc, -⟩ := arc_of_edge h lc areas id backw d he
    exact .snoc ih (hAB _ ha) hr harc

theorem walk_of_reach {t : CostTests K} {g : RGraph P K} (h : Built t g) (lc areas : Bool) (id : Nat) (backw : Bool) {src : P} {u : Nat}
    (hu : g.vertices[u]? = some src) {A : Nat → Prop} {B : P → Prop} (hAB : ∀ v p, g.vertices[v]? = some p → B p → A v) {c : K} {p : P}
    (hw : Reach g id backw (pathRelations lc areas) B src c p) :
    ∃ v, g.vertices[v]? = some p ∧ Search.Walk (g.searchGraph id (pathView lc areas) backw) A u c v := by
  induction hw with
  | nil => exact ⟨u, hu, .nil⟩
  | snoc hw hb hr harc ih =>
    obtain ⟨v, hv, hwv⟩ := ih
    obtain ⟨e, he, he1, he2⟩ := edge_of_arc h lc areas id backw hv hr harc
    refine ⟨e.dst, he1, ?_⟩
    rw [← he2]
    exact .snoc hwv (hAB v _ hv hb) he

theorem trail_of_path {t : CostTests K} {g : RGraph P K} (h : Built t g) (lc areas : Bool) (id : Nat) (backw : Bool) (d : P)
    {vs : List Nat} {c : K} (hp : Search.PathCost (g.searchGraph id (pathView lc areas) backw) vs c) :
    Trail g id backw (pathRelations lc areas) (vs.map (g.primAt d)) c := by
  induction hp with
  | single v => exact .single _
  | snoc hp hl he ih =>
    obtain ⟨r, hr, harc, -⟩ := arc_of_edge h lc areas id backw d he
    rw [List.map_append, List.map_cons, List.map_nil]
    exact .snoc ih (by rw [List.getLast?_map, hl]; rfl) hr harc

theorem path_lt {g : RGraph P K} {G : Search.Graph K} (hok : GraphOk G g.vertices.length) {vs : List Nat} {c : K}
    (hp : Search.PathCost G vs c) (hh : ∀ v, vs.head? = some v → v < g.vertices.length) : ∀ v ∈ vs, v < g.vertices.length := by
  induction hp with
  | single v => intro w hw; rw [List.mem_singleton.1 hw]; exact hh v rfl
  | snoc hp hl he ih =>
    rename_i p c u e
    have ih := ih (by
      intro v hv
      apply hh
      cases p with
      | nil => simp at hv
      | cons => simpa using hv)
    intro w hw
    rcases List.mem_append.1 hw with hw | hw
    · exact ih w hw
    · rw [List.mem_singleton.1 hw]
      exact hok.dst u (ih u (List.mem_of_getLast? hl)) _ he

/-! ### forEachSuccessor, forEachPredecessor -/

theorem forEach_eq {g : RGraph P K} {src : P} {u : Nat} (hu : g.getVertex src = some u) {id : Nat} (hid : id < g.numRoutingCosts)
    {pick : Nat → (Nat → K) → List Nat → Nat} {backw : Bool} {f : PCallback σ P K} {user : σ} {lc areas : Bool} :
    g.forEach pick backw src f user id lc areas =
      match Search.query (g.searchGraph id (pathView lc areas) backw) pick (g.visitCb src f) u user with
      | none => .ok none
      | some (o, s) => .ok (some (o, s.visits.map fun i =>
          (⟨g.primAt src i.1.vertex, g.primAt src i.1.predecessor, i.1.cost, i.1.length, i.1.numLaneChanges⟩, i.2))) := by
  have hfg : g.getFilteredGraph id (pathView lc areas) = .ok (id, pathView lc areas) := by
    simp [RGraph.getFilteredGraph]; omega
  simp only [RGraph.forEach, hu, view_eq]
  rw [hfg]
  rfl

/-- **C23** in terms of lanelets and areas: for every function of the user (with state, also one that throws), forEachSuccessor and
forEachPredecessor call it for a sequence of elements that has all properties of `PVisitSpec`. -/
theorem routing_forEach {t : CostTests K} (ht : TestsOk t) {g : RGraph P K} (h : Built t g)
    {pick : Nat → (Nat → K) → List Nat → Nat} (hpick : PickMin pick) (backw : Bool) (src : P) (hs : src ∈ g.vertices)
    (f : PCallback σ P K) (user : σ) (id : Nat) (hid : id < g.numRoutingCosts) (lc areas : Bool) :
    ∃ o trace, g.forEach pick backw src f user id lc areas = .ok (some (o, trace)) ∧
      PVisitSpec g id backw (pathRelations lc areas) src f user (decide (o = .done)) trace := by
  have wf := built_wf h
  obtain ⟨u, hu⟩ := getVertex_isSome hs
  obtain ⟨hu1, hu2⟩ := getVertex_spec hu
  have hok := searchGraph_ok ht h id (pathView lc areas) backw
  have hfg : g.getFilteredGraph id (pathView lc areas) = .ok (id, pathView lc areas) := by
    simp [RGraph.getFilteredGraph]; omega
  obtain ⟨o, s, hq, hv⟩ := Search.forEachSuccessor_spec hok hu1 hpick (g.visitCb src f) user
  let φ : VisitInfo K × Option Bool → PVisit P K × Option Bool := fun i =>
    (⟨g.primAt src i.1.vertex, g.primAt src i.1.predecessor, i.1.cost, i.1.length, i.1.numLaneChanges⟩, i.2)
  have hsrc : g.primAt src u = src := primAt_of hu2
  -- all visited vertices are vertices of the graph
  have hlt : ∀ i ∈ s.visits, i.1.vertex < g.vertices.length := by
    intro i hi
    have hw := (hv.minimal i hi).1
    have : ∀ c v, Search.Walk (g.searchGraph id (pathView lc areas) backw) (Search.Accepted s.visits) u c v → v < g.vertices.length := by
      intro c v hw
      induction hw with
      | nil => exact hu1
      | snoc hw ha he ih => exact hok.dst _ ih _ he
    exact this _ _ hw
  have hacc1 : ∀ v, Search.Accepted s.visits v → PAccepted (s.visits.map φ) (g.primAt src v) := by
    rintro v ⟨i, hi, rfl⟩
    exact ⟨(φ (i, some true)).1, List.mem_map.2 ⟨_, hi, rfl⟩, rfl⟩
  have hacc2 : ∀ v p, g.vertices[v]? = some p → PAccepted (s.visits.map φ) p → Search.Accepted s.visits v := by
    rintro v p hp ⟨i, hi, rfl⟩
    obtain ⟨j, hj, hji⟩ := List.mem_map.1 hi
    have h2 : j.2 = some true := congrArg Prod.snd hji
    have h1 : g.primAt src j.1.vertex = i.prim := congrArg (fun x => x.1.prim) hji
    refine ⟨j.1, by rw [← h2]; exact hj, ?_⟩
    have hvl : v < g.vertices.length := (List.getElem?_eq_some_iff.1 hp).1
    refine primAt_inj wf.nodup (d := src) (hlt j hj) hvl ?_
    rw [h1, primAt_of hp]
  have hreach : ∀ c p, Reach g id backw (pathRelations lc areas) (PAccepted (s.visits.map φ)) src c p →
      ∃ v, g.vertices[v]? = some p ∧ Search.Walk (g.searchGraph id (pathView lc areas) backw) (Search.Accepted s.visits) u c v :=
    fun c p hr => walk_of_reach h lc areas id backw hu2 hacc2 hr
  refine ⟨o, s.visits.map φ, ?_, ?_⟩
  · rw [forEach_eq hu hid, hq]
  · have hrep : ∀ (l : List (VisitInfo K × Option Bool)) (st : σ), Search.Replays (g.visitCb src f) st l → PReplays f st (l.map φ) := by
      intro l
      induction l with
      | nil => intro _ _; trivial
      | cons i l ih => intro st hr; exact ⟨hr.1, ih _ hr.2⟩
    refine ⟨hrep _ _ hv.replays, ?_, ?_, ?_, ?_, ?_, ?_, ?_⟩
    · rw [List.map_map]
      have : ((fun x : PVisit P K × Option Bool => x.1.prim) ∘ φ) = (g.primAt src) ∘ fun i : VisitInfo K × Option Bool => i.1.vertex := rfl
      rw [this, ← List.map_map]
      refine (List.nodup_map_iff_inj_on hv.once).2 ?_
      intro a ha b hb hab
      obtain ⟨i, hi, rfl⟩ := List.mem_map.1 ha
      obtain ⟨j, hj, rfl⟩ := List.mem_map.1 hb
      exact primAt_inj wf.nodup (hlt i hi) (hlt j hj) hab
    · rw [List.pairwise_map]
      exact hv.sorted
    · intro pre i post heq
      obtain ⟨pre', rest, hpr, rfl, hrest⟩ := List.map_eq_append_iff.1 heq
      obtain ⟨i', post', hi', rfl, rfl⟩ := List.map_eq_cons_iff.1 hrest
      subst hi'
      rcases hv.steps pre' i' post' hpr with ⟨h1, h2, h3, h4, h5, h6⟩ | ⟨j, hj, e, he, h1, h2, h3, h4, h5, h6⟩
      · left
        refine ⟨by rw [h1]; rfl, ?_, ?_, h4, h5, h6⟩
        · show g.primAt src i'.1.vertex = src
          rw [h2, hsrc]
        · show g.primAt src i'.1.predecessor = src
          rw [h3, hsrc]
      · right
        obtain ⟨r, hr, harc, hrel⟩ := arc_of_edge h lc areas id backw src he
        refine ⟨φ j, List.mem_map_of_mem hj, r, e.cost, hr, ?_, h1, ?_, h4, h5, ?_⟩
        · show Arc g id backw (g.primAt src j.1.vertex) (g.primAt src i'.1.vertex) r e.cost
          rw [h3]; exact harc
        · show g.primAt src i'.1.predecessor = g.primAt src j.1.vertex
          rw [h2]
        · show i'.1.numLaneChanges = j.1.numLaneChanges + _
          rw [h6, hrel]
          simp only [toRel_successor]
    · intro i hi
      obtain ⟨j, hj, rfl⟩ := List.mem_map.1 hi
      obtain ⟨m1, m2⟩ := hv.minimal j hj
      constructor
      · have := reach_of_walk h lc areas id backw src hacc1 m1
        rw [hsrc] at this
        exact this
      · intro c hr
        obtain ⟨v, hvp, hw⟩ := hreach c _ hr
        have : v = j.1.vertex := by
          refine primAt_inj wf.nodup (d := src) (List.getElem?_eq_some_iff.1 hvp).1 (hlt j hj) ?_
          rw [primAt_of hvp]
        rw [this] at hw
        exact m2 c hw
    · intro hc c p hr
      obtain ⟨v, hvp, hw⟩ := hreach c p hr
      obtain ⟨i, hi, hiv⟩ := hv.complete hc c v hw
      refine ⟨φ i, List.mem_map_of_mem hi, ?_⟩
      show g.primAt src i.1.vertex = p
      rw [hiv, primAt_of hvp]
    · intro pre i post heq hi
      obtain ⟨pre', rest, hpr, rfl, hrest⟩ := List.map_eq_append_iff.1 heq
      obtain ⟨i', post', hi', rfl, rfl⟩ := List.map_eq_cons_iff.1 hrest
      subst hi'
      obtain ⟨h1, h2⟩ := hv.throws pre' i' post' hpr hi
      exact ⟨by rw [h1]; rfl, h2⟩
    · intro hc
      obtain ⟨i, h1, h2⟩ := hv.stops hc
      exact ⟨φ i, by rw [List.getLast?_map, h1]; rfl, h2⟩

/-- **C23.** An element outside of the graph has no successors: the function is not called. A cost module that does not exist is an error. -/
theorem routing_forEach_invalid (g : RGraph P K) (pick : Nat → (Nat → K) → List Nat → Nat) (backw : Bool) (src : P)
    (f : PCallback σ P K) (user : σ) (id : Nat) (lc areas : Bool) :
    (src ∉ g.vertices → g.forEach pick backw src f user id lc areas = .ok (some (.done, []))) ∧
    (src ∈ g.vertices → id ≥ g.numRoutingCosts → g.forEach pick backw src f user id lc areas = .error ()) := by
  constructor
  · intro h; simp only [RGraph.forEach, getVertex_none h]
  · intro h h'
    obtain ⟨u, hu⟩ := getVertex_isSome h
    have hfg : ∀ r, g.getFilteredGraph id r = .error () := by intro r; simp [RGraph.getFilteredGraph, h']
    simp only [RGraph.forEach, hu, hfg]
    rfl

/-- **C23.** With a function that always returns true, exactly the reachable lanelets are visited, each with the least cost. -/
theorem routing_forEach_all {t : CostTests K} (ht : TestsOk t) {g : RGraph P K} (h : Built t g)
    {pick : Nat → (Nat → K) → List Nat → Nat} (hpick : PickMin pick) (backw : Bool) (src : P) (hs : src ∈ g.vertices)
    (id : Nat) (hid : id < g.numRoutingCosts) (lc areas : Bool) :
    ∃ trace, g.forEach pick backw src (fun (_ : Unit) _ => ((), some true)) () id lc areas = .ok (some (.done, trace)) ∧
      ∀ p, ((∃ i ∈ trace, i.1.prim = p) ↔ ∃ c, Reach g id backw (pathRelations lc areas) (fun _ => True) src c p) ∧
        ∀ i ∈ trace, i.1.prim = p → ∀ c, Reach g id backw (pathRelations lc areas) (fun _ => True) src c p → Cost.le i.1.cost c := by
  obtain ⟨o, trace, h1, h2⟩ := routing_forEach ht h hpick backw src hs (fun (_ : Unit) (_ : PVisit P K) => ((), some true)) () id hid lc areas
  have hrep : ∀ (l : List (PVisit P K × Option Bool)), PReplays (fun (_ : Unit) (_ : PVisit P K) => ((), some true)) () l →
      ∀ i ∈ l, i.2 = some true := by
    intro l
    induction l with
    | nil => simp
    | cons x l ih =>
      obtain ⟨a, b⟩ := x
      rintro ⟨k1, k2⟩ i hi
      rcases List.mem_cons.1 hi with rfl | hi
      · exact k1.symm
      · exact ih k2 i hi
  have hall := hrep _ h2.replays
  have hacc : ∀ i ∈ trace, PAccepted trace i.1.prim := by
    intro i hi
    refine ⟨i.1, ?_, rfl⟩
    have := hall i hi
    rw [← this]; exact hi
  have ho : o = .done := by
    cases o with
    | done => rfl
    | stopped =>
      exfalso
      -- a stopped search has a call that threw
      have hu := getVertex_isSome hs
      obtain ⟨u, hu⟩ := hu
      have hu1 := (getVertex_spec hu).1
      obtain ⟨o', s, q1, q2, -⟩ := Search.query_spec (searchGraph_ok ht h id (pathView lc areas) backw) hu1 hpick
        (g.visitCb src (fun (_ : Unit) (_ : PVisit P K) => ((), some true))) ()
      rw [forEach_eq hu hid, q1] at h1
      simp only [Except.ok.injEq, Option.some.injEq, Prod.mk.injEq] at h1
      obtain ⟨rfl, h1⟩ := h1
      obtain ⟨s0, v, sv, -, -, -, hvis, -⟩ := q2
      rw [hvis] at h1
      have := hall (⟨g.primAt src v, g.primAt src sv.predecessor, sv.cost, sv.length, sv.numLaneChanges⟩, none) (by rw [← h1]; simp)
      cases this
  subst ho
  refine ⟨trace, h1, ?_⟩
  have hreach : ∀ c p, Reach g id backw (pathRelations lc areas) (fun _ => True) src c p →
      Reach g id backw (pathRelations lc areas) (PAccepted trace) src c p := by
    intro c p hr
    induction hr with
    | nil => exact .nil
    | snoc hr _ hrel harc ih =>
      obtain ⟨i, hi, hip⟩ := h2.complete (by simp) _ _ ih
      exact .snoc ih (hip ▸ hacc i hi) hrel harc
  have hmono : ∀ c p, Reach g id backw (pathRelations lc areas) (PAccepted trace) src c p →
      Reach g id backw (pathRelations lc areas) (fun _ => True) src c p := by
    intro c p hr
    induction hr with
    | nil => exact .nil
    | snoc hr _ hrel harc ih => exact .snoc ih trivial hrel harc
  intro p
  refine ⟨⟨?_, ?_⟩, ?_⟩
  · rintro ⟨i, hi, rfl⟩
    exact ⟨_, hmono _ _ (h2.minimal i hi).1⟩
  · rintro ⟨c, hr⟩
    exact h2.complete (by simp) c p (hreach c p hr)
  · rintro i hi rfl c hr
    exact (h2.minimal i hi).2 c (hreach c _ hr)

/-! ### possiblePaths, possiblePathsTowards -/

theorem possiblePaths_eq {g : RGraph P K} {src : P} {u : Nat} (hu : g.getVertex src = some u) {id : Nat} (hid : id < g.numRoutingCosts)
    {pick : Nat → (Nat → K) → List Nat → Nat} {backw : Bool} {p : PossiblePathsParams K} {lc areas : Bool} {paths : List (List Nat)}
    (l1 : Search.possiblePaths (g.searchGraph id (pathView lc areas) backw) g.vertices.length pick backw u p =
      .ok (some (paths.map (Search.render backw)))) (hlt : ∀ l ∈ paths, ∀ v ∈ l, v < g.vertices.length) :
    g.possiblePaths pick backw src p id lc areas =
      .ok (some ((paths.map fun l => l.map (g.primAt src)).map fun l => if backw then l.reverse else l)) := by
  have hfg : g.getFilteredGraph id (pathView lc areas) = .ok (id, pathView lc areas) := by
    simp [RGraph.getFilteredGraph]; omega
  simp only [RGraph.possiblePaths, hu, view_eq]
  rw [hfg]
  show (Search.possiblePaths (g.searchGraph id (pathView lc areas) backw) g.vertices.length pick backw u p >>= fun r =>
    match r with
    | none => Except.ok none
    | some paths => Except.ok (Search.allSome (paths.map fun q => Search.allSome (q.map fun x => x.bind fun v => g.vertices[v]?)))) = _
  rw [l1]
  show Except.ok (Search.allSome ((paths.map (Search.render backw)).map fun q =>
    Search.allSome (q.map fun x => x.bind fun v => g.vertices[v]?))) = _
  have key : (paths.map (Search.render backw)).map (fun q => Search.allSome (q.map fun x => x.bind fun v => g.vertices[v]?)) =
      ((paths.map fun l => l.map (g.primAt src)).map fun l => if backw then l.reverse else l).map some := by
    rw [List.map_map, List.map_map, List.map_map]
    refine List.map_congr_left ?_
    intro l hl
    simp only [Function.comp]
    have : (Search.render backw l).map (fun x => x.bind fun v => g.vertices[v]?) =
        ((if backw then (l.map (g.primAt src)).reverse else l.map (g.primAt src))).map some := by
      have hm : ∀ k : List Nat, (∀ v ∈ k, v < g.vertices.length) →
          (k.map some).map (fun x : Option Nat => x.bind fun v => g.vertices[v]?) = (k.map (g.primAt src)).map some := by
        intro k hk
        rw [List.map_map, List.map_map]
        refine List.map_congr_left ?_
        intro v hv
        exact primAt_lt src (hk v hv)
      cases backw with
      | false => simpa [Search.render] using hm l (hlt l hl)
      | true =>
        have := hm l.reverse (fun v hv => hlt l hl v (List.mem_reverse.1 hv))
        simpa [Search.render] using this
    rw [this, Search.allSome_some]
  rw [key, Search.allSome_some]

/-- **C24** in terms of lanelets and areas. The paths start at the lanelet (lead to it for `backw`, in the direction of driving), use only the
relations and cost module asked for, repeat nothing, end (begin) at different elements, and none is the beginning (end) of another one. A path
within the limits goes on, and unless shorter paths are asked for each path reaches a limit. -/
theorem routing_possiblePaths {t : CostTests K} (ht : TestsOk t) {g : RGraph P K} (h : Built t g)
    {pick : Nat → (Nat → K) → List Nat → Nat} (hpick : PickMin pick) (backw : Bool) (src : P) (hs : src ∈ g.vertices)
    (p : PossiblePathsParams K) (hp : p.routingCostLimit.isSome ∨ p.elementLimit.isSome) (id : Nat) (hid : id < g.numRoutingCosts)
    (lc areas : Bool) :
    ∃ trails : List (List P),
      g.possiblePaths pick backw src p id lc areas = .ok (some (trails.map fun l => if backw then l.reverse else l)) ∧
      (∀ l ∈ trails, (∃ c, Trail g id backw (pathRelations lc areas) l c) ∧ l.head? = some src ∧ l.Nodup) ∧
      trails.Pairwise (fun l l' => l.getLast? ≠ l'.getLast?) ∧
      (∀ l ∈ trails, ∀ l' ∈ trails, l <+: l' → l = l') ∧
      (∀ l ∈ trails, ∀ q, q <+: l → q ≠ l → q ≠ [] → ∃ c, Trail g id backw (pathRelations lc areas) q c ∧ Search.Within p c q.length) ∧
      (p.includeShorterPaths = false → ∀ l ∈ trails, ∃ c, Trail g id backw (pathRelations lc areas) l c ∧ ¬ Search.Within p c l.length) := by
  have wf := built_wf h
  obtain ⟨u, hu⟩ := getVertex_isSome hs
  obtain ⟨hu1, hu2⟩ := getVertex_spec hu
  have hok := searchGraph_ok ht h id (pathView lc areas) backw
  have hfg : g.getFilteredGraph id (pathView lc areas) = .ok (id, pathView lc areas) := by
    simp [RGraph.getFilteredGraph]; omega
  obtain ⟨paths, l1, l2, l3⟩ := Search.possiblePaths_limits hok hu1 hpick backw p hp
  have hf : ∃ f, Search.stopCriterion p = .ok f := by
    obtain ⟨c, n, b⟩ := p
    cases c <;> cases n <;> simp [Search.stopCriterion] at hp ⊢
  obtain ⟨f, hf⟩ := hf
  obtain ⟨paths', g1, g2, g3, g4⟩ := Search.possiblePaths_general hok hu1 hpick backw p.includeShorterPaths f
  have hpaths : paths' = paths := by
    have : Search.possiblePaths (g.searchGraph id (pathView lc areas) backw) g.vertices.length pick backw u p =
        .ok (Search.possiblePathsImpl (g.searchGraph id (pathView lc areas) backw) g.vertices.length pick backw p.includeShorterPaths u f) := by
      simp only [Search.possiblePaths, hf]; rfl
    rw [this, g1] at l1
    simp only [Except.ok.injEq, Option.some.injEq] at l1
    exact Search.map_render_injective backw l1
  subst hpaths
  let φ := g.primAt src
  have hlt : ∀ l ∈ paths', ∀ v ∈ l, v < g.vertices.length := by
    intro l hl
    obtain ⟨⟨c, hc⟩, hh, -⟩ := g2 l hl
    exact path_lt hok hc (by intro v hv; rw [hh] at hv; have := Option.some.inj hv; omega)
  have hinj : ∀ l ∈ paths', ∀ l' ∈ paths', ∀ a ∈ l, ∀ b ∈ l', φ a = φ b → a = b :=
    fun l hl l' hl' a ha b hb hab => primAt_inj wf.nodup (hlt l hl a ha) (hlt l' hl' b hb) hab
  refine ⟨paths'.map fun l => l.map φ, ?_, ?_, ?_, ?_, ?_, ?_⟩
  · exact possiblePaths_eq hu hid l1 hlt
  · intro l hl
    obtain ⟨k, hk, rfl⟩ := List.mem_map.1 hl
    obtain ⟨⟨c, hc⟩, hh, hn⟩ := g2 k hk
    refine ⟨⟨c, trail_of_path h lc areas id backw src hc⟩, ?_, ?_⟩
    · rw [List.head?_map, hh]
      exact congrArg some (primAt_of hu2)
    · exact (List.nodup_map_iff_inj_on hn).2 (fun a ha b hb hab => hinj k hk k hk a ha b hb hab)
  · rw [List.pairwise_map]
    refine (List.pairwise_iff_forall_sublist.2 ?_)
    intro a b hab heq
    have hsub : ∀ x ∈ [a, b], x ∈ paths' := fun x hx => hab.subset hx
    have ha := hsub a (by simp)
    have hb := hsub b (by simp)
    have hne := List.pairwise_iff_forall_sublist.1 g3 hab
    have hla : ∃ x, a.getLast? = some x := by
      obtain ⟨-, hh, -⟩ := g2 a ha
      have : a ≠ [] := by intro hc; rw [hc] at hh; cases hh
      exact ⟨_, List.getLast?_eq_some_getLast this⟩
    have hlb : ∃ x, b.getLast? = some x := by
      obtain ⟨-, hh, -⟩ := g2 b hb
      have : b ≠ [] := by intro hc; rw [hc] at hh; cases hh
      exact ⟨_, List.getLast?_eq_some_getLast this⟩
    obtain ⟨x, hx⟩ := hla
    obtain ⟨y, hy⟩ := hlb
    rw [List.getLast?_map, List.getLast?_map, hx, hy] at heq
    have := hinj a ha b hb x (List.mem_of_getLast? hx) y (List.mem_of_getLast? hy) (by simpa using heq)
    exact hne (by rw [hx, hy, this])
  · intro l hl l' hl' hpre
    obtain ⟨k, hk, rfl⟩ := List.mem_map.1 hl
    obtain ⟨k', hk', rfl⟩ := List.mem_map.1 hl'
    obtain ⟨m, hm, hmk⟩ := List.prefix_map_iff.1 hpre
    have hkm : k = m := by
      have hinj' : ∀ a ∈ k, ∀ b ∈ m, φ a = φ b → a = b := fun a ha b hb => hinj k hk k' hk' a ha b (hm.subset hb)
      clear hl hl' hpre hk hm
      induction k generalizing m with
      | nil => cases m with
        | nil => rfl
        | cons => simp at hmk
      | cons a k ih => cases m with
        | nil => simp at hmk
        | cons b m =>
          simp only [List.map_cons, List.cons.injEq] at hmk
          rw [hinj' a (by simp) b (by simp) hmk.1,
            ih m hmk.2 (fun a ha b hb => hinj' a (List.mem_cons_of_mem _ ha) b (List.mem_cons_of_mem _ hb))]
    rw [g4 k hk k' hk' (hkm ▸ hm)]
  · intro l hl q hq hne hq0
    obtain ⟨k, hk, rfl⟩ := List.mem_map.1 hl
    obtain ⟨m, hm, rfl⟩ := List.prefix_map_iff.1 hq
    obtain ⟨c, hc, hw⟩ := l2 k hk m hm (by rintro rfl; exact hne rfl) (by rintro rfl; exact hq0 rfl)
    exact ⟨c, trail_of_path h lc areas id backw src hc, by simpa using hw⟩
  · intro hsh l hl
    obtain ⟨k, hk, rfl⟩ := List.mem_map.1 hl
    obtain ⟨c, hc, hw⟩ := l3 k hk hsh
    exact ⟨c, trail_of_path h lc areas id backw src hc, by simpa using hw⟩

/-- **C24.** possiblePaths of an element outside of the graph is empty; without a limit or for a cost module that does not exist it is an
error. -/
theorem routing_possiblePaths_invalid (g : RGraph P K) (pick : Nat → (Nat → K) → List Nat → Nat) (backw : Bool) (src : P)
    (p : PossiblePathsParams K) (id : Nat) (lc areas : Bool) :
    (src ∉ g.vertices → g.possiblePaths pick backw src p id lc areas = .ok (some [])) ∧
    (src ∈ g.vertices → id ≥ g.numRoutingCosts ∨ (p.routingCostLimit = none ∧ p.elementLimit = none) →
      g.possiblePaths pick backw src p id lc areas = .error ()) := by
  constructor
  · intro h; simp only [RGraph.possiblePaths, getVertex_none h]
  · intro h h'
    obtain ⟨u, hu⟩ := getVertex_isSome h
    by_cases hid : id ≥ g.numRoutingCosts
    · have hfg : ∀ r, g.getFilteredGraph id r = .error () := by intro r; simp [RGraph.getFilteredGraph, hid]
      simp only [RGraph.possiblePaths, hu, hfg]
      rfl
    · obtain ⟨h1, h2⟩ := h'.resolve_left hid
      have hfg : ∀ r, g.getFilteredGraph id r = .ok (id, r) := by
        intro r; simp [RGraph.getFilteredGraph]; omega
      simp only [RGraph.possiblePaths, hu, hfg]
      have : ∀ G n, Search.possiblePaths G n pick backw u p = .error () := by
        intro G n
        simp only [Search.possiblePaths, Search.stopCriterion, h1, h2]
        rfl
      show (Search.possiblePaths _ _ pick backw u p >>= _) = _
      rw [this]; rfl

/-- **C24.** With a minimal number of elements all paths have exactly this number (one, if it is zero). -/
theorem routing_possiblePathsElements {t : CostTests K} (ht : TestsOk t) {g : RGraph P K} (h : Built t g)
    {pick : Nat → (Nat → K) → List Nat → Nat} (hpick : PickMin pick) (backw : Bool) (src : P) (hs : src ∈ g.vertices)
    (n : Nat) (id : Nat) (hid : id < g.numRoutingCosts) (lc areas : Bool) :
    ∃ paths, g.possiblePathsElements pick backw src n id lc areas = .ok (some paths) ∧ ∀ l ∈ paths, l.length = max n 1 := by
  obtain ⟨trails, h1, h2, -, -, h5, h6⟩ := routing_possiblePaths ht h hpick backw src hs ⟨none, some n, false⟩ (by simp) id hid lc areas
  refine ⟨_, h1, ?_⟩
  intro l hl
  obtain ⟨k, hk, rfl⟩ := List.mem_map.1 hl
  have hlen : (if backw = true then k.reverse else k).length = k.length := by split <;> simp
  rw [hlen]
  obtain ⟨c, -, hw⟩ := h6 rfl k hk
  have hge : n ≤ k.length := by
    by_contra hc
    exact hw ⟨by simp, by intro m hm; simp at hm; omega⟩
  obtain ⟨-, hh, -⟩ := h2 k hk
  have hpos : 1 ≤ k.length := by
    cases k with
    | nil => cases hh
    | cons => simp
  by_contra hne
  have hlt : max n 1 < k.length := by omega
  obtain ⟨c', -, hw'⟩ := h5 k hk (k.take (max n 1)) (List.take_prefix _ _) (by
    intro hc
    have := congrArg List.length hc
    rw [List.length_take] at this
    omega) (by
    intro hc
    have := congrArg List.length hc
    rw [List.length_take, List.length_nil] at this
    omega)
  have := hw'.2 n rfl
  rw [List.length_take] at this
  omega

/-- **C24.** With a minimal cost all paths cost at least this much, and every shorter beginning costs less. -/
theorem routing_possiblePathsCost {t : CostTests K} (ht : TestsOk t) {g : RGraph P K} (h : Built t g)
    {pick : Nat → (Nat → K) → List Nat → Nat} (hpick : PickMin pick) (src : P) (hs : src ∈ g.vertices)
    (minCost : K) (id : Nat) (hid : id < g.numRoutingCosts) (lc areas : Bool) :
    ∃ paths, g.possiblePathsCost pick false src minCost id lc areas = .ok (some paths) ∧
      (∀ l ∈ paths, l.head? = some src ∧ ∃ c, Trail g id false (pathRelations lc areas) l c ∧ Cost.le minCost c) ∧
      ∀ l ∈ paths, ∀ q, q <+: l → q ≠ l → q ≠ [] → ∃ c, Trail g id false (pathRelations lc areas) q c ∧ ¬ Cost.le minCost c := by
  obtain ⟨trails, h1, h2, -, -, h5, h6⟩ := routing_possiblePaths ht h hpick false src hs ⟨some minCost, none, false⟩ (by simp) id hid lc areas
  refine ⟨trails, ?_, ?_, ?_⟩
  · rw [RGraph.possiblePathsCost, h1]; simp
  · intro l hl
    obtain ⟨-, hh, -⟩ := h2 l hl
    obtain ⟨c, hc, hw⟩ := h6 rfl l hl
    refine ⟨hh, c, hc, ?_⟩
    by_contra hlt
    refine hw ⟨?_, by simp⟩
    intro c' hc'
    cases hc'
    exact hlt
  · intro l hl q hq hne hq0
    obtain ⟨c, hc, hw⟩ := h5 l hl q hq hne hq0
    exact ⟨c, hc, hw.1 minCost rfl⟩

/-- Specification. p can be reached with a cost below the limit. -/
def PBelow (g : RGraph P K) (id : Nat) (backw : Bool) (rels : List RelationType) (start : P) (limit : K) (p : P) : Prop :=
  ∃ c, Reach g id backw rels (fun _ => True) start c p ∧ ¬ Cost.le limit c

/-- **C24.** With a limit of the cost the paths are cheapest and nothing is missing: what is reached at first beyond the limit is the end of
a path, with shorter paths everything reached within the limit is on a path. -/
theorem routing_possiblePaths_cover {t : CostTests K} (ht : TestsOk t) {g : RGraph P K} (h : Built t g)
    {pick : Nat → (Nat → K) → List Nat → Nat} (hpick : PickMin pick) (backw : Bool) (src : P) (hs : src ∈ g.vertices)
    (limit : K) (shorter : Bool) (id : Nat) (hid : id < g.numRoutingCosts) (lc areas : Bool) :
    ∃ trails : List (List P),
      g.possiblePaths pick backw src ⟨some limit, none, shorter⟩ id lc areas =
        .ok (some (trails.map fun l => if backw then l.reverse else l)) ∧
      (∀ l ∈ trails, ∀ p, l.getLast? = some p → ∃ c, Trail g id backw (pathRelations lc areas) l c ∧
        ∀ c', Reach g id backw (pathRelations lc areas) (PBelow g id backw (pathRelations lc areas) src limit) src c' p → Cost.le c c') ∧
      (∀ p c, Reach g id backw (pathRelations lc areas) (PBelow g id backw (pathRelations lc areas) src limit) src c p →
        (∀ c', Reach g id backw (pathRelations lc areas) (PBelow g id backw (pathRelations lc areas) src limit) src c' p →
          Cost.le limit c') → ∃ l ∈ trails, l.getLast? = some p) ∧
      (shorter = true → ∀ p c,
        Reach g id backw (pathRelations lc areas) (PBelow g id backw (pathRelations lc areas) src limit) src c p → ∃ l ∈ trails, p ∈ l) := by
  have wf := built_wf h
  obtain ⟨u, hu⟩ := getVertex_isSome hs
  obtain ⟨hu1, hu2⟩ := getVertex_spec hu
  have hok := searchGraph_ok ht h id (pathView lc areas) backw
  have hsrc : g.primAt src u = src := primAt_of hu2
  obtain ⟨paths, g1, g2, -, -⟩ := Search.possiblePaths_general hok hu1 hpick backw shorter (Search.stopIfCostMoreThan false limit)
  obtain ⟨c1, -, c3, c4⟩ := Search.possiblePaths_cost hok hu1 hpick backw shorter limit g1
  have hlt : ∀ l ∈ paths, ∀ v ∈ l, v < g.vertices.length := by
    intro l hl
    obtain ⟨⟨c, hc⟩, hh, -⟩ := g2 l hl
    exact path_lt hok hc (by intro v hv; rw [hh] at hv; have := Option.some.inj hv; omega)
  have hbelow : ∀ v p, g.vertices[v]? = some p → PBelow g id backw (pathRelations lc areas) src limit p →
      Search.Below (g.searchGraph id (pathView lc areas) backw) u limit v := by
    rintro v p hv ⟨c, hc, hcl⟩
    obtain ⟨v', hv', hw⟩ := walk_of_reach h lc areas id backw hu2 (A := fun _ => True) (fun _ _ _ _ => trivial) hc
    have : v' = v := (List.getElem?_inj (List.getElem?_eq_some_iff.1 hv').1 wf.nodup).1 (hv'.trans hv.symm)
    exact ⟨c, this ▸ hw, hcl⟩
  have hbelow' : ∀ v, Search.Below (g.searchGraph id (pathView lc areas) backw) u limit v →
      PBelow g id backw (pathRelations lc areas) src limit (g.primAt src v) := by
    rintro v ⟨c, hc, hcl⟩
    have := reach_of_walk h lc areas id backw src (B := fun _ => True) (fun _ _ => trivial) hc
    rw [hsrc] at this
    exact ⟨c, this, hcl⟩
  refine ⟨paths.map fun l => l.map (g.primAt src), possiblePaths_eq hu hid (by
    have : Search.possiblePaths (g.searchGraph id (pathView lc areas) backw) g.vertices.length pick backw u ⟨some limit, none, shorter⟩ =
        .ok (Search.possiblePathsImpl (g.searchGraph id (pathView lc areas) backw) g.vertices.length pick backw shorter u
          (Search.stopIfCostMoreThan false limit)) := rfl
    rw [this, g1]) hlt, ?_, ?_, ?_⟩
  · intro l hl p hp
    obtain ⟨k, hk, rfl⟩ := List.mem_map.1 hl
    rw [List.getLast?_map] at hp
    obtain ⟨v, hv, rfl⟩ := Option.map_eq_some_iff.1 hp
    obtain ⟨c, hc, hmin, -⟩ := c1 k hk v hv
    refine ⟨c, trail_of_path h lc areas id backw src hc, ?_⟩
    intro c' hr
    obtain ⟨v', hv', hw⟩ := walk_of_reach h lc areas id backw hu2 hbelow hr
    have hvl := hlt k hk v (List.mem_of_getLast? hv)
    have : v' = v := (List.getElem?_inj (List.getElem?_eq_some_iff.1 hv').1 wf.nodup).1 (hv'.trans (primAt_lt src hvl).symm)
    exact hmin c' (this ▸ hw)
  · intro p c hr hmin
    obtain ⟨v, hv, hw⟩ := walk_of_reach h lc areas id backw hu2 hbelow hr
    obtain ⟨k, hk, hkl⟩ := c3 v c hw (by
      intro c' hw'
      have := reach_of_walk h lc areas id backw src hbelow' hw'
      rw [hsrc, primAt_of hv] at this
      exact hmin c' this)
    exact ⟨_, List.mem_map_of_mem hk, by rw [List.getLast?_map, hkl]; exact congrArg some (primAt_of hv)⟩
  · intro hb p c hr
    obtain ⟨v, hv, hw⟩ := walk_of_reach h lc areas id backw hu2 hbelow hr
    obtain ⟨k, hk, hkv⟩ := c4 hb v c hw
    exact ⟨_, List.mem_map_of_mem hk, List.mem_map.2 ⟨v, hkv, primAt_of hv⟩⟩

/-! ### shortestPathVia -/

/-- Specification. Paths one after the other, with their common ends once. -/
def joinLegs : List (List P) → List P
  | [] => []
  | l :: ls => l ++ ls.flatMap List.tail

/-- Specification. Both are in the graph and there is a path from a to b. -/
def Connected (g : RGraph P K) (id : Nat) (rels : List RelationType) (a b : P) : Prop :=
  a ∈ g.vertices ∧ b ∈ g.vertices ∧ ∃ ps c, PPath g Cost.zero Cost.add id rels ps c ∧ ps.head? = some a ∧ ps.getLast? = some b

/-- Specification. A cheapest path from a to b. -/
def Cheapest (g : RGraph P K) (id : Nat) (rels : List RelationType) (a b : P) (ps : List P) : Prop :=
  ∃ c, PPath g Cost.zero Cost.add id rels ps c ∧ ps.head? = some a ∧ ps.getLast? = some b ∧
    ∀ ps' c', PPath g Cost.zero Cost.add id rels ps' c' → ps'.head? = some a → ps'.getLast? = some b → Cost.le c c'

theorem ppath_append {g : RGraph P K} {id : Nat} {rels : List RelationType} {ps : List P} {c : K}
    (h1 : PPath g Cost.zero Cost.add id rels ps c) {qs : List P} {c' : K} (h2 : PPath g Cost.zero Cost.add id rels qs c')
    (hj : ps.getLast? = qs.head?) : ∃ c'', PPath g Cost.zero Cost.add id rels (ps ++ qs.tail) c'' := by
  induction h2 with
  | single p => exact ⟨c, by simpa using h1⟩
  | snoc hq hl hr he ih =>
    rename_i qs c2 w p q r
    have hne : qs ≠ [] := by intro hc; rw [hc] at hl; cases hl
    obtain ⟨c'', hc⟩ := ih (by rw [hj]; cases qs with | nil => exact absurd rfl hne | cons => rfl)
    refine ⟨Cost.add c'' w, ?_⟩
    have : ps ++ (qs ++ [q]).tail = (ps ++ qs.tail) ++ [q] := by
      cases qs with
      | nil => exact absurd rfl hne
      | cons a qs => simp
    rw [this]
    refine .snoc hc ?_ hr he
    cases qs with
    | nil => exact absurd rfl hne
    | cons a qs =>
      cases qs with
      | nil => rw [List.tail_cons, List.append_nil, hj]; simpa using hl
      | cons b qs => rw [List.tail_cons, List.getLast?_append, List.getLast?_cons_cons] at *; rw [hl]; rfl

/-- the loop, for a function that gives cheapest paths -/
theorem viaLoopP_spec {g : RGraph P K} {id : Nat} {rels : List RelationType} {sp : P → P → Except Unit (Option (Option (List P)))}
    (hsp : ∀ a b, (sp a b = .ok (some none) ∧ ¬ Connected g id rels a b) ∨
      (∃ ps, sp a b = .ok (some (some ps)) ∧ Connected g id rels a b ∧ Cheapest g id rels a b ps)) :
    ∀ (pts path : List P), pts ≠ [] → (viaLoopP sp pts path = .ok (some none) ∧ ∃ i a b, pts[i]? = some a ∧ pts[i + 1]? = some b ∧
        ¬ Connected g id rels a b) ∨
      ∃ legs : List (List P), legs.length + 1 = pts.length ∧
        (∀ i l, legs[i]? = some l → ∃ a b, pts[i]? = some a ∧ pts[i + 1]? = some b ∧ Connected g id rels a b ∧ Cheapest g id rels a b l) ∧
        viaLoopP sp pts path = .ok (some (some (if path = [] then joinLegs legs else path ++ legs.flatMap List.tail)))
  | [], _, h => absurd rfl h
  | [a], path, _ => by
    right
    refine ⟨[], rfl, by simp, ?_⟩
    rw [viaLoopP]
    · split
      · rename_i h; rw [h]; rfl
      · simp
    · intro a b rest h; cases h
  | a :: b :: rest, path, _ => by
    rw [viaLoopP]
    rcases hsp a b with ⟨h1, h2⟩ | ⟨ps, h1, h2, h3⟩
    · left
      rw [h1]
      exact ⟨rfl, 0, a, b, rfl, rfl, h2⟩
    · obtain ⟨c, hc, hh, hrest⟩ := h3
      have hne : ps ≠ [] := by intro hn; rw [hn] at hh; cases hh
      rw [h1]
      have hstep : ((Except.ok (some (some ps)) : Except Unit (Option (Option (List P)))) >>= fun x =>
          match x with
          | none => Except.ok none
          | some none => Except.ok (some none)
          | some (some r) =>
            if r = [] then Except.ok none else
              viaLoopP sp (b :: rest) ((if r ≠ [] ∧ path = [] then path ++ r.take 1 else path) ++ r.drop 1)) =
          viaLoopP sp (b :: rest) ((if path = [] then path ++ ps.take 1 else path) ++ ps.drop 1) := by
        show (if ps = [] then Except.ok none else _) = _
        rw [if_neg hne]
        simp only [ne_eq, hne, not_false_eq_true, true_and]
      have htk : ps.take 1 ++ ps.drop 1 = ps := List.take_append_drop 1 ps
      have hpath : ((if path = [] then path ++ ps.take 1 else path) ++ ps.drop 1) = if path = [] then ps else path ++ ps.tail := by
        split
        · rename_i hp; rw [hp, List.nil_append, htk]
        · rw [List.drop_one]
      have hpne : (if path = [] then ps else path ++ ps.tail) ≠ [] := by
        split
        · exact hne
        · rename_i hp; simp [hp]
      rcases viaLoopP_spec hsp (b :: rest) (if path = [] then ps else path ++ ps.tail) (by simp) with
        ⟨k1, i, x, y, k2, k3, k4⟩ | ⟨legs, k1, k2, k3⟩
      · left
        refine ⟨?_, i + 1, x, y, by simpa using k2, by simpa using k3, k4⟩
        rw [← hpath] at k1
        exact hstep.trans k1
      · right
        refine ⟨ps :: legs, by simp at k1 ⊢; omega, ?_, ?_⟩
        · intro i l hl
          cases i with
          | zero =>
            have : ps = l := by simpa using hl
            subst this
            exact ⟨a, b, rfl, rfl, h2, ⟨c, hc, hh, hrest⟩⟩
          | succ i =>
            obtain ⟨x, y, m1, m2, m3⟩ := k2 i l (by simpa using hl)
            exact ⟨x, y, by simpa using m1, by simpa using m2, m3⟩
        · rw [← hpath] at k3
          refine hstep.trans (k3.trans ?_)
          rw [hpath, if_neg hpne]
          split
          · rename_i hp; rfl
          · simp

/-- **C25** in terms of lanelets and areas. shortestPathVia returns no path exactly if for some successive points there is none. Otherwise
the path consists of cheapest paths between them, one after the other; in particular it is a path from the start over all points to the
target. -/
theorem routing_shortestPathVia {t : CostTests K} (ht : TestsOk t) {g : RGraph P K} (h : Built t g)
    {pick : Nat → (Nat → K) → List Nat → Nat} (hpick : PickMin pick) (start target : P) (via : List P)
    (id : Nat) (hid : id < g.numRoutingCosts) (lc areas : Bool) :
    let pts := start :: via ++ [target]
    (g.shortestPathVia pick start via target id lc areas = .ok (some none) ∧
      ∃ i a b, pts[i]? = some a ∧ pts[i + 1]? = some b ∧ ¬ Connected g id (pathRelations lc areas) a b) ∨
    ∃ legs : List (List P), legs.length = via.length + 1 ∧
      (∀ (i : Nat) l, legs[i]? = some l → ∃ a b, pts[i]? = some a ∧ pts[i + 1]? = some b ∧ Connected g id (pathRelations lc areas) a b ∧
        Cheapest g id (pathRelations lc areas) a b l) ∧
      g.shortestPathVia pick start via target id lc areas = .ok (some (some (joinLegs legs))) ∧
      (∃ c, PPath g Cost.zero Cost.add id (pathRelations lc areas) (joinLegs legs) c) ∧
      (joinLegs legs).head? = some start ∧ (joinLegs legs).getLast? = some target := by
  intro pts
  have hsp : ∀ a b, (g.shortestPath pick a b id lc areas = .ok (some none) ∧ ¬ Connected g id (pathRelations lc areas) a b) ∨
      (∃ ps, g.shortestPath pick a b id lc areas = .ok (some (some ps)) ∧ Connected g id (pathRelations lc areas) a b ∧
        Cheapest g id (pathRelations lc areas) a b ps) := by
    intro a b
    by_cases ha : a ∈ g.vertices
    · by_cases hb : b ∈ g.vertices
      · rcases routing_shortestPath ht h hpick a b ha hb id hid lc areas with ⟨h1, h2⟩ | ⟨ps, c, h1, h2, h3, h4, h5⟩
        · left
          refine ⟨h1, ?_⟩
          rintro ⟨-, -, ps, c, k1, k2, k3⟩
          exact h2 ps c k1 k2 k3
        · right
          exact ⟨ps, h1, ⟨ha, hb, ps, c, h2, h3, h4⟩, c, h2, h3, h4, h5⟩
      · left
        refine ⟨?_, fun hc => hb hc.2.1⟩
        obtain ⟨u, hu⟩ := getVertex_isSome ha
        simp only [RGraph.shortestPath, hu, getVertex_none hb]
    · left
      refine ⟨?_, fun hc => ha hc.1⟩
      simp only [RGraph.shortestPath, getVertex_none ha]
  have hpts : ([start] ++ via ++ [target]) = pts := rfl
  rcases viaLoopP_spec hsp pts [] (by simp [pts]) with ⟨h1, h2⟩ | ⟨legs, h1, h2, h3⟩
  · left; exact ⟨h1, h2⟩
  · right
    have hlen : legs.length = via.length + 1 := by simp [pts] at h1; omega
    refine ⟨legs, hlen, h2, by rw [if_pos rfl] at h3; exact h3, ?_⟩
    -- joining
    have join : ∀ (legs : List (List P)) (pts : List P), legs ≠ [] → legs.length + 1 = pts.length →
        (∀ (i : Nat) l, legs[i]? = some l → ∃ a b, pts[i]? = some a ∧ pts[i + 1]? = some b ∧ Cheapest g id (pathRelations lc areas) a b l) →
        (∃ c, PPath g Cost.zero Cost.add id (pathRelations lc areas) (joinLegs legs) c) ∧
          (joinLegs legs).head? = pts.head? ∧ (joinLegs legs).getLast? = pts.getLast? := by
      intro legs
      induction legs using List.reverseRecOn with
      | nil => intro _ hn; exact absurd rfl hn
      | append_singleton legs l ih =>
        intro pts _ hl hleg
        obtain ⟨a, b, q1, q2, c, q3, q4, q5, -⟩ := hleg legs.length l (by simp)
        have hplen : pts.length = legs.length + 2 := by simp at hl; omega
        have hlast : pts.getLast? = some b := by
          rw [List.getLast?_eq_getElem?, hplen]
          simpa using q2
        by_cases hnil : legs = []
        · subst hnil
          have e1 : joinLegs ([] ++ [l]) = l := by simp [joinLegs]
          rw [e1, hlast, q4, q5]
          refine ⟨⟨c, q3⟩, ?_, rfl⟩
          rw [← q1]; cases pts <;> rfl
        · obtain ⟨⟨c', k1⟩, k2, k3⟩ := ih (pts.take (legs.length + 1)) hnil (by rw [List.length_take]; omega) (by
            intro i m hm
            have hi : i < legs.length := (List.getElem?_eq_some_iff.1 hm).1
            obtain ⟨x, y, m1, m2, m3⟩ := hleg i m (by rw [List.getElem?_append_left hi]; exact hm)
            exact ⟨x, y, by rw [List.getElem?_take_of_lt (by omega)]; exact m1, by rw [List.getElem?_take_of_lt (by omega)]; exact m2, m3⟩)
          have e1 : joinLegs (legs ++ [l]) = joinLegs legs ++ l.tail := by
            cases legs with
            | nil => exact absurd rfl hnil
            | cons m legs => simp [joinLegs]
          have k3' : (joinLegs legs).getLast? = some a := by
            rw [k3, List.getLast?_eq_getElem?, List.length_take, Nat.min_eq_left (by omega), Nat.add_sub_cancel,
              List.getElem?_take_of_lt (by omega)]
            exact q1
          rw [e1]
          refine ⟨ppath_append k1 q3 (by rw [k3', q4]), ?_, ?_⟩
          · have hne : joinLegs legs ≠ [] := by intro hc; rw [hc] at k3'; cases k3'
            rw [List.head?_append_of_ne_nil _ hne, k2]
            cases pts with
            | nil => simp at hplen
            | cons => rfl
          · rw [hlast, List.getLast?_append]
            cases l with
            | nil => cases q4
            | cons x l =>
              cases l with
              | nil =>
                rw [List.tail_cons, List.getLast?_nil, Option.none_or, k3']
                simp at q4 q5
                rw [← q4, ← q5]
              | cons y l =>
                rw [List.tail_cons]
                rw [List.getLast?_cons_cons] at q5
                rw [q5]; rfl
    obtain ⟨k1, k2, k3⟩ := join legs pts (by intro hc; rw [hc] at hlen; simp at hlen) h1 (by
      intro i l hl
      obtain ⟨a, b, m1, m2, -, m3⟩ := h2 i l hl
      exact ⟨a, b, m1, m2, m3⟩)
    refine ⟨k1, by rw [k2]; rfl, by rw [k3]; exact List.getLast?_concat⟩

/-! ### cases -/

/-- Case: from 10 both other lanelets are reached, 30 with cost 3 and not with 5 over the lane change. -/
example : ∃ trace, exRoad.forEach Search.exPick false 10 (fun (_ : Unit) _ => ((), some true)) () 0 true false = .ok (some (.done, trace)) ∧
    ∃ i ∈ trace, i.1.prim = 30 ∧ i.1.cost ≤ 3 := by
  obtain ⟨trace, h1, h2⟩ := routing_forEach_all natTests_ok exRoad_built Search.exPick_min false 10 (by decide) 0 (by decide) true false
  have r1 : Reach exRoad 0 false (pathRelations true false) (fun _ => True) 10 1 20 :=
    .snoc (c := (0 : Nat)) (w := 1) (p := 10) (r := Successor) .nil trivial (by decide) ⟨⟨0, 1, ⟨1, 0, Successor⟩⟩, by decide, rfl, rfl, rfl, rfl, rfl⟩
  have r2 : Reach exRoad 0 false (pathRelations true false) (fun _ => True) 10 3 30 :=
    .snoc (c := (1 : Nat)) (w := 2) (p := 20) (r := Successor) r1 trivial (by decide) ⟨⟨1, 2, ⟨2, 0, Successor⟩⟩, by decide, rfl, rfl, rfl, rfl, rfl⟩
  obtain ⟨i, hi, hp⟩ := (h2 30).1.2 ⟨3, r2⟩
  exact ⟨trace, h1, i, hi, hp, (h2 30).2 i hi hp 3 r2⟩

/-- Case: towards 30, with lane changes and at least two elements. -/
example : ∃ paths, exRoad.possiblePathsElements Search.exPick true 30 2 0 true false = .ok (some paths) ∧ ∀ l ∈ paths, l.length = 2 :=
  routing_possiblePathsElements natTests_ok exRoad_built Search.exPick_min true 30 (by decide) 2 0 (by decide) true false

/-- Case: from 10 over 20 to 30; there is a path. -/
example : ∃ legs : List (List Nat), legs.length = 2 ∧ exRoad.shortestPathVia Search.exPick 10 [20] 30 0 true false = .ok (some (some (joinLegs legs))) := by
  have p1 : PPath exRoad 0 Nat.add 0 (pathRelations true false) [10, 20] 1 :=
    .snoc (ps := [10]) (c := 0) (w := 1) (p := 10) (q := 20) (r := Successor) (.single 10) rfl (by decide)
      ⟨⟨0, 1, ⟨1, 0, Successor⟩⟩, by decide, rfl, rfl, rfl, rfl, rfl⟩
  have p2 : PPath exRoad 0 Nat.add 0 (pathRelations true false) [20, 30] 2 :=
    .snoc (ps := [20]) (c := 0) (w := 2) (p := 20) (q := 30) (r := Successor) (.single 20) rfl (by decide)
      ⟨⟨1, 2, ⟨2, 0, Successor⟩⟩, by decide, rfl, rfl, rfl, rfl, rfl⟩
  rcases routing_shortestPathVia natTests_ok exRoad_built Search.exPick_min 10 30 [20] 0 (by decide) true false with
    ⟨-, i, a, b, ha, hb, hn⟩ | ⟨legs, h1, -, h2, -⟩
  · exfalso
    match i with
    | 0 =>
      simp at ha hb; subst ha; subst hb
      exact hn ⟨by decide, by decide, _, _, p1, rfl, rfl⟩
    | 1 =>
      simp at ha hb; subst ha; subst hb
      exact hn ⟨by decide, by decide, _, _, p2, rfl, rfl⟩
    | i + 2 => simp at hb
  · exact ⟨legs, h1, h2⟩

end Verif.Graph
