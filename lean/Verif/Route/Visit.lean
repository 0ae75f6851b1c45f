import Verif.Route.Via
import Verif.Graph.Queries
import Mathlib.Algebra.BigOperators.Group.List.Basic

/-!
Model of `Route::forEachSuccessor`, `Route::forEachPredecessor` and `Route::length2d`, Route.cpp 188-191 and 301-326, and what they visit (C89).
The search is the one of the routing graph (`Verif.Graph.Queries`), on the graph of the route.
-/
set_option linter.unusedSectionVars false
namespace Verif.Route
open Verif.Graph Verif.Graph.RelationType
open Relation (ReflTransGen)
variable {P K σ : Type} [DecidableEq P] [Search.Cost K]

/-- forEachSuccessor and forEachPredecessor, Route.cpp 301-326: the graph of the route with lane changes and its only cost module, without areas -/
def Route.forEach (r : Route P K) (pick : Nat → (Nat → K) → List Nat → Nat) (backw : Bool) (p : P) (f : PCallback σ P K) (st : σ) :
    Except Unit (Option (Search.Outcome × List (PVisit P K × Option Bool))) :=
  r.graph.graph.forEach pick backw p f st 0 true false

/-- length2d, Route.cpp 188-191: summed up from the first lanelet of the shortest path on -/
def Route.length2d {F : Type} [Add F] [Zero F] (r : Route P K) (len : P → F) : F := r.shortestPath.foldl (fun num ll => num + len ll) 0

variable {t : CostTests K} {g : RGraph P K} {path : List P} {lc : Bool} {costId : Nat}

theorem numRoutingCosts_route (hb : Built t g) {r : Route P K} (h : IsRoute t g path lc costId r) : r.graph.graph.numRoutingCosts = 1 := by
  obtain ⟨vs, R, order, s, f, hr, -⟩ := h.facts (built_wf hb)
  rw [hr]
  exact f.inv.costs

/-- C89: an arc of the route is an arc of the routing graph between two lanelets of the route, in the direction of the search. -/
theorem route_arc (hb : Built t g) {r : Route P K} (h : IsRoute t g path lc costId r) (backw : Bool) (p q : P) (rel : RelationType) (w : K) :
    Arc r.graph.graph 0 backw p q rel w ↔
      p ∈ r.members ∧ q ∈ r.members ∧ rel ∈ routeRelations lc ∧ Arc g costId backw p q rel w := by
  unfold Arc
  cases backw
  · simp only [Bool.false_eq_true, if_false]
    rw [route_relations hb h]
    simp
  · simp only [if_true]
    rw [route_relations hb h]
    constructor
    · rintro ⟨-, a, b, c, d⟩; exact ⟨b, a, c, d⟩
    · rintro ⟨a, b, c, d⟩; exact ⟨rfl, b, a, c, d⟩

/-- C89: for every function of the user (with state, also one that throws), forEachSuccessor and forEachPredecessor of a route visit what the
search over the relations of the route (`route_arc`) visits: every lanelet at most once, with increasing costs, each over a lanelet that was
accepted before. All of them are lanelets of the route. For a lanelet that is not on the route nothing is visited. -/
theorem route_forEach (ht : TestsOk t) (hb : Built t g) {r : Route P K} (h : IsRoute t g path lc costId r)
    {pick : Nat → (Nat → K) → List Nat → Nat} (hpick : Search.PickMin pick) (backw : Bool) (f : PCallback σ P K) (user : σ) (p : P) :
    (p ∉ r.members → r.forEach pick backw p f user = .ok (some (.done, []))) ∧
    (p ∈ r.members → ∃ o trace, r.forEach pick backw p f user = .ok (some (o, trace)) ∧ (∀ i ∈ trace, i.1.prim ∈ r.members) ∧
      PVisitSpec r.graph.graph 0 backw [Successor, Left, Right] p f user (decide (o = .done)) trace) := by
  constructor
  · intro hp
    exact (routing_forEach_invalid r.graph.graph pick backw p f user 0 true false).1 hp
  · intro hp
    obtain ⟨o, trace, h1, h2⟩ := routing_forEach ht (route_built hb h) hpick backw p hp f user 0
      (by rw [numRoutingCosts_route hb h]; exact Nat.one_pos) true false
    refine ⟨o, trace, h1, ?_, h2⟩
    intro i hi
    have := (h2.minimal i hi).1
    generalize i.1.cost = c at this
    generalize i.1.prim = q at this ⊢
    cases this with
    | nil => exact hp
    | snoc _ _ _ ha => exact ((route_arc hb h backw _ _ _ _).mp ha).2.1

/-- C89: on a route without lane changes forEachPredecessor, called with the destination and a function that always accepts, visits every lanelet
of the route exactly once, and nothing else. -/
theorem route_predecessors_all (ht : TestsOk t) (hb : Built t g) (hc : Connected g false costId path) {r : Route P K}
    (h : IsRoute t g path false costId r) {last : P} (hlast : path.getLast? = some last)
    {pick : Nat → (Nat → K) → List Nat → Nat} (hpick : Search.PickMin pick) (f : PCallback σ P K) (hf : ∀ st i, (f st i).2 = some true) (user : σ) :
    ∃ trace, r.forEach pick true last f user = .ok (some (.done, trace)) ∧ (trace.map (·.1.prim)).Perm r.members := by
  have hm : last ∈ r.members := by
    have := (route_contains_path hb h hc).2 last (List.mem_of_getLast? hlast)
    obtain ⟨v, hv⟩ := Option.isSome_iff_exists.mp this
    exact List.mem_of_getElem? (getVertex_spec hv).2
  obtain ⟨o, trace, h1, h2, h3⟩ := (route_forEach ht hb h hpick true f user last).2 hm
  have hrep : ∀ (l : List (PVisit P K × Option Bool)) (st : σ), PReplays f st l → ∀ i ∈ l, i.2 = some true := by
    intro l
    induction l with
    | nil => simp
    | cons a l ih =>
      intro st hr i hi
      obtain ⟨hr1, hr2⟩ := hr
      rcases List.mem_cons.mp hi with rfl | hi
      · rw [← hr1]; exact hf _ _
      · exact ih _ hr2 i hi
  have hacc := hrep _ _ h3.replays
  have ho : o = .done := by
    cases o with
    | done => rfl
    | stopped =>
      obtain ⟨i, h4, h5⟩ := h3.stops rfl
      rw [hacc i (List.mem_of_getLast? h4)] at h5
      cases h5
  subst ho
  refine ⟨trace, h1, ?_⟩
  have hall : ∀ p ∈ r.members, ∃ i ∈ trace, i.1.prim = p := by
    intro p hp
    have hl := route_leads hb hc h hlast hp
    suffices ∃ c, Reach r.graph.graph 0 true [Successor, Left, Right] (PAccepted trace) last c p by
      obtain ⟨c, hr⟩ := this
      exact h3.complete rfl c p hr
    induction hl using ReflTransGen.head_induction_on with
    | refl => exact ⟨_, .nil⟩
    | head hab _ ih =>
      rename_i a b _
      obtain ⟨rel, hrel, w, he⟩ := (getAllEdges_iff (route_built hb h) (w := (withoutLaneChanges, [Successor])) (by decide) 0 a b true).mp hab
      simp only [List.mem_singleton] at hrel
      subst hrel
      simp only [if_true] at he
      have hbm : b ∈ r.members := (hasEdge_members he).2
      obtain ⟨c, hc⟩ := ih hbm
      obtain ⟨i, hi, e⟩ := h3.complete rfl c b hc
      refine ⟨_, .snoc (r := Successor) (w := w) hc ⟨i.1, ?_, e⟩ (by simp) ?_⟩
      · have := hacc i hi
        rw [← this]; exact hi
      · exact he
  refine (List.perm_ext_iff_of_nodup h3.once (route_members hb h).1).mpr ?_
  intro p
  constructor
  · intro hp
    obtain ⟨i, hi, rfl⟩ := List.mem_map.mp hp
    exact h2 i hi
  · intro hp
    obtain ⟨i, hi, e⟩ := hall p hp
    exact List.mem_map.mpr ⟨i, hi, e⟩

/-- In `exFork` the lanelets 5 and 6 are on the route beside the shortest path 1, 2, 3, 4: the search from the destination finds all six. -/
example : ∃ r, IsRoute natTests exFork [1, 2, 3, 4] false 0 r ∧ 5 ∈ r.members ∧ ∃ trace,
    r.forEach Search.exPick true 4 (fun (n : Nat) _ => (n + 1, some true)) 0 = .ok (some (.done, trace)) ∧ (trace.map (·.1.prim)).Perm r.members := by
  obtain ⟨r, h, hm⟩ := routeHas_sound (k := 40) (t := natTests) (g := exFork) (path := [1, 2, 3, 4]) (lc := false) (costId := 0)
    (p := fun r => decide (5 ∈ r.members)) (by decide +kernel)
  exact ⟨r, h, by simpa using hm, route_predecessors_all natTests_ok exFork_built exFork_connected h rfl Search.exPick_min _ (fun _ _ => rfl) 0⟩

/-- C89: length2d of a route is the sum of the lengths of the lanelets of the path the route was made of. Lanelets beside this path do not count, both
lanelets of a lane change do. -/
theorem route_length2d {F : Type} [AddCommMonoid F] (hb : Built t g) {r : Route P K} (h : IsRoute t g path lc costId r) (hc : Connected g lc costId path)
    (len : P → F) : r.length2d len = (path.map len).sum := by
  have hfold : ∀ (l : List P) (a : F), l.foldl (fun num ll => num + len ll) a = a + (l.map len).sum := by
    intro l
    induction l with
    | nil => simp
    | cons x l ih => intro a; rw [List.foldl_cons, ih, List.map_cons, List.sum_cons, add_assoc]
  rw [Route.length2d, (route_contains_path hb h hc).1, hfold, zero_add]

/-- the lanelets 5 and 6 of the route do not count -/
example : ∃ r, IsRoute natTests exFork [1, 2, 3, 4] false 0 r ∧ 5 ∈ r.members ∧ r.length2d (fun p => 10 * p) = 100 := by
  obtain ⟨r, h, hm⟩ := routeHas_sound (k := 40) (t := natTests) (g := exFork) (path := [1, 2, 3, 4]) (lc := false) (costId := 0)
    (p := fun r => decide (5 ∈ r.members)) (by decide +kernel)
  exact ⟨r, h, by simpa using hm, route_length2d exFork_built h exFork_connected _⟩

end Verif.Route
