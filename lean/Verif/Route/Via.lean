import Verif.Route.Straight
import Verif.Graph.Queries

/-!
Properties C30 and C58: routes over given lanelets, and routes without lane changes.
-/
set_option linter.unusedSectionVars false
namespace Verif.Route
open Verif.Graph Verif.Graph.RelationType
variable {P K : Type} [DecidableEq P]

/-- getRouteVia, RoutingGraph.cpp 395-402; the exception of shortestPathVia is the one for an unknown cost module -/
def getRouteVia [Search.Cost K] (t : CostTests K) (g : RGraph P K) (pick : Nat → (Nat → K) → List Nat → Nat) (src : P) (via : List P) (dst : P)
    (costId : Nat) (lc : Bool) : Option (Except Fault (Option (Route P K))) :=
  match g.shortestPathVia pick src via dst costId lc false with
  | .error _ => some (.error .invalidInput)
  | .ok none => none
  | .ok (some none) => some (.ok none)
  | .ok (some (some path)) => buildRoute t g path lc costId

section
variable {t : CostTests K} {g : RGraph P K}

/-- C30: what `getRouteVia` returns. It ends as `getRoute` does. It returns no route iff there is no path between some consecutive lanelets of the list;
if it returns a route, its shortest path consists of paths of least cost between them, and all of its lanelets are on the route. What is
missing for a complete specification: that there is never undefined behaviour, see `build_counterexample`. -/
theorem getRouteVia_partial [Search.Cost K] (ht : TestsOk t) (hb : Built t g) {pick : Nat → (Nat → K) → List Nat → Nat} (hpick : Search.PickMin pick)
    (src dst : P) (via : List P) {id : Nat} (hid : id < g.numRoutingCosts) (lc : Bool) (hc : lc = true → NoSideCircle g id) :
    let pts := src :: via ++ [dst]
    (getRouteVia t g pick src via dst id lc = some (.ok none) ∧
      ∃ i a b, pts[i]? = some a ∧ pts[i + 1]? = some b ∧ ¬ Graph.Connected g id (followRelations lc) a b) ∨
    (∃ r, ∃ legs : List (List P), getRouteVia t g pick src via dst id lc = some (.ok (some r)) ∧
      legs.length = via.length + 1 ∧
      (∀ (i : Nat) l, legs[i]? = some l → ∃ a b, pts[i]? = some a ∧ pts[i + 1]? = some b ∧ Cheapest g id (followRelations lc) a b l) ∧
      r.shortestPath = joinLegs legs ∧ r.shortestPath.head? = some src ∧ r.shortestPath.getLast? = some dst ∧
      ∀ p ∈ r.shortestPath, r.contains p = true) ∨
    getRouteVia t g pick src via dst id lc = some (.error .ub) := by
  intro pts
  have hrels : pathRelations lc false = followRelations lc := by cases lc <;> rfl
  have hv := routing_shortestPathVia ht hb hpick src dst via id hid lc false
  rw [hrels] at hv
  rcases hv with ⟨h1, h2⟩ | ⟨legs, h1, h2, h3, ⟨c, h4⟩, h5, h6⟩
  · refine .inl ⟨?_, h2⟩
    unfold getRouteVia; rw [h1]
  · have hg : getRouteVia t g pick src via dst id lc = buildRoute t g (joinLegs legs) lc id := by
      unfold getRouteVia; rw [h3]
    rw [hg]
    have hconn := ppath_connected h4
    have hpne : joinLegs legs ≠ [] := by intro h; rw [h] at h5; cases h5
    have hs : src ∈ g.vertices := by
      obtain ⟨l, hl⟩ : ∃ l, legs[0]? = some l := ⟨legs[0]'(by omega), List.getElem?_eq_getElem (by omega)⟩
      obtain ⟨a, b, k1, -, k3, -⟩ := h2 0 l hl
      simp only [List.cons_append, List.getElem?_cons_zero, Option.some.injEq] at k1
      subst k1
      exact k3.1
    have hmem := ppath_members h4 ⟨hpne, fun p hp => by rw [h5] at hp; cases hp; exact hs⟩
    obtain ⟨x, hx⟩ := route_terminates hb (joinLegs legs) lc hc
    cases x with
    | error f =>
      obtain ⟨rfl, -⟩ := route_fault hb hpne hmem hx
      exact .inr (.inr hx)
    | ok o =>
      have := route_exists hb hconn hx
      obtain ⟨r, rfl⟩ := Option.isSome_iff_exists.mp this
      obtain ⟨k1, k2⟩ := route_contains_path hb hx hconn
      refine .inr (.inl ⟨r, legs, hx, h1, ?_, k1, ?_, ?_, ?_⟩)
      · intro i l hl
        obtain ⟨a, b, q1, q2, -, q4⟩ := h2 i l hl
        exact ⟨a, b, q1, q2, q4⟩
      · rw [k1]; exact h5
      · rw [k1]; exact h6
      · rw [k1]; exact k2

/-- C30: `getRoute` reports an unknown cost module if both lanelets are in the graph. -/
theorem getRoute_invalid [Search.Cost K] {pick : Nat → (Nat → K) → List Nat → Nat} (src dst : P) (hs : src ∈ g.vertices) (hd : dst ∈ g.vertices)
    {id : Nat} (hid : g.numRoutingCosts ≤ id) (lc : Bool) : getRoute t g pick src dst id lc = some (.error .invalidInput) := by
  obtain ⟨u, hu⟩ := getVertex_isSome hs
  obtain ⟨v, hv⟩ := getVertex_isSome hd
  have hsp : g.shortestPath pick src dst id lc false = .error () := by
    unfold RGraph.shortestPath
    rw [hu, hv]
    simp [RGraph.getFilteredGraph, hid]
    rfl
  unfold getRoute
  rw [hsp]

/-- C30: an unknown cost module is reported, if there are two lanelets of the graph to begin with. -/
theorem getRouteVia_invalid [Search.Cost K] {pick : Nat → (Nat → K) → List Nat → Nat} (src dst : P) (hs : src ∈ g.vertices) (hd : dst ∈ g.vertices)
    {id : Nat} (hid : g.numRoutingCosts ≤ id) (lc : Bool) : getRouteVia t g pick src [] dst id lc = some (.error .invalidInput) := by
  obtain ⟨u, hu⟩ := getVertex_isSome hs
  obtain ⟨v, hv⟩ := getVertex_isSome hd
  have hsp : g.shortestPath pick src dst id lc false = .error () := by
    unfold RGraph.shortestPath
    rw [hu, hv]
    simp [RGraph.getFilteredGraph, hid]
    rfl
  have hl : viaLoopP (fun a b => g.shortestPath pick a b id lc false) [src, dst] [] = .error () := by
    rw [viaLoopP, hsp]
    rfl
  unfold getRouteVia
  have : g.shortestPathVia pick src [] dst id lc false = .error () := by
    unfold RGraph.shortestPathVia
    exact hl
  rw [this]

/-- C30: what `getRoute` returns without lane changes. It always ends and has no undefined behaviour. It returns no route iff there is no path; otherwise it
returns a route whose shortest path is a path of least cost from the start to the destination; all of its lanelets are on the route, and every
lanelet of the route leads to the destination along lanelets of the route. -/
theorem getRoute_straight [Search.Cost K] (ht : TestsOk t) (hb : Built t g) {pick : Nat → (Nat → K) → List Nat → Nat} (hpick : Search.PickMin pick)
    {src dst : P} (hs : src ∈ g.vertices) (hd : dst ∈ g.vertices) {id : Nat} (hid : id < g.numRoutingCosts) :
    (getRoute t g pick src dst id false = some (.ok none) ∧
      ∀ ps c, PPath g Search.Cost.zero Search.Cost.add id [Successor] ps c → ps.head? = some src → ps.getLast? ≠ some dst) ∨
    ∃ r c, getRoute t g pick src dst id false = some (.ok (some r)) ∧
      PPath g Search.Cost.zero Search.Cost.add id [Successor] r.shortestPath c ∧ r.shortestPath.head? = some src ∧
      r.shortestPath.getLast? = some dst ∧ (∀ p ∈ r.shortestPath, r.contains p = true) ∧
      (∀ ps' c', PPath g Search.Cost.zero Search.Cost.add id [Successor] ps' c' → ps'.head? = some src → ps'.getLast? = some dst →
        Search.Cost.le c c') ∧
      ∀ p ∈ r.members, Relation.ReflTransGen (fun a b => b ∈ r.following a) p dst := by
  rcases routing_shortestPath ht hb hpick src dst hs hd id hid false false with ⟨h1, h2⟩ | ⟨ps, c, h1, h2, h3, h4, h5⟩
  · refine .inl ⟨?_, h2⟩
    unfold getRoute; rw [h1]
  · have hg : getRoute t g pick src dst id false = buildRoute t g ps false id := by
      unfold getRoute; rw [h1]
    rw [hg]
    have hconn := ppath_connected (lc := false) h2
    have hpne : ps ≠ [] := by rintro rfl; cases h3
    have hmem := ppath_members h2 ⟨hpne, fun p hp => by rw [h3] at hp; cases hp; exact hs⟩
    obtain ⟨r, hx⟩ := route_straight hb hpne hmem hconn
    obtain ⟨k1, k2⟩ := route_contains_path hb hx hconn
    refine .inr ⟨r, c, hx, ?_, ?_, ?_, ?_, h5, ?_⟩
    · rw [k1]; exact h2
    · rw [k1]; exact h3
    · rw [k1]; exact h4
    · rw [k1]; exact k2
    · intro p hp
      exact route_leads hb hconn hx h4 hp

/-- C30: what `getRouteVia` returns without lane changes. It always ends and has no undefined behaviour. It returns no route iff there is no path between
some consecutive lanelets of the list; otherwise it returns a route whose shortest path consists of paths of least cost between them; all of its
lanelets are on the route, and every lanelet of the route leads to the destination along lanelets of the route. -/
theorem getRouteVia_straight [Search.Cost K] (ht : TestsOk t) (hb : Built t g) {pick : Nat → (Nat → K) → List Nat → Nat} (hpick : Search.PickMin pick)
    (src dst : P) (via : List P) {id : Nat} (hid : id < g.numRoutingCosts) :
    let pts := src :: via ++ [dst]
    (getRouteVia t g pick src via dst id false = some (.ok none) ∧
      ∃ i a b, pts[i]? = some a ∧ pts[i + 1]? = some b ∧ ¬ Graph.Connected g id [Successor] a b) ∨
    ∃ r, ∃ legs : List (List P), getRouteVia t g pick src via dst id false = some (.ok (some r)) ∧
      legs.length = via.length + 1 ∧
      (∀ (i : Nat) l, legs[i]? = some l → ∃ a b, pts[i]? = some a ∧ pts[i + 1]? = some b ∧ Cheapest g id [Successor] a b l) ∧
      r.shortestPath = joinLegs legs ∧ r.shortestPath.head? = some src ∧ r.shortestPath.getLast? = some dst ∧
      (∀ p ∈ r.shortestPath, r.contains p = true) ∧
      ∀ p ∈ r.members, Relation.ReflTransGen (fun a b => b ∈ r.following a) p dst := by
  intro pts
  have hv := routing_shortestPathVia ht hb hpick src dst via id hid false false
  rcases hv with ⟨h1, h2⟩ | ⟨legs, h1, h2, h3, ⟨c, h4⟩, h5, h6⟩
  · refine .inl ⟨?_, h2⟩
    unfold getRouteVia; rw [h1]
  · have hg : getRouteVia t g pick src via dst id false = buildRoute t g (joinLegs legs) false id := by
      unfold getRouteVia; rw [h3]
    rw [hg]
    have hconn := ppath_connected (lc := false) h4
    have hpne : joinLegs legs ≠ [] := by intro h; rw [h] at h5; cases h5
    have hs : src ∈ g.vertices := by
      obtain ⟨l, hl⟩ : ∃ l, legs[0]? = some l := ⟨legs[0]'(by omega), List.getElem?_eq_getElem (by omega)⟩
      obtain ⟨a, b, k1, -, k3, -⟩ := h2 0 l hl
      simp only [List.cons_append, List.getElem?_cons_zero, Option.some.injEq] at k1
      subst k1
      exact k3.1
    have hmem := ppath_members h4 ⟨hpne, fun p hp => by rw [h5] at hp; cases hp; exact hs⟩
    obtain ⟨r, hx⟩ := route_straight hb hpne hmem hconn
    obtain ⟨k1, k2⟩ := route_contains_path hb hx hconn
    refine .inr ⟨r, legs, hx, h1, ?_, k1, ?_, ?_, ?_, ?_⟩
    · intro i l hl
      obtain ⟨a, b, q1, q2, -, q4⟩ := h2 i l hl
      exact ⟨a, b, q1, q2, q4⟩
    · rw [k1]; exact h5
    · rw [k1]; exact h6
    · rw [k1]; exact k2
    · intro p hp
      exact route_leads hb hconn hx h6 hp

end

/-! ### a case -/

/-- Example. 1 → 2 → 3 → 4 with a fork at 1: 5 and then 6 overlap with 2 and join it at 3; from 5 lanelet 7 branches off that ends soon -/
def exFork : RGraph Nat Nat :=
  ⟨1, [1, 2, 3, 4, 5, 6, 7],
    [⟨0, 1, ⟨1, 0, Successor⟩⟩, ⟨1, 2, ⟨1, 0, Successor⟩⟩, ⟨2, 3, ⟨1, 0, Successor⟩⟩, ⟨0, 4, ⟨1, 0, Successor⟩⟩, ⟨4, 5, ⟨1, 0, Successor⟩⟩,
     ⟨5, 2, ⟨1, 0, Successor⟩⟩, ⟨4, 6, ⟨1, 0, Successor⟩⟩, ⟨1, 4, ⟨1, 0, Conflicting⟩⟩, ⟨4, 1, ⟨1, 0, Conflicting⟩⟩,
     ⟨1, 5, ⟨1, 0, Conflicting⟩⟩, ⟨5, 1, ⟨1, 0, Conflicting⟩⟩, ⟨1, 6, ⟨1, 0, Conflicting⟩⟩, ⟨6, 1, ⟨1, 0, Conflicting⟩⟩]⟩

theorem exFork_built : Built natTests exFork :=
  wf_built ⟨by decide, by decide, by decide, by decide, by decide, by decide⟩

theorem exFork_connected : Connected exFork false 0 [1, 2, 3, 4] := by
  unfold Connected
  refine .cons_cons ⟨Successor, by decide, 1, ⟨0, 1, ⟨1, 0, Successor⟩⟩, by decide, rfl, rfl, rfl, rfl, rfl⟩ (.cons_cons
    ⟨Successor, by decide, 1, ⟨1, 2, ⟨1, 0, Successor⟩⟩, by decide, rfl, rfl, rfl, rfl, rfl⟩ (.cons_cons
    ⟨Successor, by decide, 1, ⟨2, 3, ⟨1, 0, Successor⟩⟩, by decide, rfl, rfl, rfl, rfl, rfl⟩ (.singleton _)))

/-- the hypotheses are met: the other way round 5 and 6 is on the route and leads to the destination, the way out is not -/
example : ∃ r, IsRoute natTests exFork [1, 2, 3, 4] false 0 r ∧ 5 ∈ r.members ∧ 6 ∈ r.members ∧ 7 ∉ r.members ∧
    Relation.ReflTransGen (fun a b => b ∈ r.following a) 5 4 := by
  obtain ⟨r, h, hm⟩ := routeHas_sound (k := 40) (t := natTests) (g := exFork) (path := [1, 2, 3, 4]) (lc := false) (costId := 0)
    (p := fun r => decide (5 ∈ r.members ∧ 6 ∈ r.members ∧ 7 ∉ r.members)) (by decide +kernel)
  rw [decide_eq_true_eq] at hm
  exact ⟨r, h, hm.1, hm.2.1, hm.2.2, route_leads exFork_built exFork_connected h rfl hm.1⟩

theorem exFork_path : ∃ c, PPath exFork Search.Cost.zero Search.Cost.add 0 [Successor] [1, 2, 3, 4] c :=
  ⟨_, .snoc (ps := [1, 2, 3]) (.snoc (ps := [1, 2]) (.snoc (ps := [1]) (.single 1) rfl (by simp) ⟨⟨0, 1, ⟨1, 0, Successor⟩⟩, by decide, rfl, rfl, rfl, rfl, rfl⟩) rfl
    (by simp) ⟨⟨1, 2, ⟨1, 0, Successor⟩⟩, by decide, rfl, rfl, rfl, rfl, rfl⟩) rfl (by simp) ⟨⟨2, 3, ⟨1, 0, Successor⟩⟩, by decide, rfl, rfl, rfl, rfl, rfl⟩⟩

/-- the hypotheses of `getRoute_straight` are met: there is a route from 1 to 4 -/
example : ∃ r, getRoute natTests exFork Search.exPick 1 4 0 false = some (.ok (some r)) ∧ r.shortestPath.getLast? = some 4 := by
  rcases getRoute_straight natTests_ok exFork_built Search.exPick_min (src := 1) (dst := 4) (by decide) (by decide) (id := 0) (by decide) with
    ⟨-, h⟩ | ⟨r, c, h, -, -, h4, -⟩
  · obtain ⟨c, hp⟩ := exFork_path
    exact absurd rfl (h _ c hp rfl)
  · exact ⟨r, h, h4⟩

/-- the hypotheses of `getRouteVia_straight` are met: there is a route from 1 over 2 to 4 -/
example : ∃ r, getRouteVia natTests exFork Search.exPick 1 [2] 4 0 false = some (.ok (some r)) ∧ r.shortestPath.getLast? = some 4 := by
  rcases getRouteVia_straight natTests_ok exFork_built Search.exPick_min 1 4 [2] (id := 0) (by decide) with ⟨-, i, a, b, h1, h2, h3⟩ | ⟨r, legs, h, -, -, -, -, h4, -⟩
  · match i, h1, h2 with
    | 0, h1, h2 =>
      cases h1; cases h2
      refine absurd ⟨by decide, by decide, [1, 2], _, .snoc (ps := [1]) (.single 1) rfl (by simp)
        ⟨⟨0, 1, ⟨1, 0, Successor⟩⟩, by decide, rfl, rfl, rfl, rfl, rfl⟩, rfl, rfl⟩ h3
    | 1, h1, h2 =>
      cases h1; cases h2
      refine absurd ⟨by decide, by decide, [2, 3, 4], _, .snoc (ps := [2, 3]) (.snoc (ps := [2]) (.single 2) rfl (by simp)
        ⟨⟨1, 2, ⟨1, 0, Successor⟩⟩, by decide, rfl, rfl, rfl, rfl, rfl⟩) rfl (by simp)
        ⟨⟨2, 3, ⟨1, 0, Successor⟩⟩, by decide, rfl, rfl, rfl, rfl, rfl⟩, rfl, rfl⟩ h3
    | i + 2, _, h2 => simp at h2
  · exact ⟨r, h, h4⟩

/-- an unknown cost module is reported -/
example : getRouteVia natTests exFork Search.exPick 1 [] 4 1 false = some (.error .invalidInput) :=
  getRouteVia_invalid 1 4 (by decide) (by decide) (by decide) false

end Verif.Route
