import Verif.Route.Facts

/-!
Property C30: the lanelets, relations and lanes of a route.
-/
set_option linter.unusedSectionVars false
namespace Verif.Route
open Verif.Graph Verif.Graph.RelationType
open Relation (ReflTransGen EqvGen)
variable {P K : Type} [DecidableEq P]

/-! ### specification vocabulary -/

/-- the relations that are taken over into a route -/
def routeRelations (lc : Bool) : List RelationType :=
  if lc then [Successor, Left, Right, AdjacentLeft, AdjacentRight, Conflicting] else [Successor, Conflicting]

/-- `r` is the route that was built along `path` -/
def IsRoute (t : CostTests K) (g : RGraph P K) (path : List P) (lc : Bool) (costId : Nat) (r : Route P K) : Prop :=
  buildRoute t g path lc costId = some (.ok (some r))

/-- the lanelets of a route -/
def Route.members (r : Route P K) : List P := r.graph.graph.vertices

/-- consecutive lanelets are connected by a relation that may be driven along -/
def Connected (g : RGraph P K) (lc : Bool) (costId : Nat) (path : List P) : Prop :=
  path.IsChain fun p q => ∃ rel ∈ followRelations lc, ∃ c, HasEdge g p q costId rel c

/-- the followers and the predecessors of an element in the routing graph -/
def succs (g : RGraph P K) (costId : Nat) (p : P) : List P := g.getAllEdges costId withoutLaneChanges p true
/-- Specification: the lanelets that lead to a lanelet. -/
def preds (g : RGraph P K) (costId : Nat) (p : P) : List P := g.getAllEdges costId withoutLaneChanges p false

/-- the lane id of a lanelet -/
def Route.laneOf (r : Route P K) (p : P) : Option Nat := (r.graph.graph.getVertex p).map r.graph.laneId

/-! ### lemmas -/

theorem wf_built {t : CostTests K} {g : RGraph P K} (wf : WF t g) : Built t g := by
  obtain ⟨n, vs, es⟩ := g
  have hv : ∀ l : List P, l.Nodup → Built t (⟨n, l, []⟩ : RGraph P K) := by
    intro l
    induction l using List.reverseRecOn with
    | nil => intro _; exact .empty n
    | append_singleton l a ih =>
      intro h
      rw [List.nodup_append] at h
      exact (ih h.1).vertex a fun ha => h.2.2 a ha a (by simp) rfl
  have he : ∀ l : List (BaseEdge K), (∀ e ∈ l, e ∈ es) → Built t (⟨n, vs, l⟩ : RGraph P K) := by
    intro l
    induction l using List.reverseRecOn with
    | nil => intro _; exact hv vs wf.nodup
    | append_singleton l a ih =>
      intro h
      have ha : a ∈ es := h a (by simp)
      have hs := wf.src a ha
      have hd := wf.dst a ha
      simp only at hs hd
      have g1 : (⟨n, vs, l⟩ : RGraph P K).getVertex vs[a.src] = some a.src :=
        (getVertex_iff (g := ⟨n, vs, l⟩) wf.nodup).mpr (List.getElem?_eq_getElem hs)
      have g2 : (⟨n, vs, l⟩ : RGraph P K).getVertex vs[a.dst] = some a.dst :=
        (getVertex_iff (g := ⟨n, vs, l⟩) wf.nodup).mpr (List.getElem?_eq_getElem hd)
      refine (ih fun e he => h e (by simp [he])).edge vs[a.src] vs[a.dst] a.info (wf.rel a ha) ?_
      simp only [RGraph.addEdge, g1, g2, RGraph.addEdgeV, wf.fin a ha, wf.nonneg a ha, Bool.true_eq_false, Bool.false_eq_true, if_false]
  exact he es fun _ h => h

theorem mask_table : ∀ lc : Bool, ∀ r ∈ edgeRelations,
    ((r &&& (if lc then Successor ||| Conflicting ||| (Left ||| Right ||| AdjacentLeft ||| AdjacentRight) else Successor ||| Conflicting)) != 0) =
      decide (r ∈ routeRelations lc) := by
  decide

theorem follow_table : ∀ lc : Bool, ∀ r ∈ followRelations lc, r ∈ routeRelations lc := by decide

theorem mem_original {t : CostTests K} {g : RGraph P K} (wf : WF t g) {lc : Bool} {costId : Nat} {e : BaseEdge K} :
    e ∈ original g lc costId ↔ e ∈ g.edges ∧ e.info.costId = costId ∧ e.info.relation ∈ routeRelations lc := by
  unfold original
  simp only [List.mem_filter, Bool.and_eq_true, beq_iff_eq, hasRel]
  constructor
  · rintro ⟨h1, h2, h3⟩
    rw [mask_table lc _ (wf.rel e h1)] at h3
    exact ⟨h1, h2, by simpa using h3⟩
  · rintro ⟨h1, h2, h3⟩
    refine ⟨h1, h2, ?_⟩
    rw [mask_table lc _ (wf.rel e h1)]
    simpa using h3

section
variable {t : CostTests K} {g : RGraph P K} {path : List P} {lc : Bool} {costId : Nat}

theorem IsRoute.facts {r : Route P K} (wf : WF t g) (h : IsRoute t g path lc costId r) :
    ∃ vs R order s, Facts t g path lc costId vs R order s ∧ r.graph = s.route ∧ r.shortestPath = path := by
  obtain ⟨vs, R, order, s, f, hx⟩ := buildRoute_facts wf h
  refine ⟨vs, R, order, s, f, ?_⟩
  unfold finish at hx
  cases hl : path.getLast? with
  | none => rw [hl] at hx; cases hx
  | some last =>
    rw [hl] at hx
    simp only at hx
    cases hg : s.route.graph.getVertex last with
    | none => rw [hg] at hx; cases hx
    | some v =>
      rw [hg] at hx
      simp only [Option.map_some, Option.some.injEq] at hx
      subst hx
      exact ⟨rfl, rfl⟩

theorem hasEdge_members {p q : P} {rel : RelationType} {c : K} {g : RGraph P K} {id : Nat} (h : HasEdge g p q id rel c) :
    p ∈ g.vertices ∧ q ∈ g.vertices := by
  obtain ⟨e, -, h1, h2, -⟩ := h
  exact ⟨List.mem_of_getElem? h1, List.mem_of_getElem? h2⟩

/-- the vertices of the path are all found -/
theorem Facts.path_order {vs R order : List Nat} {s : Visitor P K} (wf : WF t g) (f : Facts t g path lc costId vs R order s)
    (hc : Connected g lc costId path) : ∀ v ∈ vs, v ∈ order := by
  have hm := f.mapped
  cases vs with
  | nil => intro v hv; cases hv
  | cons u vs =>
    have hu : u ∈ order := by
      rw [f.reach]
      exact ⟨u, rfl, .refl⟩
    cases path with
    | nil => cases hm
    | cons p path =>
      simp only [List.map_cons, List.cons.injEq] at hm
      have key : ∀ (vs : List Nat) (path : List P) (u : Nat) (p : P), u ∈ order → g.vertices[u]? = some p →
          vs.map (g.vertices[·]?) = path.map some → Connected g lc costId (p :: path) → (∀ v ∈ vs, v ∈ R) → ∀ v ∈ vs, v ∈ order := by
        intro vs
        induction vs with
        | nil => intro _ _ _ _ _ _ _ _ v hv; cases hv
        | cons w vs ih =>
          intro path u p hu hp hm hc hR v hv
          cases path with
          | nil => cases hm
          | cons q path =>
            simp only [List.map_cons, List.cons.injEq] at hm
            unfold Connected at hc
            rw [List.isChain_cons_cons] at hc
            obtain ⟨⟨rel, hrel, c, e, h1, h2, h3, h4, h5, h6⟩, hc'⟩ := hc
            have hw : w ∈ order := by
              have e1 : e.src = u := vertex_inj wf.nodup h2 hp
              have e2 : e.dst = w := vertex_inj wf.nodup h3 hm.1
              have he : e ∈ original g lc costId := (mem_original wf).mpr ⟨h1, h4, by rw [h5]; exact follow_table lc rel hrel⟩
              have := f.step he (by rw [e1]; exact hu) (by rw [e2]; exact hR w (by simp))
              rw [e2] at this
              exact this
            rcases List.mem_cons.mp hv with rfl | hv
            · exact hw
            · exact ih path w q hw hm.1 hm.2 hc' (fun x hx => hR x (by simp [hx])) v hv
      intro v hv
      rcases List.mem_cons.mp hv with rfl | hv
      · exact hu
      · exact key vs path u p hu hm.1 hm.2 hc (fun x hx => f.onPath x (by simp [hx])) v hv

/-! ### what a route consists of -/

/-- C30: the route along a connected path contains all lanelets of the path. -/
theorem route_contains_path (hb : Built t g) {r : Route P K} (h : IsRoute t g path lc costId r) (hc : Connected g lc costId path) :
    r.shortestPath = path ∧ ∀ p ∈ path, r.contains p = true := by
  have wf := built_wf hb
  obtain ⟨vs, R, order, s, f, hr, hp⟩ := h.facts wf
  refine ⟨hp, ?_⟩
  intro p hpp
  have h1 : some p ∈ path.map some := List.mem_map_of_mem hpp
  rw [← f.mapped] at h1
  obtain ⟨v, hv, h2⟩ := List.mem_map.mp h1
  unfold Route.contains
  rw [hr, f.getVertex wf (f.path_order wf hc v hv) h2]
  rfl

/-- C30: along a connected path the construction never ends without a route: if it ends, there is a route or a fault. -/
theorem route_exists (hb : Built t g) (hc : Connected g lc costId path) {x : Option (Route P K)}
    (h : buildRoute t g path lc costId = some (.ok x)) : x.isSome := by
  have wf := built_wf hb
  obtain ⟨vs, R, order, s, f, hx⟩ := buildRoute_facts wf h
  have hm := f.mapped
  have hne : path ≠ [] := by
    rintro rfl
    unfold buildRoute at h
    simp [pure] at h
  cases hl : path.getLast? with
  | none => exact absurd (List.getLast?_eq_none_iff.mp hl) hne
  | some last =>
    have hvl : (vs.map (g.vertices[·]?)).getLast? = some (some last) := by
      rw [hm, List.getLast?_map, hl]; rfl
    rw [List.getLast?_map] at hvl
    cases hv : vs.getLast? with
    | none => rw [hv] at hvl; cases hvl
    | some v =>
      rw [hv] at hvl
      have h2 := Option.some.inj hvl
      have hvo := f.path_order wf hc v (List.mem_of_getLast? hv)
      rw [hx]
      unfold finish
      rw [hl]
      simp only [f.getVertex wf hvo h2]
      rfl

/-- C30: the lanelets of a route are distinct lanelets of the routing graph. -/
theorem route_members (hb : Built t g) {r : Route P K} (h : IsRoute t g path lc costId r) :
    r.members.Nodup ∧ ∀ p ∈ r.members, p ∈ g.vertices := by
  have wf := built_wf hb
  obtain ⟨vs, R, order, s, f, hr, -⟩ := h.facts wf
  unfold Route.members
  rw [hr]
  refine ⟨sees_nodup wf.nodup f.inv.sees f.nodup, ?_⟩
  intro p hp
  obtain ⟨v, -, h⟩ := f.mem.mp hp
  exact List.mem_of_getElem? h

/-- C30: the relations of a route are exactly the relations that the routing graph has between the lanelets of the route, for the cost module and
the kinds of relations that were asked for. -/
theorem route_relations (hb : Built t g) {r : Route P K} (h : IsRoute t g path lc costId r) (p q : P) (id : Nat) (rel : RelationType) (c : K) :
    HasEdge r.graph.graph p q id rel c ↔
      id = 0 ∧ p ∈ r.members ∧ q ∈ r.members ∧ rel ∈ routeRelations lc ∧ HasEdge g p q costId rel c := by
  have wf := built_wf hb
  obtain ⟨vs, R, order, s, f, hr, -⟩ := h.facts wf
  unfold Route.members
  rw [hr]
  constructor
  · intro he
    refine ⟨?_, (hasEdge_members he).1, (hasEdge_members he).2, ?_⟩
    · obtain ⟨e', h1, -, -, h4, -⟩ := he
      obtain ⟨e, -, -, -, rfl⟩ := f.mem_edges.mp h1
      exact h4.symm
    · obtain ⟨e', h1, h2, h3, -, h5, h6⟩ := he
      obtain ⟨e, k1, k2, k3, rfl⟩ := f.mem_edges.mp h1
      obtain ⟨m1, m2, m3⟩ := (mem_original wf).mp k1
      simp only [routeEdge] at h2 h3 h5 h6
      rw [f.vertex k2] at h2
      rw [f.vertex k3] at h3
      exact ⟨by rw [← h5]; exact m3, e, m1, h2, h3, m2, h5, h6⟩
  · rintro ⟨rfl, hp, hq, hrel, e, h1, h2, h3, h4, h5, h6⟩
    obtain ⟨u, hu, hu'⟩ := f.mem.mp hp
    obtain ⟨v, hv, hv'⟩ := f.mem.mp hq
    have e1 := vertex_inj wf.nodup h2 hu'
    have e2 := vertex_inj wf.nodup h3 hv'
    refine ⟨routeEdge order e, f.mem_edges.mpr ⟨e, (mem_original wf).mpr ⟨h1, h4, by rw [h5]; exact hrel⟩, by rw [e1]; exact hu,
      by rw [e2]; exact hv, rfl⟩, ?_, ?_, rfl, h5, h6⟩
    · simp only [routeEdge]
      rw [f.vertex (by rw [e1]; exact hu)]
      exact h2
    · simp only [routeEdge]
      rw [f.vertex (by rw [e2]; exact hv)]
      exact h3

/-- C30: and each of them once: the route has as many relations as the routing graph has between its lanelets. -/
theorem route_relations_count (hb : Built t g) {r : Route P K} (h : IsRoute t g path lc costId r) :
    r.graph.graph.edges.length = (g.edges.filter fun e =>
      e.info.costId == costId && decide (e.info.relation ∈ routeRelations lc) &&
        ((g.vertices[e.src]?).any fun p => decide (p ∈ r.members)) && ((g.vertices[e.dst]?).any fun p => decide (p ∈ r.members))).length := by
  have wf := built_wf hb
  obtain ⟨vs, R, order, s, f, hr, -⟩ := h.facts wf
  unfold Route.members
  rw [hr, f.edges_perm.length_eq, List.length_map]
  unfold original
  rw [List.filter_filter]
  congr 1
  apply List.filter_congr
  intro e he
  have hmem : ∀ v < g.vertices.length, ((g.vertices[v]?).any fun p => decide (p ∈ s.route.graph.vertices)) = decide (v ∈ order) := by
    intro v hv
    rw [List.getElem?_eq_getElem hv]
    simp only [Option.any_some]
    apply decide_eq_decide.mpr
    rw [f.mem]
    constructor
    · rintro ⟨w, hw, h⟩
      rw [vertex_inj wf.nodup (List.getElem?_eq_getElem hv) h]
      exact hw
    · intro h; exact ⟨v, h, List.getElem?_eq_getElem hv⟩
  rw [hmem _ (wf.src e he), hmem _ (wf.dst e he)]
  have := mask_table lc _ (wf.rel e he)
  simp only [hasRel]
  rw [this]
  cases (decide (e.src ∈ order)) <;> cases (decide (e.dst ∈ order)) <;> cases (e.info.costId == costId) <;>
    cases (decide (e.info.relation ∈ routeRelations lc)) <;> rfl

/-- C30: the graph of a route is itself a graph in the sense of the routing graph: all that is proved about the queries of routing graphs holds
for it. -/
theorem route_built (hb : Built t g) {r : Route P K} (h : IsRoute t g path lc costId r) : Built t r.graph.graph := by
  have wf := built_wf hb
  obtain ⟨vs, R, order, s, f, hr, -⟩ := h.facts wf
  apply wf_built
  rw [hr]
  have hE : ∀ e' ∈ s.route.graph.edges, ∃ e ∈ g.edges, e.src ∈ order ∧ e.dst ∈ order ∧ e' = routeEdge order e := by
    intro e' he'
    obtain ⟨e, h1, h2, h3, h4⟩ := f.mem_edges.mp he'
    exact ⟨e, original_sub h1, h2, h3, h4⟩
  have hl := sees_length f.inv.sees
  refine ⟨sees_nodup wf.nodup f.inv.sees f.nodup, ?_, ?_, ?_, ?_, ?_⟩ <;> intro e' he' <;> obtain ⟨e, h1, h2, h3, rfl⟩ := hE e' he'
  · rw [hl]; exact List.idxOf_lt_length_of_mem h2
  · rw [hl]; exact List.idxOf_lt_length_of_mem h3
  · exact wf.fin e h1
  · exact wf.nonneg e h1
  · exact wf.rel e h1

/-- C30: every lanelet of the route can be reached from the first lanelet of the path over relations of the route. -/
theorem route_reachable (hb : Built t g) {r : Route P K} (h : IsRoute t g path lc costId r) {p : P} (hp : p ∈ r.members) :
    ∃ p0, path.head? = some p0 ∧ ReflTransGen (fun a b => ∃ rel c, HasEdge r.graph.graph a b 0 rel c) p0 p := by
  have wf := built_wf hb
  obtain ⟨vs, R, order, s, f, hr, -⟩ := h.facts wf
  unfold Route.members at hp
  rw [hr] at hp ⊢
  obtain ⟨v, hv, hvp⟩ := f.mem.mp hp
  obtain ⟨u, hu, hreach⟩ := (f.reach v).mp hv
  have hp0 : ∃ p0, path.head? = some p0 ∧ g.vertices[u]? = some p0 := by
    have := congrArg List.head? f.mapped
    rw [List.head?_map, List.head?_map, hu] at this
    cases hh : path.head? with
    | none => rw [hh] at this; cases this
    | some p0 => rw [hh] at this; exact ⟨p0, rfl, Option.some.inj this⟩
  obtain ⟨p0, h1, h2⟩ := hp0
  refine ⟨p0, h1, ?_⟩
  clear hp hv
  induction hreach generalizing p with
  | refl => rw [h2] at hvp; cases hvp; exact .refl
  | @tail b w hub hbw ih =>
    obtain ⟨e, he, rfl, rfl, hR⟩ := hbw
    have hbo : e.src ∈ order := (f.reach _).mpr ⟨u, hu, hub⟩
    have hdo := f.step he hbo hR
    obtain ⟨q, hq⟩ : ∃ q, g.vertices[e.src]? = some q := ⟨_, List.getElem?_eq_getElem (wf.src e (original_sub he))⟩
    refine (ih hq).tail ⟨_, _, routeEdge order e, f.mem_edges.mpr ⟨e, he, hbo, hdo, rfl⟩, ?_, ?_, rfl, rfl, rfl⟩
    · simp only [routeEdge]; rw [f.vertex hbo]; exact hq
    · simp only [routeEdge]; rw [f.vertex hdo]; exact hvp

/-- C30: `conflictingInMap` of a lanelet of the route are exactly the elements that it conflicts with in the routing graph, whether they are on the
route or not. -/
theorem route_conflictingInMap (hb : Built t g) {r : Route P K} (h : IsRoute t g path lc costId r) {p : P} (hp : p ∈ r.members) (q : P) :
    q ∈ r.conflictingInMap p ↔ ∃ c, HasEdge g p q costId Conflicting c := by
  have wf := built_wf hb
  obtain ⟨vs, R, order, s, f, hr, -⟩ := h.facts wf
  unfold Route.members at hp
  unfold Route.conflictingInMap
  rw [hr] at hp ⊢
  obtain ⟨v, hv, hvp⟩ := f.mem.mp hp
  rw [f.getVertex wf hv hvp]
  simp only
  rw [f.inv.conf, List.getElem?_idxOf hv]
  simp only [Option.map_some, Option.getD_some, if_pos hv, conflicts, List.mem_filterMap, List.mem_filter, outE, beq_iff_eq]
  have hconf : ∀ r ∈ edgeRelations, ((r &&& Conflicting) != 0) = decide (r = Conflicting) := by decide
  have hmem : ∀ lc, Conflicting ∈ routeRelations lc := by decide
  constructor
  · rintro ⟨e, ⟨⟨h1, h2⟩, h3⟩, h4⟩
    obtain ⟨m1, m2, -⟩ := (mem_original wf).mp h1
    simp only [hasRel] at h3
    rw [hconf _ (wf.rel e m1)] at h3
    exact ⟨_, e, m1, by rw [h2]; exact hvp, h4, m2, by simpa using h3, rfl⟩
  · rintro ⟨c, e, h1, h2, h3, h4, h5, -⟩
    refine ⟨e, ⟨⟨(mem_original wf).mpr ⟨h1, h4, by rw [h5]; exact hmem lc⟩, vertex_inj wf.nodup h2 hvp⟩, ?_⟩, h3⟩
    simp only [hasRel]
    rw [h5]
    decide

/-- C30: `allConflictingInMap` are the elements that some lanelet of the route conflicts with. -/
theorem route_allConflictingInMap (hb : Built t g) {r : Route P K} (h : IsRoute t g path lc costId r) (q : P) :
    q ∈ r.allConflictingInMap ↔ ∃ p ∈ r.members, ∃ c, HasEdge g p q costId Conflicting c := by
  have hm := route_members hb h
  have hn := hm.1
  unfold Route.members at hn
  unfold Route.allConflictingInMap
  simp only [List.mem_flatMap, List.mem_range]
  constructor
  · rintro ⟨i, hi, hq⟩
    have hp : r.graph.graph.vertices[i]? = some r.graph.graph.vertices[i] := List.getElem?_eq_getElem hi
    refine ⟨r.graph.graph.vertices[i], List.getElem_mem hi, ?_⟩
    rw [← route_conflictingInMap hb h (List.getElem_mem hi)]
    unfold Route.conflictingInMap
    rw [(getVertex_iff hn).mpr hp]
    exact hq
  · rintro ⟨p, hp, hc⟩
    rw [← route_conflictingInMap hb h hp] at hc
    unfold Route.conflictingInMap at hc
    cases hv : r.graph.graph.getVertex p with
    | none => rw [hv] at hc; cases hc
    | some v => rw [hv] at hc; exact ⟨v, (getVertex_spec hv).1, hc⟩

/-! ### followers, predecessors and lanes -/

theorem succ_table : ∀ r ∈ edgeRelations, ((withoutLaneChanges == allRelations || (withoutLaneChanges &&& r) != 0) = decide (r = Successor)) := by
  decide

theorem succ_mem (lc : Bool) : Successor ∈ routeRelations lc := by cases lc <;> decide

theorem outs_succ (wf : WF t g) (R : List Nat) (u : Nat) :
    (routeOut (original g lc costId) R u).filter (fun e => decide (e.info.relation = Successor)) =
      (g.outEdges costId withoutLaneChanges u).filter fun e => decide (e.dst ∈ R) := by
  simp only [routeOut, outE, original, RGraph.outEdges, List.filter_filter]
  apply List.filter_congr
  intro e he
  have h1 := mask_table lc _ (wf.rel e he)
  have h2 := succ_table _ (wf.rel e he)
  simp only [hasRel, passes]
  rw [h1, h2]
  by_cases hs : e.info.relation = Successor
  · rw [hs]
    simp only [succ_mem lc, decide_true, Bool.true_and, Bool.and_true]
  · simp [hs]

theorem ins_succ (wf : WF t g) (R : List Nat) (u : Nat) :
    (routeIn (original g lc costId) R u).filter (fun e => decide (e.info.relation = Successor)) =
      (g.inEdges costId withoutLaneChanges u).filter fun e => decide (e.src ∈ R) := by
  simp only [routeIn, inE, original, RGraph.inEdges, List.filter_filter]
  apply List.filter_congr
  intro e he
  have h1 := mask_table lc _ (wf.rel e he)
  have h2 := succ_table _ (wf.rel e he)
  simp only [hasRel, passes]
  rw [h1, h2]
  by_cases hs : e.info.relation = Successor
  · rw [hs]
    simp only [succ_mem lc, decide_true, Bool.true_and, Bool.and_true]
  · simp [hs]

theorem mem_lanelets (hn : g.vertices.Nodup) {R : List Nat} {v : Nat} {p : P} (hp : g.vertices[v]? = some p) :
    p ∈ lanelets g R ↔ v ∈ R := by
  simp only [lanelets, List.mem_filterMap]
  constructor
  · rintro ⟨w, hw, h⟩; rw [vertex_inj hn hp h]; exact hw
  · intro h; exact ⟨v, h, hp⟩

/-- taking the elements of edges and selecting them, in any order -/
theorem filter_elements (hn : g.vertices.Nodup) {R : List Nat} {V : List P} (end_ : BaseEdge K → Nat) : ∀ (l : List (BaseEdge K)),
    (∀ e ∈ l, end_ e < g.vertices.length) → (∀ v p, g.vertices[v]? = some p → (p ∈ V ↔ v ∈ R)) →
    (l.filterMap fun e => g.vertices[end_ e]?).filter (fun p => decide (p ∈ V)) =
      (l.filter fun e => decide (end_ e ∈ R)).filterMap fun e => g.vertices[end_ e]? := by
  intro l
  induction l with
  | nil => intro _ _; rfl
  | cons a l ih =>
    intro h hV
    have ha : g.vertices[end_ a]? = some (g.vertices[end_ a]'(h a (by simp))) := List.getElem?_eq_getElem _
    rw [List.filterMap_cons, ha]
    simp only
    rw [List.filter_cons, List.filter_cons, ih (fun e he => h e (by simp [he])) hV]
    have := hV _ _ ha
    by_cases hm : end_ a ∈ R
    · simp only [this.mpr hm, hm, decide_true, if_true]
      rw [List.filterMap_cons, ha]
    · have hm' : ¬ (g.vertices[end_ a]'(h a (by simp)) ∈ V) := fun h => hm (this.mp h)
      simp only [hm', hm, decide_false, Bool.false_eq_true, if_false]

theorem elements_single (hn : g.vertices.Nodup) {end_ : BaseEdge K → Nat} {l : List (BaseEdge K)} (hl : ∀ e ∈ l, end_ e < g.vertices.length)
    {v : Nat} {q : P} (hq : g.vertices[v]? = some q) :
    (l.filterMap fun e => g.vertices[end_ e]?) = [q] ↔ ∃ e, l = [e] ∧ end_ e = v := by
  constructor
  · intro h
    cases l with
    | nil => cases h
    | cons a l =>
      have ha : g.vertices[end_ a]? = some (g.vertices[end_ a]'(hl a (by simp))) := List.getElem?_eq_getElem _
      rw [List.filterMap_cons, ha] at h
      simp only [List.cons.injEq] at h
      cases l with
      | nil => exact ⟨a, rfl, vertex_inj hn ha (by rw [hq, h.1])⟩
      | cons b l =>
        have hb : g.vertices[end_ b]? = some (g.vertices[end_ b]'(hl b (by simp))) := List.getElem?_eq_getElem _
        have h2 := h.2
        rw [List.filterMap_cons, hb] at h2
        cases h2
  · rintro ⟨e, rfl, rfl⟩
    simp [hq]

theorem outEdges_route {vs R order : List Nat} {s : Visitor P K} (wf : WF t g) (f : Facts t g path lc costId vs R order s) {v : Nat}
    (hv : v ∈ order) : s.route.graph.outEdges 0 withoutLaneChanges (order.idxOf v) =
      ((g.outEdges costId withoutLaneChanges v).filter fun e => decide (e.dst ∈ R)).map (routeEdge order) := by
  rw [← outs_succ (lc := lc) wf, RGraph.outEdges, f.inv.edges, List.filter_map]
  congr 1
  have h1 : (order.flatMap (routeOut (original g lc costId) R)).filter
        ((fun e => e.src == order.idxOf v && passes 0 withoutLaneChanges e.info) ∘ routeEdge order) =
      (order.flatMap (routeOut (original g lc costId) R)).filter fun e => e.src == v && decide (e.info.relation = Successor) := by
    apply List.filter_congr
    intro e he
    obtain ⟨u, hu, h⟩ := List.mem_flatMap.mp he
    obtain ⟨m1, m2, -⟩ := mem_routeOut.mp h
    have hsrc : e.src ∈ order := by rw [m2]; exact hu
    have := succ_table _ (wf.rel e (original_sub m1))
    simp only [Function.comp, routeEdge, passes]
    rw [this]
    by_cases hev : e.src = v
    · simp [hev]
    · have := idxOf_ne f.nodup hv hev hsrc
      rw [beq_eq_false_iff_ne.mpr this, beq_eq_false_iff_ne.mpr hev, Bool.false_and, Bool.false_and]
  rw [h1]
  have h2 : ∀ l : List Nat, l.Nodup → (l.flatMap (routeOut (original g lc costId) R)).filter
      (fun e => e.src == v && decide (e.info.relation = Successor)) =
      if v ∈ l then (routeOut (original g lc costId) R v).filter fun e => decide (e.info.relation = Successor) else [] := by
    intro l
    induction l with
    | nil => intro _; rfl
    | cons a l ih =>
      intro hn
      rw [List.nodup_cons] at hn
      rw [List.flatMap_cons, List.filter_append, ih hn.2]
      by_cases ha : a = v
      · subst ha
        rw [if_neg hn.1, if_pos (by simp), List.append_nil]
        apply List.filter_congr
        intro e he
        simp [(mem_routeOut.mp he).2.1]
      · have : (routeOut (original g lc costId) R a).filter (fun e => e.src == v && decide (e.info.relation = Successor)) = [] := by
          apply List.filter_eq_nil_iff.mpr
          intro e he
          simp [(mem_routeOut.mp he).2.1, ha]
        rw [this, List.nil_append]
        simp [Ne.symm ha]
  rw [h2 order f.nodup, if_pos hv]

/-- C30: the followers of a lanelet in the route are its followers in the routing graph that are on the route. -/
theorem route_following (hb : Built t g) {r : Route P K} (h : IsRoute t g path lc costId r) {p : P} (hp : p ∈ r.members) :
    r.following p = (succs g costId p).filter fun q => decide (q ∈ r.members) := by
  have wf := built_wf hb
  obtain ⟨vs, R, order, s, f, hr, -⟩ := h.facts wf
  unfold Route.members at *
  unfold Route.following succs RGraph.getAllEdges
  rw [hr] at hp ⊢
  obtain ⟨v, hv, hvp⟩ := f.mem.mp hp
  rw [f.getVertex wf hv hvp, (getVertex_iff wf.nodup).mpr hvp]
  simp only [if_true]
  have hV : ∀ w q, g.vertices[w]? = some q → (q ∈ s.route.graph.vertices ↔ w ∈ order) := by
    intro w q hq
    rw [f.mem]
    constructor
    · rintro ⟨x, hx, h⟩; rw [vertex_inj wf.nodup hq h]; exact hx
    · intro h; exact ⟨w, h, hq⟩
  rw [filter_elements (R := order) wf.nodup (·.dst) (g.outEdges costId withoutLaneChanges v) (fun e he => wf.dst e (List.mem_of_mem_filter he)) hV, outEdges_route wf f hv, List.filterMap_map]
  have hflt : (g.outEdges costId withoutLaneChanges v).filter (fun e => decide (e.dst ∈ R)) =
      (g.outEdges costId withoutLaneChanges v).filter fun e => decide (e.dst ∈ order) := by
    apply List.filter_congr
    intro e he
    have he' := List.mem_filter.mp he
    simp only [Bool.and_eq_true, beq_iff_eq, passes] at he'
    obtain ⟨m1, m2, m3, m4⟩ := he'
    have hs : e.info.relation = Successor := by
      have := succ_table _ (wf.rel e m1)
      rw [m4] at this
      simpa using this.symm
    apply decide_eq_decide.mpr
    constructor
    · intro hR
      exact f.step ((mem_original wf).mpr ⟨m1, m3, by rw [hs]; exact succ_mem lc⟩) (by rw [m2]; exact hv) hR
    · exact fun h => f.order_sub h
  rw [hflt]
  apply List.filterMap_congr
  intro e he
  have hd : e.dst ∈ order := by simpa using (List.mem_filter.mp he).2
  simp only [Function.comp, routeEdge]
  exact f.vertex hd

theorem inEdges_route {vs R order : List Nat} {s : Visitor P K} (wf : WF t g) (f : Facts t g path lc costId vs R order s) {v : Nat}
    (hv : v ∈ order) : (s.route.graph.inEdges 0 withoutLaneChanges (order.idxOf v)).Perm
      (((g.inEdges costId withoutLaneChanges v).filter fun e => decide (e.src ∈ order)).map (routeEdge order)) := by
  rw [RGraph.inEdges]
  refine (f.edges_perm.filter _).trans ?_
  rw [List.filter_map, List.filter_filter, original, List.filter_filter, RGraph.inEdges, List.filter_filter]
  apply List.Perm.of_eq
  congr 1
  apply List.filter_congr
  intro e he
  have h1 := mask_table lc _ (wf.rel e he)
  have h2 := succ_table _ (wf.rel e he)
  simp only [hasRel, passes, Function.comp, routeEdge]
  rw [h1, h2]
  by_cases hs : e.info.relation = Successor
  · rw [hs]
    simp only [succ_mem lc, decide_true, Bool.true_and, Bool.and_true]
    by_cases hd : e.dst ∈ order
    · by_cases hev : e.dst = v
      · simp [hev, hv, Bool.and_comm]
      · have := idxOf_ne f.nodup hv hev hd
        rw [beq_eq_false_iff_ne.mpr this, beq_eq_false_iff_ne.mpr hev]
        simp
    · have hev : e.dst ≠ v := by rintro rfl; exact hd hv
      simp [hd, hev]
  · simp [hs]

/-- C30: the predecessors of a lanelet in the route are its predecessors in the routing graph that are on the route. -/
theorem route_previous (hb : Built t g) {r : Route P K} (h : IsRoute t g path lc costId r) {p : P} (hp : p ∈ r.members) :
    (r.previous p).Perm ((preds g costId p).filter fun q => decide (q ∈ r.members)) := by
  have wf := built_wf hb
  obtain ⟨vs, R, order, s, f, hr, -⟩ := h.facts wf
  unfold Route.members at *
  unfold Route.previous preds RGraph.getAllEdges
  rw [hr] at hp ⊢
  obtain ⟨v, hv, hvp⟩ := f.mem.mp hp
  rw [f.getVertex wf hv hvp, (getVertex_iff wf.nodup).mpr hvp]
  simp only [Bool.false_eq_true, if_false]
  have hV : ∀ w q, g.vertices[w]? = some q → (q ∈ s.route.graph.vertices ↔ w ∈ order) := by
    intro w q hq
    rw [f.mem]
    constructor
    · rintro ⟨x, hx, h⟩; rw [vertex_inj wf.nodup hq h]; exact hx
    · intro h; exact ⟨w, h, hq⟩
  rw [filter_elements (R := order) wf.nodup (·.src) (g.inEdges costId withoutLaneChanges v) (fun e he => wf.src e (List.mem_of_mem_filter he)) hV]
  refine ((inEdges_route wf f hv).filterMap _).trans ?_
  rw [List.filterMap_map]
  apply List.Perm.of_eq
  apply List.filterMap_congr
  intro e he
  have hd : e.src ∈ order := by simpa using (List.mem_filter.mp he).2
  simp only [Function.comp, routeEdge]
  exact f.vertex hd

theorem same_iff {vs R order : List Nat} {s : Visitor P K} (wf : WF t g) (f : Facts t g path lc costId vs R order s) {u v : Nat} {p q : P}
    (hu : u ∈ order) (hp : g.vertices[u]? = some p) (hq : g.vertices[v]? = some q) :
    Same (routeOut (original g lc costId) R) (routeIn (original g lc costId) R) (order.flatMap (routeOut (original g lc costId) R)) u v ↔
      (succs g costId p).filter (fun x => decide (x ∈ lanelets g R)) = [q] ∧
      (preds g costId q).filter (fun x => decide (x ∈ lanelets g R)) = [p] := by
  have hV : ∀ w x, g.vertices[w]? = some x → (x ∈ lanelets g R ↔ w ∈ R) := fun w x hx => mem_lanelets wf.nodup hx
  unfold succs preds RGraph.getAllEdges
  rw [(getVertex_iff wf.nodup).mpr hp, (getVertex_iff wf.nodup).mpr hq]
  simp only [if_true, Bool.false_eq_true, if_false]
  rw [filter_elements (R := R) wf.nodup (·.dst) (g.outEdges costId withoutLaneChanges u) (fun e he => wf.dst e (List.mem_of_mem_filter he)) hV,
    filter_elements (R := R) wf.nodup (·.src) (g.inEdges costId withoutLaneChanges v) (fun e he => wf.src e (List.mem_of_mem_filter he)) hV, ← outs_succ (lc := lc) wf, ← ins_succ (lc := lc) wf,
    elements_single wf.nodup (end_ := (·.dst)) (fun e he => wf.dst e (original_sub (mem_routeOut.mp (List.mem_of_mem_filter he)).1)) hq,
    elements_single wf.nodup (end_ := (·.src)) (fun e he => wf.src e (original_sub (mem_routeIn.mp (List.mem_of_mem_filter he)).1)) hp]
  constructor
  · rintro ⟨e, he, hd, rfl, rfl⟩
    obtain ⟨w, hw, he⟩ := List.mem_flatMap.mp he
    obtain ⟨m1, m2, m3⟩ := mem_routeOut.mp he
    subst m2
    unfold isDifferentLane at hd
    split at hd
    · cases hd
    · rename_i hs
      simp only [ne_eq, not_not] at hs
      split at hd
      · cases hd
      · rename_i h1
        simp only [Bool.not_eq_true', Bool.not_eq_false, Bool.not_eq_eq_eq_not, Bool.not_false, Bool.not_true, hasOneSuccessor,
          beq_iff_eq] at h1 hd
        have hio := f.order_sub hw
        obtain ⟨a, ha⟩ := List.length_eq_one_iff.mp hd
        obtain ⟨b, hb⟩ := List.length_eq_one_iff.mp h1
        have ha' : e ∈ [a] := by rw [← ha]; exact List.mem_filter.mpr ⟨he, by simpa using hs⟩
        have hb' : e ∈ [b] := by rw [← hb]; exact List.mem_filter.mpr ⟨mem_routeIn.mpr ⟨m1, rfl, hio⟩, by simpa using hs⟩
        simp only [List.mem_singleton] at ha' hb'
        exact ⟨⟨a, ha, by rw [ha']⟩, ⟨b, hb, by rw [hb']⟩⟩
  · rintro ⟨⟨a, ha, h1⟩, ⟨b, hb, h2⟩⟩
    have ham := List.mem_filter.mp (show a ∈ _ by rw [ha]; simp)
    have hs : a.info.relation = Successor := by simpa using ham.2
    obtain ⟨m1, m2, m3⟩ := mem_routeOut.mp ham.1
    refine ⟨a, List.mem_flatMap.mpr ⟨u, hu, ham.1⟩, ?_, m2, h1⟩
    have o1 : hasOneSuccessor (routeOut (original g lc costId) R u) = true := by unfold hasOneSuccessor; rw [ha]; rfl
    have o2 : hasOneSuccessor (routeIn (original g lc costId) R v) = true := by unfold hasOneSuccessor; rw [hb]; rfl
    unfold isDifferentLane
    rw [if_neg (by simpa using hs), h1, m2, o1, o2]
    rfl

/-- C30: the lanes of a route with at most 65536 lanelets. There is a set `S` of lanelets of the routing graph, containing the route, such that two
lanelets of the route have the same lane id iff they are connected by a chain of pairs where one is the only follower of the other on the route
and the other its only predecessor in `S`. -/
theorem route_lanes (hb : Built t g) {r : Route P K} (h : IsRoute t g path lc costId r) (hsize : r.size ≤ 65536) :
    ∃ S : List P, (∀ p ∈ r.members, p ∈ S) ∧ (∀ p ∈ S, p ∈ g.vertices) ∧ ∀ p ∈ r.members, ∀ q ∈ r.members,
      (r.laneOf p = r.laneOf q ↔
        EqvGen (fun a b => a ∈ r.members ∧ r.following a = [b] ∧ (preds g costId b).filter (fun x => decide (x ∈ S)) = [a]) p q) := by
  have wf := built_wf hb
  obtain ⟨vs, R, order, s, f, hr, -⟩ := h.facts wf
  have hfol : ∀ {a : P}, a ∈ r.members → r.following a = (succs g costId a).filter fun x => decide (x ∈ lanelets g R) := by
    intro a ha
    rw [route_following hb h ha]
    unfold Route.members at ha ⊢
    rw [hr] at ha ⊢
    obtain ⟨v, hv, hvp⟩ := f.mem.mp ha
    apply List.filter_congr
    intro x hx
    apply decide_eq_decide.mpr
    unfold succs at hx
    rw [getAllEdges_iff (w := (withoutLaneChanges, [Successor])) hb (by simp [views])] at hx
    obtain ⟨rel, hrel, c, e, h1, h2, h3, h4, h5, -⟩ := hx
    simp only [List.mem_singleton] at hrel
    rw [f.mem, mem_lanelets wf.nodup h3]
    constructor
    · rintro ⟨w, hw, h⟩
      rw [vertex_inj wf.nodup h3 h]
      exact f.order_sub hw
    · intro hR
      refine ⟨e.dst, f.step ((mem_original wf).mpr ⟨h1, h4, by rw [h5, hrel]; exact succ_mem lc⟩) ?_ hR, h3⟩
      rw [vertex_inj wf.nodup h2 hvp]
      exact hv
  have hlen := sees_length f.inv.sees
  refine ⟨lanelets g R, ?_, ?_, ?_⟩
  · intro p hp
    unfold Route.members at hp
    rw [hr] at hp
    obtain ⟨v, hv, hvp⟩ := f.mem.mp hp
    exact (mem_lanelets wf.nodup hvp).mpr (f.order_sub hv)
  · intro p hp
    simp only [lanelets, List.mem_filterMap] at hp
    obtain ⟨v, -, hv⟩ := hp
    exact List.mem_of_getElem? hv
  · intro p hp q hq
    have hp' := hp
    have hq' := hq
    unfold Route.members at hp' hq'
    rw [hr] at hp' hq'
    obtain ⟨u, hu, hup⟩ := f.mem.mp hp'
    obtain ⟨v, hv, hvq⟩ := f.mem.mp hq'
    unfold Route.laneOf
    rw [hr, f.getVertex wf hu hup, f.getVertex wf hv hvq]
    simp only [Option.map_some, Option.some.injEq]
    have hsz : order.length ≤ laneIds := by
      unfold Route.size at hsize
      rw [hr, hlen] at hsize
      exact hsize
    rw [f.inv.lanes hsz u hu v hv]
    have hsame : ∀ {a b : Nat} {x y : P}, g.vertices[a]? = some x → g.vertices[b]? = some y →
        (Same (routeOut (original g lc costId) R) (routeIn (original g lc costId) R) (order.flatMap (routeOut (original g lc costId) R)) a b ↔
          (x ∈ r.members ∧ r.following x = [y] ∧ (preds g costId y).filter (fun z => decide (z ∈ lanelets g R)) = [x])) := by
      intro a b x y ha hb'
      constructor
      · intro hs
        have hao : a ∈ order := by
          obtain ⟨e, he, -, rfl, -⟩ := hs
          exact (f.inv.ends e he).1
        have hx : x ∈ r.members := by
          unfold Route.members; rw [hr]; exact f.mem.mpr ⟨a, hao, ha⟩
        have := (same_iff wf f hao ha hb').mp hs
        exact ⟨hx, by rw [hfol hx]; exact this.1, this.2⟩
      · rintro ⟨hx, h1, h2⟩
        have hx' := hx
        unfold Route.members at hx'
        rw [hr] at hx'
        obtain ⟨w, hw, hwx⟩ := f.mem.mp hx'
        have := vertex_inj wf.nodup ha hwx
        subst this
        rw [hfol hx] at h1
        exact (same_iff wf f hw ha hb').mpr ⟨h1, h2⟩
    constructor
    · intro he
      have key : ∀ {a b : Nat}, EqvGen (Same (routeOut (original g lc costId) R) (routeIn (original g lc costId) R)
          (order.flatMap (routeOut (original g lc costId) R))) a b → ∀ x y, g.vertices[a]? = some x → g.vertices[b]? = some y →
          EqvGen (fun a b => a ∈ r.members ∧ r.following a = [b] ∧ (preds g costId b).filter (fun x => decide (x ∈ lanelets g R)) = [a]) x y := by
        intro a b hab
        induction hab with
        | rel a b hs => intro x y hx hy; exact .rel _ _ ((hsame hx hy).mp hs)
        | refl a => intro x y hx hy; rw [hx] at hy; cases hy; exact .refl _
        | symm a b _ ih => intro x y hx hy; exact (ih y x hy hx).symm
        | trans a b c hab hbc ih1 ih2 =>
          intro x y hx hy
          have hbd := (eqv_isolated (S := (· < g.vertices.length)) (by
            rintro i j ⟨e, he, -, rfl, rfl⟩
            exact ⟨f.inv.bound _ (f.inv.ends e he).1, f.inv.bound _ (f.inv.ends e he).2⟩) hab).1
          have hb1 : b < g.vertices.length := hbd.mp (List.getElem?_eq_some_iff.mp hx).1
          exact (ih1 x _ hx (List.getElem?_eq_getElem hb1)).trans _ _ _ (ih2 _ y (List.getElem?_eq_getElem hb1) hy)
      exact key he p q hup hvq
    · intro he
      have key : ∀ {x y : P}, EqvGen (fun a b => a ∈ r.members ∧ r.following a = [b] ∧
          (preds g costId b).filter (fun x => decide (x ∈ lanelets g R)) = [a]) x y → ∀ a b, g.vertices[a]? = some x → g.vertices[b]? = some y →
          EqvGen (Same (routeOut (original g lc costId) R) (routeIn (original g lc costId) R)
            (order.flatMap (routeOut (original g lc costId) R))) a b := by
        intro x y hxy
        have hmemg : ∀ {x y : P}, EqvGen (fun a b => a ∈ r.members ∧ r.following a = [b] ∧
          (preds g costId b).filter (fun x => decide (x ∈ lanelets g R)) = [a]) x y → (x ∈ g.vertices ↔ y ∈ g.vertices) := by
          intro x y hxy
          have hrel : ∀ a b, (a ∈ r.members ∧ r.following a = [b] ∧ (preds g costId b).filter (fun x => decide (x ∈ lanelets g R)) = [a]) →
              a ∈ g.vertices ∧ b ∈ g.vertices := by
            rintro a b ⟨h1, h2, -⟩
            refine ⟨(route_members hb h).2 a h1, (route_members hb h).2 b ?_⟩
            rw [route_following hb h h1] at h2
            have : b ∈ (succs g costId a).filter fun x => decide (x ∈ r.members) := by rw [h2]; simp
            simpa using (List.mem_filter.mp this).2
          induction hxy with
          | rel a b hs => exact ⟨fun _ => (hrel a b hs).2, fun _ => (hrel a b hs).1⟩
          | refl a => exact Iff.rfl
          | symm a b _ ih => exact ih.symm
          | trans a b c _ _ ih1 ih2 => exact ih1.trans ih2
        induction hxy with
        | rel x y hs => intro a b ha hb'; exact .rel _ _ ((hsame ha hb').mpr hs)
        | refl x => intro a b ha hb'; rw [vertex_inj wf.nodup ha hb']; exact .refl _
        | symm x y _ ih => intro a b ha hb'; exact (ih b a hb' ha).symm
        | trans x y z hxy hyz ih1 ih2 =>
          intro a b ha hb'
          obtain ⟨w, hw⟩ := List.mem_iff_getElem?.mp ((hmemg hxy).mp (List.mem_of_getElem? ha))
          exact (ih1 a w ha hw).trans _ _ _ (ih2 w b hw hb')
      exact key he u v hup hvq

/-- the pairs of lanelets between which a lane goes on: one is the only follower of the other, the other its only predecessor -/
def Route.LaneGoesOn (r : Route P K) (a b : P) : Prop := r.following a = [b] ∧ r.previous b = [a]

/-- C30, first half: lanelets with the same lane id are connected by a lane that goes on from one to the other. -/
theorem route_lanes_sound (hb : Built t g) {r : Route P K} (h : IsRoute t g path lc costId r) (hsize : r.size ≤ 65536) {p q : P}
    (hp : p ∈ r.members) (hq : q ∈ r.members) (heq : r.laneOf p = r.laneOf q) : EqvGen r.LaneGoesOn p q := by
  obtain ⟨S, h1, h2, h3⟩ := route_lanes hb h hsize
  refine ((h3 p hp q hq).mp heq).mono ?_
  rintro a b ⟨ha, k1, k2⟩
  refine ⟨k1, ?_⟩
  have hbm : b ∈ r.members := by
    rw [route_following hb h ha] at k1
    have : b ∈ (succs g costId a).filter fun x => decide (x ∈ r.members) := by rw [k1]; simp
    simpa using (List.mem_filter.mp this).2
  have hpm := route_previous hb h hbm
  have : (preds g costId b).filter (fun x => decide (x ∈ r.members)) = [a] := by
    have e : (preds g costId b).filter (fun x => decide (x ∈ r.members)) =
        ((preds g costId b).filter fun x => decide (x ∈ S)).filter fun x => decide (x ∈ r.members) := by
      rw [List.filter_filter]
      apply List.filter_congr
      intro x _
      by_cases hx : x ∈ r.members
      · simp [hx, h1 x hx]
      · simp [hx]
    rw [e, k2]
    simp [ha]
  rw [this] at hpm
  exact List.perm_singleton.mp hpm

/-- C30, second half, as far as it holds: where a lane goes on and the next lanelet has no other predecessor in the whole routing graph, both have
the same lane id. Missing: the same for lanelets that have further predecessors outside of the route, see `lane_counterexample`. -/
theorem route_lanes_partial (hb : Built t g) {r : Route P K} (h : IsRoute t g path lc costId r) (hsize : r.size ≤ 65536) {p q : P}
    (hp : p ∈ r.members) (hq : q ∈ r.members) (h1 : r.LaneGoesOn p q) (h2 : preds g costId q = [p]) : r.laneOf p = r.laneOf q := by
  obtain ⟨S, k1, k2, k3⟩ := route_lanes hb h hsize
  refine (k3 p hp q hq).mpr (.rel _ _ ⟨hp, h1.1, ?_⟩)
  rw [h2]
  simp [k1 p hp]

end
end Verif.Route
