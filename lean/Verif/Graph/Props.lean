import Verif.Graph.Model

/-!
Properties C26, C27 (and C21, C22 at the level of the routing graph's interface).
-/
set_option linter.unusedSectionVars false
namespace Verif.Graph
open Verif.Search (Cost PickMin GraphOk PathCost AnyWalk)
open RelationType
variable {P K : Type} [DecidableEq P]

/-! ### specification vocabulary -/

/-- the relations that edges of the routing graph have -/
def edgeRelations : List RelationType :=
  [Successor, Left, Right, AdjacentLeft, AdjacentRight, Conflicting, Area]

/-- There is an edge from `p` to `q` of cost module `id` with relation `r` and cost `c`. -/
def HasEdge (g : RGraph P K) (p q : P) (id : Nat) (r : RelationType) (c : K) : Prop :=
  ∃ e ∈ g.edges, g.vertices[e.src]? = some p ∧ g.vertices[e.dst]? = some q ∧ e.info.costId = id ∧
    e.info.relation = r ∧ e.info.routingCost = c

/-- Graphs that can be built with the interface of the container. -/
inductive Built (t : CostTests K) : RGraph P K → Prop where
  | empty (n : Nat) : Built t (.empty n)
  | vertex {g : RGraph P K} (p : P) : Built t g → p ∉ g.vertices → Built t (g.addVertex p)
  | edge {g g' : RGraph P K} (p q : P) (i : EdgeInfo K) : Built t g → i.relation ∈ edgeRelations →
      g.addEdge t p q i = .ok g' → Built t g'

/-- the views and the relations they are documented to contain -/
def views : List (RelationType × List RelationType) :=
  [(withLaneChanges, [Successor, Left, Right]), (withoutLaneChanges, [Successor]),
   (withAreasAndLaneChanges, [Successor, Left, Right, Area]),
   (withAreasWithoutLaneChanges, [Successor, Area]),
   (left, [Left]), (somehowLeft, [Left, AdjacentLeft]), (right, [Right]),
   (somehowRight, [Right, AdjacentRight]), (adjacentLeft, [AdjacentLeft]),
   (adjacentRight, [AdjacentRight]), (conflicting, [Conflicting])]

/-! ### well-formedness -/

/-- what holds for every built graph -/
structure WF (t : CostTests K) (g : RGraph P K) : Prop where
  nodup : g.vertices.Nodup
  src : ∀ e ∈ g.edges, e.src < g.vertices.length
  dst : ∀ e ∈ g.edges, e.dst < g.vertices.length
  fin : ∀ e ∈ g.edges, t.isFinite e.info.routingCost = true
  nonneg : ∀ e ∈ g.edges, t.negative e.info.routingCost = false
  rel : ∀ e ∈ g.edges, e.info.relation ∈ edgeRelations

theorem getVertex_spec {g : RGraph P K} {p : P} {v : Nat} (h : g.getVertex p = some v) :
    v < g.vertices.length ∧ g.vertices[v]? = some p := by
  obtain ⟨h1, h2, -⟩ := List.findIdx?_eq_some_iff_getElem.mp h
  simp only [beq_iff_eq] at h2
  exact ⟨h1, by rw [List.getElem?_eq_getElem h1, h2]⟩

theorem getVertex_isSome {g : RGraph P K} {p : P} (h : p ∈ g.vertices) : ∃ v, g.getVertex p = some v := by
  cases hv : g.getVertex p with
  | some v => exact ⟨v, rfl⟩
  | none =>
    have := List.findIdx?_eq_none_iff.mp hv p h
    simp at this

theorem getVertex_none {g : RGraph P K} {p : P} (h : p ∉ g.vertices) : g.getVertex p = none := by
  apply List.findIdx?_eq_none_iff.mpr
  intro x hx
  simp only [beq_eq_false_iff_ne, ne_eq]
  rintro rfl; exact h hx

theorem getVertex_iff {g : RGraph P K} (hn : g.vertices.Nodup) {p : P} {v : Nat} :
    g.getVertex p = some v ↔ g.vertices[v]? = some p := by
  constructor
  · intro h; exact (getVertex_spec h).2
  · intro h
    obtain ⟨hv, h⟩ := List.getElem?_eq_some_iff.mp h
    obtain ⟨w, hw⟩ := getVertex_isSome (g := g) (p := p) (h ▸ List.getElem_mem hv)
    obtain ⟨hw1, hw2⟩ := getVertex_spec hw
    have : w = v := (List.getElem?_inj hw1 hn).mp (by rw [hw2, List.getElem?_eq_getElem hv, h])
    rw [hw, this]

/-- Everything built through the interface is well-formed; in particular no edge has an infinite or
negative cost. -/
theorem built_wf {t : CostTests K} {g : RGraph P K} (h : Built t g) : WF t g := by
  induction h with
  | empty n => constructor <;> simp [RGraph.empty]
  | vertex p h hp ih =>
    rename_i g
    constructor
    · simp only [RGraph.addVertex, List.nodup_append]
      refine ⟨ih.nodup, by simp, ?_⟩
      intro a ha b hb hab
      simp only [List.mem_singleton] at hb
      subst hb; subst hab; exact hp ha
    · intro e he; have := ih.src e he; simp [RGraph.addVertex]; omega
    · intro e he; have := ih.dst e he; simp [RGraph.addVertex]; omega
    · exact ih.fin
    · exact ih.nonneg
    · exact ih.rel
  | edge p q i h hi heq ih =>
    rename_i g g'
    unfold RGraph.addEdge at heq
    split at heq
    · rename_i u v hu hv
      unfold RGraph.addEdgeV at heq
      split at heq
      · simp only [Except.ok.injEq] at heq; subst heq; exact ih
      · rename_i hf
        split at heq
        · simp at heq
        · rename_i hneg
          simp only [Except.ok.injEq] at heq
          subst heq
          constructor
          · exact ih.nodup
          all_goals
            intro e he
            simp only [List.mem_append, List.mem_singleton] at he
            rcases he with he | rfl
          · exact ih.src e he
          · exact (getVertex_spec hu).1
          · exact ih.dst e he
          · exact (getVertex_spec hv).1
          · exact ih.fin e he
          · simpa using hf
          · exact ih.nonneg e he
          · simpa using hneg
          · exact ih.rel e he
          · exact hi
    · simp only [Except.ok.injEq] at heq; subst heq; exact ih

/-! ### C26 -/

/-- the table of views, evaluated for the seven relations -/
theorem views_table : ∀ w ∈ views, ∀ r ∈ edgeRelations,
    ((w.1 == allRelations || (w.1 &&& r) != 0) = true ↔ r ∈ w.2) := by decide

/-- C26: every view of a built graph contains exactly the edges of the selected cost module with one of the
documented relations. -/
theorem view_exact {t : CostTests K} {g : RGraph P K} (h : Built t g) {w : RelationType × List RelationType}
    (hw : w ∈ views) (costId v : Nat) (e : BaseEdge K) :
    e ∈ g.outEdges costId w.1 v ↔
      e ∈ g.edges ∧ e.src = v ∧ e.info.costId = costId ∧ e.info.relation ∈ w.2 := by
  simp only [RGraph.outEdges, List.mem_filter, Bool.and_eq_true, beq_iff_eq, passes]
  constructor
  · rintro ⟨h1, h2, h3, h4⟩
    exact ⟨h1, h2, h3, (views_table w hw _ ((built_wf h).rel e h1)).mp h4⟩
  · rintro ⟨h1, h2, h3, h4⟩
    exact ⟨h1, h2, h3, (views_table w hw _ ((built_wf h).rel e h1)).mpr h4⟩

theorem view_exact_in {t : CostTests K} {g : RGraph P K} (h : Built t g)
    {w : RelationType × List RelationType} (hw : w ∈ views) (costId v : Nat) (e : BaseEdge K) :
    e ∈ g.inEdges costId w.1 v ↔
      e ∈ g.edges ∧ e.dst = v ∧ e.info.costId = costId ∧ e.info.relation ∈ w.2 := by
  simp only [RGraph.inEdges, List.mem_filter, Bool.and_eq_true, beq_iff_eq, passes]
  constructor
  · rintro ⟨h1, h2, h3, h4⟩
    exact ⟨h1, h2, h3, (views_table w hw _ ((built_wf h).rel e h1)).mp h4⟩
  · rintro ⟨h1, h2, h3, h4⟩
    exact ⟨h1, h2, h3, (views_table w hw _ ((built_wf h).rel e h1)).mpr h4⟩

/-- edges found from a primitive -/
theorem getAllEdges_iff {t : CostTests K} {g : RGraph P K} (h : Built t g)
    {w : RelationType × List RelationType} (hw : w ∈ views) (costId : Nat) (p q : P) (out : Bool) :
    q ∈ g.getAllEdges costId w.1 p out ↔
      ∃ r ∈ w.2, ∃ c, if out then HasEdge g p q costId r c else HasEdge g q p costId r c := by
  have wf := built_wf h
  unfold RGraph.getAllEdges
  cases hv : g.getVertex p with
  | none =>
    simp only [List.not_mem_nil, false_iff]
    rintro ⟨r, -, c, hc⟩
    cases out
    all_goals
      simp only [Bool.false_eq_true, if_false, if_true, HasEdge] at hc
      obtain ⟨e, -, h1, h2, -⟩ := hc
    · rw [(getVertex_iff wf.nodup).mpr h2] at hv; simp at hv
    · rw [(getVertex_iff wf.nodup).mpr h1] at hv; simp at hv
  | some v =>
    have hv' := (getVertex_iff wf.nodup).mp hv
    cases out with
    | true =>
      simp only [if_true, List.mem_filterMap, view_exact h hw]
      constructor
      · rintro ⟨e, ⟨h1, h2, h3, h4⟩, h5⟩
        exact ⟨_, h4, _, e, h1, by rw [h2]; exact hv', h5, h3, rfl, rfl⟩
      · rintro ⟨r, hr, c, e, h1, h2, h3, h4, h5, -⟩
        refine ⟨e, ⟨h1, ?_, h4, by rw [h5]; exact hr⟩, h3⟩
        have := (getVertex_iff wf.nodup).mpr h2
        rw [hv] at this
        exact (Option.some.inj this).symm
    | false =>
      simp only [Bool.false_eq_true, if_false, List.mem_filterMap, view_exact_in h hw]
      constructor
      · rintro ⟨e, ⟨h1, h2, h3, h4⟩, h5⟩
        exact ⟨_, h4, _, e, h1, h5, by rw [h2]; exact hv', h3, rfl, rfl⟩
      · rintro ⟨r, hr, c, e, h1, h2, h3, h4, h5, -⟩
        refine ⟨e, ⟨h1, ?_, h4, by rw [h5]; exact hr⟩, h2⟩
        have := (getVertex_iff wf.nodup).mpr h3
        rw [hv] at this
        exact (Option.some.inj this).symm

/-- the relations of `following`/`previous` -/
def followRelations (lc : Bool) : List RelationType := if lc then [Successor, Left, Right] else [Successor]

/-- C26: `following` reports exactly the lanelets behind a Successor edge (or, with lane changes, also a
Left or Right edge) of the first cost module, never a conflicting one. -/
theorem following_exact {t : CostTests K} {g : RGraph P K} (h : Built t g) (isLanelet : P → Bool)
    (p q : P) (lc : Bool) :
    q ∈ g.following isLanelet p lc ↔
      isLanelet q = true ∧ ∃ r ∈ followRelations lc, ∃ c, HasEdge g p q 0 r c := by
  unfold RGraph.following RGraph.getLaneletEdges
  rw [List.mem_filter, and_comm]
  apply and_congr_right
  intro _
  cases lc with
  | true =>
    have := getAllEdges_iff h (w := (withLaneChanges, [Successor, Left, Right])) (by simp [views]) 0 p q true
    simpa [followRelations] using this
  | false =>
    have := getAllEdges_iff h (w := (withoutLaneChanges, [Successor])) (by simp [views]) 0 p q true
    simpa [followRelations] using this

/-- C26: the same for `previous`. -/
theorem previous_exact {t : CostTests K} {g : RGraph P K} (h : Built t g) (isLanelet : P → Bool)
    (p q : P) (lc : Bool) :
    q ∈ g.previous isLanelet p lc ↔
      isLanelet q = true ∧ ∃ r ∈ followRelations lc, ∃ c, HasEdge g q p 0 r c := by
  unfold RGraph.previous RGraph.getLaneletEdges
  rw [List.mem_filter, and_comm]
  apply and_congr_right
  intro _
  cases lc with
  | true =>
    have := getAllEdges_iff h (w := (withLaneChanges, [Successor, Left, Right])) (by simp [views]) 0 p q false
    simpa [followRelations] using this
  | false =>
    have := getAllEdges_iff h (w := (withoutLaneChanges, [Successor])) (by simp [views]) 0 p q false
    simpa [followRelations] using this

/-- C26: `previous` is the inverse of `following`. -/
theorem previous_iff_following {t : CostTests K} {g : RGraph P K} (h : Built t g) (isLanelet : P → Bool)
    (p q : P) (lc : Bool) (hp : isLanelet p = true) (hq : isLanelet q = true) :
    q ∈ g.previous isLanelet p lc ↔ p ∈ g.following isLanelet q lc := by
  rw [previous_exact h, following_exact h]; simp [hp, hq]

/-- C26: `conflicting` reports exactly the primitives behind a Conflicting edge. -/
theorem conflicting_exact {t : CostTests K} {g : RGraph P K} (h : Built t g) (p q : P) :
    q ∈ g.conflictingOf p ↔ ∃ c, HasEdge g p q 0 Conflicting c := by
  have := getAllEdges_iff h (w := (conflicting, [Conflicting])) (by simp [views]) 0 p q true
  simpa [RGraph.conflictingOf] using this

/-- C26: a reported relation is one that an edge of the graph has, whatever is asked for. -/
theorem routingRelation_sound {t : CostTests K} {g : RGraph P K} (h : Built t g) {p q : P} {b : Bool}
    {r : RelationType} (hr : g.routingRelation p q b = some r) : ∃ id c, HasEdge g p q id r c := by
  have wf := built_wf h
  have key : ∀ u v e, g.getVertex p = some u → g.getVertex q = some v → g.firstEdge u v = some e →
      e.info.relation = r → ∃ id c, HasEdge g p q id r c := by
    intro u v e hu hv he hr
    have h1 := List.mem_of_find?_eq_some he
    have h2 := List.find?_some he
    simp only [Bool.and_eq_true, beq_iff_eq] at h2
    exact ⟨_, _, e, h1, by rw [h2.1]; exact (getVertex_iff wf.nodup).mp hu,
      by rw [h2.2]; exact (getVertex_iff wf.nodup).mp hv, rfl, hr, rfl⟩
  cases b with
  | true =>
    simp only [RGraph.routingRelation, if_true, RGraph.getEdgeInfo] at hr
    split at hr
    · rename_i u v hu hv
      cases he : g.firstEdge u v with
      | none => rw [he] at hr; simp at hr
      | some e => rw [he] at hr; simp at hr; exact key u v e hu hv he hr
    · simp at hr
  | false =>
    simp only [RGraph.routingRelation, Bool.false_eq_true, if_false, RGraph.getEdgeInfoFor] at hr
    split at hr
    · rename_i u v hu hv
      cases he : g.firstEdge u v with
      | none => rw [he] at hr; simp at hr
      | some e =>
        rw [he] at hr
        simp only at hr
        split at hr
        · simp at hr; exact key u v e hu hv he hr
        · simp at hr
    · simp at hr

/-- C26: with `includeConflicting = true` a relation is reported iff there is an edge of any relation and
cost module. -/
theorem routingRelation_true_iff {t : CostTests K} {g : RGraph P K} (h : Built t g) (p q : P) :
    (∃ r, g.routingRelation p q true = some r) ↔ ∃ id r c, HasEdge g p q id r c := by
  have wf := built_wf h
  constructor
  · rintro ⟨r, hr⟩
    obtain ⟨id, c, hc⟩ := routingRelation_sound h hr
    exact ⟨id, r, c, hc⟩
  · rintro ⟨id, r, c, e, h1, h2, h3, -⟩
    simp only [RGraph.routingRelation, if_true, RGraph.getEdgeInfo,
      (getVertex_iff wf.nodup).mpr h2, (getVertex_iff wf.nodup).mpr h3]
    cases he : g.firstEdge e.src e.dst with
    | some e' => exact ⟨_, rfl⟩
    | none =>
      have := List.find?_eq_none.mp he e h1
      simp at this

/-- The relation types that the filter of `withoutConflicting` lets pass: all of them. -/
theorem withoutConflicting_passes (costId : Nat) (i : EdgeInfo K) (hr : i.relation ∈ edgeRelations) :
    passes costId withoutConflicting i = true ↔ i.costId = costId := by
  have : ∀ r ∈ edgeRelations, (withoutConflicting == allRelations || (withoutConflicting &&& r) != 0) = true := by
    decide
  simp only [passes, this _ hr, Bool.and_true, beq_iff_eq]

/-- Disagreement with C26: `routingRelation(from, to, includeConflicting = false)` does report the
conflicting relation. In every built graph whose first edge between the two lanelets is a conflicting one
of cost module 0, `Conflicting` is the answer. -/
theorem routingRelation_reports_conflicting {t : CostTests K} {g : RGraph P K} (h : Built t g) (p q : P)
    (pre post : List (BaseEdge K)) (e : BaseEdge K) (hg : g.edges = pre ++ e :: post)
    (h1 : g.vertices[e.src]? = some p) (h2 : g.vertices[e.dst]? = some q) (h3 : e.info.costId = 0)
    (h4 : e.info.relation = Conflicting)
    (hpre : ∀ x ∈ pre, ¬(x.src = e.src ∧ x.dst = e.dst)) :
    g.routingRelation p q false = some Conflicting := by
  have wf := built_wf h
  simp only [RGraph.routingRelation, Bool.false_eq_true, if_false, RGraph.getEdgeInfoFor,
    (getVertex_iff wf.nodup).mpr h1, (getVertex_iff wf.nodup).mpr h2]
  have hf : g.firstEdge e.src e.dst = some e := by
    unfold RGraph.firstEdge
    rw [hg, List.find?_append]
    have : pre.find? (fun x => x.src == e.src && x.dst == e.dst) = none := by
      rw [List.find?_eq_none]
      intro x hx
      have := hpre x hx
      simpa using this
    rw [this]
    simp
  rw [hf]
  simp only
  rw [if_pos]
  · simp [h4]
  · rw [withoutConflicting_passes 0 e.info (by rw [h4]; decide)]; exact h3

/-- cost tests for natural numbers: all finite, none negative -/
def natTests : CostTests Nat := ⟨fun _ => true, fun _ => false⟩

/-- two lanelets with a conflicting edge in both directions -/
def exConflict : RGraph Nat Nat :=
  ⟨1, [10, 20], [⟨0, 1, ⟨1, 0, Conflicting⟩⟩, ⟨1, 0, ⟨1, 0, Conflicting⟩⟩]⟩

theorem exConflict_built : Built natTests exConflict := by
  have h0 : Built natTests (RGraph.empty 1 : RGraph Nat Nat) := .empty 1
  have h1 := h0.vertex 10 (by decide)
  have h2 := h1.vertex 20 (by decide)
  have h3 : Built natTests (⟨1, [10, 20], [⟨0, 1, ⟨1, 0, Conflicting⟩⟩]⟩ : RGraph Nat Nat) :=
    h2.edge 10 20 ⟨1, 0, Conflicting⟩ (by decide) rfl
  exact h3.edge 20 10 ⟨1, 0, Conflicting⟩ (by decide) rfl

/-- C26 is violated: `includeConflicting = false` still reports Conflicting. -/
theorem routingRelation_conflicting_counterexample :
    Built natTests exConflict ∧ exConflict.routingRelation 10 20 false = some Conflicting := by
  exact ⟨exConflict_built, by decide⟩

/-- C26, the part of `routingRelation` that holds: if all edges between two lanelets are of cost module 0
and have the same relation, that relation is reported. Missing: conflicting relations are not filtered
(see `routingRelation_conflicting_counterexample`), and only the first edge is considered. -/
theorem routingRelation_partial {t : CostTests K} {g : RGraph P K} (h : Built t g) (p q : P)
    (r : RelationType) (b : Bool) (hex : ∃ id c, HasEdge g p q id r c)
    (hall : ∀ id r' c, HasEdge g p q id r' c → id = 0 ∧ r' = r) :
    g.routingRelation p q b = some r := by
  have wf := built_wf h
  obtain ⟨id, c, e, h1, h2, h3, h4, h5, -⟩ := hex
  have hu := (getVertex_iff wf.nodup).mpr h2
  have hv := (getVertex_iff wf.nodup).mpr h3
  cases he : g.firstEdge e.src e.dst with
  | none =>
    have := List.find?_eq_none.mp he e h1
    simp at this
  | some e' =>
    have hm := List.mem_of_find?_eq_some he
    have hs := List.find?_some he
    simp only [Bool.and_eq_true, beq_iff_eq] at hs
    have := hall _ _ _ ⟨e', hm, by rw [hs.1]; exact h2, by rw [hs.2]; exact h3, rfl, rfl, rfl⟩
    cases b with
    | true => simp [RGraph.routingRelation, RGraph.getEdgeInfo, hu, hv, he, this.2]
    | false =>
      have hp : passes 0 withoutConflicting e'.info = true := by
        rw [withoutConflicting_passes 0 e'.info (wf.rel e' hm)]; exact this.1
      simp [RGraph.routingRelation, RGraph.getEdgeInfoFor, hu, hv, he, this.2, hp]

/-- Case for the theorems above. -/
example : exConflict.routingRelation 20 10 true = some Conflicting :=
  routingRelation_partial exConflict_built 20 10 Conflicting true
    ⟨0, 1, ⟨1, 0, ⟨1, 0, Conflicting⟩⟩, by decide, rfl, rfl, rfl, rfl, rfl⟩ (by
      rintro id r' c ⟨e, he, -, -, h4, h5, -⟩
      simp only [exConflict, List.mem_cons, List.not_mem_nil, or_false] at he
      rcases he with rfl | rfl <;> exact ⟨h4.symm, h5.symm⟩)

/-- C26, the part of `followingRelations` and `previousRelations` that holds: if all edges between two lanelets are of cost module 0 and
have the same relation, both name exactly the lanelets reported by `following` and `previous`, each with its relation, and
`followingRelations` does not fail. Missing: as for `routingRelation_partial`. -/
theorem relations_partial {t : CostTests K} {g : RGraph P K} (h : Built t g) (isLanelet : P → Bool) (p : P) (lc : Bool)
    (hall : ∀ a b id id' r r' c c', HasEdge g a b id r c → HasEdge g a b id' r' c' → id = 0 ∧ r = r') :
    (∃ l, g.followingRelations isLanelet p lc = some l ∧ l.map (·.1) = g.following isLanelet p lc ∧
      ∀ q r, (q, r) ∈ l ↔ isLanelet q = true ∧ r ∈ followRelations lc ∧ ∃ c, HasEdge g p q 0 r c) ∧
    ((g.previousRelations isLanelet p lc).map (·.1) = g.previous isLanelet p lc ∧
      ∀ q r, (q, r) ∈ g.previousRelations isLanelet p lc ↔
        isLanelet q = true ∧ r ∈ followRelations lc ∧ ∃ c, HasEdge g q p 0 r c) := by
  have rel : ∀ a b id r c, HasEdge g a b id r c → g.routingRelation a b false = some r := fun a b id r c he =>
    routingRelation_partial h a b r false ⟨id, c, he⟩ fun id' r' c' he' =>
      ⟨(hall a b id' id r' r c' c he' he).1, (hall a b id' id r' r c' c he' he).2⟩
  have all : ∀ (l : List P) (f : P → Option RelationType), (∀ q ∈ l, (f q).isSome) →
      ∃ l', Search.allSome (l.map fun q => (f q).map fun r => (q, r)) = some l' ∧ l'.map (·.1) = l ∧
        ∀ q r, (q, r) ∈ l' ↔ q ∈ l ∧ f q = some r := by
    intro l f hl
    induction l with
    | nil => exact ⟨[], rfl, rfl, by simp⟩
    | cons q l ih =>
      obtain ⟨l', h1, h2, h3⟩ := ih fun q hq => hl q (List.mem_cons_of_mem _ hq)
      obtain ⟨r, hr⟩ := Option.isSome_iff_exists.mp (hl q (by simp))
      refine ⟨(q, r) :: l', ?_, ?_, ?_⟩
      · simp [Search.allSome, hr, h1]
      · simp [h2]
      · intro q' r'
        simp only [List.mem_cons, Prod.mk.injEq, h3]
        constructor
        · rintro (⟨rfl, rfl⟩ | ⟨h4, h5⟩)
          · exact ⟨Or.inl rfl, hr⟩
          · exact ⟨Or.inr h4, h5⟩
        · rintro ⟨rfl | h4, h5⟩
          · rw [hr] at h5; exact Or.inl ⟨rfl, (Option.some.inj h5).symm⟩
          · exact Or.inr ⟨h4, h5⟩
  constructor
  · obtain ⟨l, h1, h2, h3⟩ := all (g.following isLanelet p lc) (fun q => g.routingRelation p q false) fun q hq => by
      obtain ⟨-, r, -, c, he⟩ := (following_exact h isLanelet p q lc).mp hq
      rw [rel _ _ _ _ _ he]; rfl
    refine ⟨l, h1, h2, fun q r => ?_⟩
    rw [h3, following_exact h]
    constructor
    · rintro ⟨⟨hq, r', hr', c, he⟩, hr⟩
      rw [rel _ _ _ _ _ he] at hr
      cases hr
      exact ⟨hq, hr', c, he⟩
    · rintro ⟨hq, hr, c, he⟩
      exact ⟨⟨hq, r, hr, c, he⟩, rel _ _ _ _ _ he⟩
  · have hp : ∀ l : List P, (∀ q ∈ l, (g.routingRelation q p false).isSome) →
        (l.filterMap fun q => (g.routingRelation q p false).map fun r => (q, r)).map (·.1) = l := by
      intro l hl
      induction l with
      | nil => rfl
      | cons q l ih =>
        obtain ⟨r, hr⟩ := Option.isSome_iff_exists.mp (hl q (by simp))
        simp only [List.filterMap_cons, hr, Option.map_some, List.map_cons]
        rw [ih fun q hq => hl q (List.mem_cons_of_mem _ hq)]
    refine ⟨hp _ fun q hq => ?_, fun q r => ?_⟩
    · obtain ⟨-, r, -, c, he⟩ := (previous_exact h isLanelet p q lc).mp hq
      rw [rel _ _ _ _ _ he]; rfl
    · simp only [RGraph.previousRelations, List.mem_filterMap, Option.map_eq_some_iff, previous_exact h]
      constructor
      · rintro ⟨q', ⟨hq, r', hr', c, he⟩, r'', hr, h1⟩
        cases h1
        rw [rel _ _ _ _ _ he] at hr
        cases hr
        exact ⟨hq, hr', c, he⟩
      · rintro ⟨hq, hr, c, he⟩
        exact ⟨q, ⟨hq, r, hr, c, he⟩, r, rel _ _ _ _ _ he, rfl⟩

/-! ### C27 -/

/-- `l` are the elements reached from `v` by following `next` until it ends. -/
inductive Chain {α : Type} (next : α → Option α) : α → List α → Prop where
  | nil {v : α} : next v = none → Chain next v []
  | cons {v w : α} {l : List α} : next v = some w → Chain next w l → Chain next v (w :: l)

/-- C27: `lefts`, `rights`, `adjacentLefts` and `adjacentRights` list the neighbours found by repeated
single-step queries, in this order, up to the last one; they return a result exactly if this ends. -/
theorem untilEnd_iff {α : Type} (next : α → Option α) (v : α) (l : List α) :
    untilEnd next v = some l ↔ Chain next v l := by
  constructor
  · intro h
    have := untilEnd.partial_correctness (motive := fun v l => Chain next v l) next ?_ v l h
    · exact this
    · intro f ih v l hl
      split at hl
      · rename_i hn
        simp only [Option.some.injEq] at hl
        subst hl; exact .nil hn
      · rename_i w hn
        cases hw : f w with
        | none => rw [hw] at hl; simp at hl
        | some l' =>
          rw [hw] at hl
          simp only [Option.pure_def, Option.bind_eq_bind, Option.bind_some, Option.some.injEq] at hl
          subst hl
          exact .cons hn (ih w l' hw)
  · intro h
    induction h with
    | nil hn => rw [untilEnd, hn]
    | cons hn h ih => rw [untilEnd, hn]; simp [ih]

/-- C27: the queries terminate if the neighbour relation has no infinite chain. -/
theorem untilEnd_terminates {α : Type} (next : α → Option α) (rank : α → Nat)
    (hr : ∀ v w, next v = some w → rank w < rank v) (v : α) : ∃ l, untilEnd next v = some l := by
  suffices ∀ n v, rank v ≤ n → ∃ l, Chain next v l by
    obtain ⟨l, hl⟩ := this (rank v) v (Nat.le_refl _)
    exact ⟨l, (untilEnd_iff next v l).mpr hl⟩
  intro n
  induction n with
  | zero =>
    intro v hv
    cases hn : next v with
    | none => exact ⟨[], .nil hn⟩
    | some w => have := hr v w hn; omega
  | succ n ih =>
    intro v hv
    cases hn : next v with
    | none => exact ⟨[], .nil hn⟩
    | some w =>
      obtain ⟨l, hl⟩ := ih w (by have := hr v w hn; omega)
      exact ⟨w :: l, .cons hn hl⟩

/-- C27, the other direction: on a cycle of left (right) neighbours the queries never return. -/
theorem untilEnd_cycle {α : Type} (next : α → Option α) (S : α → Prop)
    (hS : ∀ v, S v → ∃ w, next v = some w ∧ S w) (v : α) (hv : S v) : untilEnd next v = none := by
  cases h : untilEnd next v with
  | none => rfl
  | some l =>
    exfalso
    have := (untilEnd_iff next v l).mp h
    clear h
    induction this with
    | nil hn => obtain ⟨w, hw, -⟩ := hS _ hv; rw [hn] at hw; simp at hw
    | cons hn h ih =>
      obtain ⟨w', hw, hs⟩ := hS _ hv
      rw [hn] at hw
      have := Option.some.inj hw
      subst this
      exact ih hs

/-- Disagreement: a roundabout with two lanelets that are left of each other makes `lefts` (and `besides`)
loop forever. -/
theorem lefts_loops_counterexample :
    (⟨1, [10, 20], [⟨0, 1, ⟨1, 0, Left⟩⟩, ⟨1, 0, ⟨1, 0, Left⟩⟩]⟩ : RGraph Nat Nat).neighbours
      (fun _ => true) 0 left 10 = none := by
  apply untilEnd_cycle _ (fun v => v = 10 ∨ v = 20)
  · rintro v (rfl | rfl)
    · exact ⟨20, by decide, Or.inr rfl⟩
    · exact ⟨10, by decide, Or.inl rfl⟩
  · left; rfl

/-- C27: `besides` is the list of all left neighbours from the outermost one, then the lanelet itself, then
the right neighbours. -/
theorem besides_iff (g : RGraph P K) (isLanelet : P → Bool) (costId : Nat) (p : P) (r : List P) :
    g.besides isLanelet costId p = some r ↔
      ∃ ls rs, Chain (g.neighbour isLanelet costId left) p ls ∧
        Chain (g.neighbour isLanelet costId right) p rs ∧ r = ls.reverse ++ [p] ++ rs := by
  unfold RGraph.besides RGraph.neighbours
  constructor
  · intro h
    cases hl : untilEnd (g.neighbour isLanelet costId left) p with
    | none => rw [hl] at h; simp at h
    | some ls =>
      cases hr : untilEnd (g.neighbour isLanelet costId right) p with
      | none => rw [hl, hr] at h; simp at h
      | some rs =>
        rw [hl, hr] at h
        simp only [Option.pure_def, Option.bind_eq_bind, Option.bind_some, Option.some.injEq] at h
        exact ⟨ls, rs, (untilEnd_iff _ _ _).mp hl, (untilEnd_iff _ _ _).mp hr, h.symm⟩
  · rintro ⟨ls, rs, h1, h2, rfl⟩
    rw [(untilEnd_iff _ _ _).mpr h1, (untilEnd_iff _ _ _).mpr h2]
    simp

/-- C27: a single-step neighbour is the first edge of the relation and cost module. -/
theorem neighbour_iff {t : CostTests K} {g : RGraph P K} (h : Built t g) (isLanelet : P → Bool)
    {w : RelationType × List RelationType} (hw : w ∈ views) (costId : Nat) (p q : P)
    (hq : g.neighbour isLanelet costId w.1 p = some q) :
    isLanelet q = true ∧ ∃ r ∈ w.2, ∃ c, HasEdge g p q costId r c := by
  have wf := built_wf h
  unfold RGraph.neighbour at hq
  split at hq
  · simp at hq
  · rename_i v hv
    split at hq
    · simp at hq
    · rename_i e es he
      have hm := (view_exact h hw costId v e).mp (by rw [he]; simp)
      split at hq
      · rename_i q' hq'
        split at hq
        · rename_i hl
          simp only [Option.some.injEq] at hq
          subst hq
          exact ⟨hl, _, hm.2.2.2, _, e, hm.1, by rw [hm.2.1]; exact (getVertex_iff wf.nodup).mp hv, hq',
            hm.2.2.1, rfl, rfl⟩
        · simp at hq
      · simp at hq

/-- C27: and if all edges of the relation lead to lanelets, a neighbour is found iff there is such an edge. -/
theorem neighbour_none_iff {t : CostTests K} {g : RGraph P K} (h : Built t g) (isLanelet : P → Bool)
    {w : RelationType × List RelationType} (hw : w ∈ views) (costId : Nat) (p : P)
    (hl : ∀ q r c, r ∈ w.2 → HasEdge g p q costId r c → isLanelet q = true) :
    g.neighbour isLanelet costId w.1 p = none ↔
      ∀ q r c, r ∈ w.2 → ¬ HasEdge g p q costId r c := by
  have wf := built_wf h
  constructor
  · rintro hn q r c hr ⟨e, h1, h2, h3, h4, h5, h6⟩
    have hv := (getVertex_iff wf.nodup).mpr h2
    have hm := (view_exact h hw costId e.src e).mpr ⟨h1, rfl, h4, by rw [h5]; exact hr⟩
    simp only [RGraph.neighbour, hv] at hn
    split at hn
    · rename_i he; rw [he] at hm; simp at hm
    · rename_i e' es he
      have hm' := (view_exact h hw costId e.src e').mp (by rw [he]; simp)
      have hd := wf.dst e' hm'.1
      rw [List.getElem?_eq_getElem hd] at hn
      simp only at hn
      have := hl _ _ _ hm'.2.2.2 ⟨e', hm'.1, by rw [hm'.2.1]; exact h2, List.getElem?_eq_getElem hd,
        hm'.2.2.1, rfl, rfl⟩
      rw [if_pos this] at hn
      simp at hn
  · intro hn
    cases hq : g.neighbour isLanelet costId w.1 p with
    | none => rfl
    | some q =>
      obtain ⟨-, r, hr, c, hc⟩ := neighbour_iff h isLanelet hw costId p q hq
      exact absurd hc (hn q r c hr)

theorem Chain.last {α : Type} {next : α → Option α} {v : α} {l : List α} (h : Chain next v l) :
    next (l.getLast?.getD v) = none := by
  induction h with
  | nil hn => simpa using hn
  | cons hn h ih =>
    rename_i v w l
    cases l with
    | nil => simpa using ih
    | cons a l =>
      rw [List.getLast?_cons_cons]
      have : (a :: l).getLast?.getD v = (a :: l).getLast?.getD w := by
        rw [List.getLast?_eq_some_getLast (by simp)]; rfl
      rw [this]; exact ih

/-- The single-step neighbour together with its kind: the first kind if there is one, else the second. -/
def stepEither {α : Type} (nextA nextB : α → Option α) (a b : RelationType) (v : α) :
    Option (α × RelationType) :=
  match nextA v with
  | some w => some (w, a)
  | none => (nextB v).map (·, b)

/-- Maximal chain of neighbours of either kind. -/
inductive ChainR {α : Type} (step : α → Option (α × RelationType)) : α → List (α × RelationType) → Prop where
  | nil {v : α} : step v = none → ChainR step v []
  | cons {v w : α} {r : RelationType} {l : List (α × RelationType)} : step v = some (w, r) →
      ChainR step w l → ChainR step v ((w, r) :: l)

theorem ChainR.prepend {α : Type} {step : α → Option (α × RelationType)} {next : α → Option α}
    {a : RelationType} (hstep : ∀ v w, next v = some w → step v = some (w, a)) {v : α} {l : List α}
    (h : Chain next v l) {rest : List (α × RelationType)} (hr : ChainR step (l.getLast?.getD v) rest) :
    ChainR step v (l.map (·, a) ++ rest) := by
  induction h with
  | nil hn => simpa using hr
  | cons hn h ih =>
    rename_i v w l
    refine .cons (hstep _ _ hn) (ih ?_)
    cases l with
    | nil => simpa using hr
    | cons b l =>
      rw [List.getLast?_cons_cons] at hr
      have : (b :: l).getLast?.getD v = (b :: l).getLast?.getD w := by
        rw [List.getLast?_eq_some_getLast (by simp)]; rfl
      rw [← this]; exact hr

/-- C27: if no lanelet has neighbours of both kinds, `leftRelations`/`rightRelations` list all neighbours
of either kind up to the outermost one, each with its kind. -/
theorem relations_spec {α : Type} (nextA nextB : α → Option α) (a b : RelationType)
    (hx : ∀ v, nextA v = none ∨ nextB v = none) (v : α) (l : List (α × RelationType))
    (h : relations nextA nextB a b v = some l) :
    ChainR (stepEither nextA nextB a b) v l := by
  refine relations.partial_correctness nextA nextB a b
    (motive := fun v l => ChainR (stepEither nextA nextB a b) v l) ?_ v l h
  intro f ih v l hl
  cases h1 : untilEnd nextA v with
  | none => rw [h1] at hl; simp at hl
  | some as =>
    rw [h1] at hl
    simp only [Option.bind_eq_bind, Option.bind_some] at hl
    have c1 := (untilEnd_iff _ _ _).mp h1
    cases h2 : untilEnd nextB (as.getLast?.getD v) with
    | none => rw [h2] at hl; simp at hl
    | some bs =>
      rw [h2] at hl
      simp only [Option.bind_some] at hl
      have c2 := (untilEnd_iff _ _ _).mp h2
      have sA : ∀ v w, nextA v = some w → stepEither nextA nextB a b v = some (w, a) := by
        intro v w hvw; simp [stepEither, hvw]
      have sB : ∀ v w, nextB v = some w → stepEither nextA nextB a b v = some (w, b) := by
        intro v w hvw
        have : nextA v = none := (hx v).resolve_right (by rw [hvw]; simp)
        simp [stepEither, this, hvw]
      split at hl
      · rename_i hemp
        simp only [Option.some.injEq] at hl
        subst hl
        simp only [List.isEmpty_iff] at hemp
        obtain ⟨rfl, rfl⟩ := hemp
        refine .nil ?_
        have e1 := c1.last
        have e2 := c2.last
        simp only [List.getLast?_nil, Option.getD_none] at e1 e2
        simp [stepEither, e1, e2]
      · cases h3 : f (bs.getLast?.getD (as.getLast?.getD v)) with
        | none => rw [h3] at hl; simp at hl
        | some rest =>
          rw [h3] at hl
          simp only [Option.pure_def, Option.bind_some, Option.some.injEq] at hl
          subst hl
          rw [List.append_assoc]
          exact ChainR.prepend sA c1 (ChainR.prepend sB c2 (ih _ _ h3))

/-- C27: and they return if there is no infinite chain of neighbours. -/
theorem relations_terminates {α : Type} (nextA nextB : α → Option α) (a b : RelationType)
    (rank : α → Nat) (hA : ∀ v w, nextA v = some w → rank w < rank v)
    (hB : ∀ v w, nextB v = some w → rank w < rank v) (v : α) :
    ∃ l, relations nextA nextB a b v = some l := by
  have chainRank : ∀ {next : α → Option α}, (∀ v w, next v = some w → rank w < rank v) →
      ∀ {v l}, Chain next v l → rank (l.getLast?.getD v) + l.length ≤ rank v := by
    intro next hn v l h
    induction h with
    | nil => simp
    | cons hvw h ih =>
      rename_i v w l
      have h1 := hn _ _ hvw
      cases l with
      | nil => simp at ih ⊢; omega
      | cons b l =>
        rw [List.getLast?_cons_cons]
        have : (b :: l).getLast?.getD v = (b :: l).getLast?.getD w := by
          rw [List.getLast?_eq_some_getLast (by simp)]; rfl
        rw [this]
        simp only [List.length_cons] at ih ⊢
        omega
  suffices ∀ n v, rank v ≤ n → ∃ l, relations nextA nextB a b v = some l from
    this (rank v) v (Nat.le_refl _)
  intro n
  induction n with
  | zero =>
    intro v hv
    have e1 : nextA v = none := by
      cases h : nextA v with
      | none => rfl
      | some w => have := hA v w h; omega
    have e2 : nextB v = none := by
      cases h : nextB v with
      | none => rfl
      | some w => have := hB v w h; omega
    rw [relations, (untilEnd_iff nextA v []).mpr (.nil e1)]
    simp only [Option.bind_eq_bind, Option.bind_some, List.getLast?_nil, Option.getD_none]
    rw [(untilEnd_iff nextB v []).mpr (.nil e2)]
    exact ⟨[], by simp⟩
  | succ n ih =>
    intro v hv
    obtain ⟨as, h1⟩ := untilEnd_terminates nextA rank hA v
    obtain ⟨bs, h2⟩ := untilEnd_terminates nextB rank hB (as.getLast?.getD v)
    have r1 := chainRank hA ((untilEnd_iff _ _ _).mp h1)
    have r2 := chainRank hB ((untilEnd_iff _ _ _).mp h2)
    rw [relations, h1]
    simp only [Option.bind_eq_bind, Option.bind_some]
    rw [h2]
    simp only [Option.bind_some]
    split
    · exact ⟨[], rfl⟩
    · rename_i hne
      have : 0 < as.length + bs.length := by
        cases as with
        | cons => simp only [List.length_cons]; omega
        | nil =>
          cases bs with
          | cons => simp
          | nil => simp at hne
      obtain ⟨rest, h3⟩ := ih (bs.getLast?.getD (as.getLast?.getD v)) (by omega)
      rw [h3]
      exact ⟨_, rfl⟩

/-- three lanes: 10 is left of 20, 30 adjacent right of 20 -/
def exLanes : RGraph Nat Nat :=
  ⟨1, [10, 20, 30], [⟨1, 0, ⟨1, 0, Left⟩⟩, ⟨0, 1, ⟨1, 0, Right⟩⟩, ⟨1, 2, ⟨1, 0, AdjacentRight⟩⟩,
    ⟨2, 1, ⟨1, 0, AdjacentLeft⟩⟩]⟩

/-- Case: all lanelets left of 30 are 20 (adjacent) and 10 (by lane change). -/
example : exLanes.leftRelations (fun _ => true) 0 30 = some [(20, AdjacentLeft), (10, Left)] := by
  have hA : ∀ v, exLanes.neighbour (fun _ => true) 0 left v = if v = 20 then some 10 else none := by
    intro v
    by_cases h1 : v = 10
    · subst h1; decide
    by_cases h2 : v = 20
    · subst h2; decide
    by_cases h3 : v = 30
    · subst h3; decide
    · have : exLanes.getVertex v = none := getVertex_none (by simp [exLanes, h1, h2, h3])
      simp [RGraph.neighbour, this, h2]
  have hB : ∀ v, exLanes.neighbour (fun _ => true) 0 adjacentLeft v =
      if v = 30 then some 20 else none := by
    intro v
    by_cases h1 : v = 10
    · subst h1; decide
    by_cases h2 : v = 20
    · subst h2; decide
    by_cases h3 : v = 30
    · subst h3; decide
    · have : exLanes.getVertex v = none := getVertex_none (by simp [exLanes, h1, h2, h3])
      simp [RGraph.neighbour, this, h3]
  obtain ⟨l, hl⟩ := relations_terminates (exLanes.neighbour (fun _ => true) 0 left)
    (exLanes.neighbour (fun _ => true) 0 adjacentLeft) Left AdjacentLeft id
    (by intro v w h; rw [hA] at h; split at h <;> simp_all; omega)
    (by intro v w h; rw [hB] at h; split at h <;> simp_all; omega) 30
  have hc := relations_spec _ _ _ _ (by
    intro v; rw [hA, hB]
    by_cases h : v = 20
    · right; simp [h]
    · left; simp [h]) 30 l hl
  rw [RGraph.leftRelations, hl]
  have s30 : stepEither (exLanes.neighbour (fun _ => true) 0 left)
      (exLanes.neighbour (fun _ => true) 0 adjacentLeft) Left AdjacentLeft 30 =
      some (20, AdjacentLeft) := by simp [stepEither, hA, hB]
  have s20 : stepEither (exLanes.neighbour (fun _ => true) 0 left)
      (exLanes.neighbour (fun _ => true) 0 adjacentLeft) Left AdjacentLeft 20 =
      some (10, Left) := by simp [stepEither, hA]
  have s10 : stepEither (exLanes.neighbour (fun _ => true) 0 left)
      (exLanes.neighbour (fun _ => true) 0 adjacentLeft) Left AdjacentLeft 10 = none := by
    simp [stepEither, hA, hB]
  cases hc with
  | nil h => rw [s30] at h; simp at h
  | cons h1 hc =>
    rw [s30] at h1; simp at h1; obtain ⟨rfl, rfl⟩ := h1
    cases hc with
    | nil h => rw [s20] at h; simp at h
    | cons h2 hc =>
      rw [s20] at h2; simp at h2; obtain ⟨rfl, rfl⟩ := h2
      cases hc with
      | nil => rfl
      | cons h3 => rw [s10] at h3; simp at h3

/-! ### C21 and C22 at the interface of the routing graph -/

/-- A path over edges of one cost module whose relations are in `rels`; `c` is its cost. -/
inductive PPath (g : RGraph P K) (zero : K) (add : K → K → K) (id : Nat) (rels : List RelationType) :
    List P → K → Prop where
  | single (p : P) : PPath g zero add id rels [p] zero
  | snoc {ps : List P} {c w : K} {p q : P} {r : RelationType} : PPath g zero add id rels ps c →
      ps.getLast? = some p → r ∈ rels → HasEdge g p q id r w →
      PPath g zero add id rels (ps ++ [q]) (add c w)

variable [Cost K]

/-- cost tests that agree with the order of the costs -/
def TestsOk (t : CostTests K) : Prop :=
  ∀ c, t.isFinite c = true → t.negative c = false → Cost.le Cost.zero c

theorem filtered_ok {t : CostTests K} (ht : TestsOk t) {g : RGraph P K} (h : Built t g) (costId : Nat)
    (rels : RelationType) : GraphOk (g.filtered costId rels) g.vertices.length := by
  have wf := built_wf h
  constructor
  · intro v hv e he
    simp only [RGraph.filtered, List.mem_map] at he
    obtain ⟨x, hx, rfl⟩ := he
    exact wf.dst x (List.mem_filter.mp hx).1
  · intro v e he
    simp only [RGraph.filtered, List.mem_map] at he
    obtain ⟨x, hx, rfl⟩ := he
    exact ht _ (wf.fin x (List.mem_filter.mp hx).1) (wf.nonneg x (List.mem_filter.mp hx).1)

/-- paths of vertices are paths of primitives -/
theorem ppath_of_pathCost {t : CostTests K} {g : RGraph P K} (h : Built t g)
    {w : RelationType × List RelationType} (hw : w ∈ views) (id : Nat) {vs : List Nat} {c : K}
    (hp : PathCost (g.filtered id w.1) vs c) (hhead : ∀ v, vs.head? = some v → v < g.vertices.length) :
    ∃ ps, PPath g Cost.zero Cost.add id w.2 ps c ∧ vs.map (fun v => g.vertices[v]?) = ps.map some := by
  have wf := built_wf h
  induction hp with
  | single v =>
    have := hhead v rfl
    exact ⟨[g.vertices[v]], .single _, by simp [this]⟩
  | snoc hp hl he ih =>
    rename_i p c u e
    obtain ⟨ps, h1, h2⟩ := ih (by
      intro v hv
      apply hhead
      cases p with
      | nil => simp at hv
      | cons => simpa using hv)
    simp only [RGraph.filtered, List.mem_map] at he
    obtain ⟨x, hx, rfl⟩ := he
    have hx := (view_exact h hw id u x).mp hx
    have hu : g.vertices[u]? = ps.getLast? := by
      have := congrArg List.getLast? h2
      rw [List.getLast?_map, hl, List.getLast?_map] at this
      simp only [Option.map_some] at this
      cases hps : ps.getLast? with
      | none => rw [hps] at this; simp at this
      | some q => rw [hps] at this; simpa using this
    have husrc := wf.src x hx.1
    rw [hx.2.1] at husrc
    rw [List.getElem?_eq_getElem husrc] at hu
    have hd := wf.dst x hx.1
    refine ⟨ps ++ [g.vertices[x.dst]], .snoc h1 hu.symm hx.2.2.2 ⟨x, hx.1, ?_, List.getElem?_eq_getElem hd,
      hx.2.2.1, rfl, rfl⟩, ?_⟩
    · rw [hx.2.1, List.getElem?_eq_getElem husrc]
    · simp [h2, List.getElem?_eq_getElem hd]

/-- and the other way round -/
theorem pathCost_of_ppath {t : CostTests K} {g : RGraph P K} (h : Built t g)
    {w : RelationType × List RelationType} (hw : w ∈ views) (id : Nat) {ps : List P} {c : K}
    (hp : PPath g Cost.zero Cost.add id w.2 ps c) (hhead : ∀ p, ps.head? = some p → p ∈ g.vertices) :
    ∃ vs, PathCost (g.filtered id w.1) vs c ∧ vs.map (fun v => g.vertices[v]?) = ps.map some := by
  have wf := built_wf h
  induction hp with
  | single p =>
    obtain ⟨v, hv⟩ := getVertex_isSome (hhead p rfl)
    exact ⟨[v], .single v, by simp [(getVertex_spec hv).2]⟩
  | snoc hp hl hr he ih =>
    rename_i ps c wt p q r
    obtain ⟨vs, h1, h2⟩ := ih (by
      intro v hv
      apply hhead
      cases ps with
      | nil => simp at hv
      | cons => simpa using hv)
    obtain ⟨x, x1, x2, x3, x4, x5, x6⟩ := he
    have hlast : vs.getLast? = some x.src := by
      have := congrArg List.getLast? h2
      rw [List.getLast?_map, List.getLast?_map, hl] at this
      cases hvs : vs.getLast? with
      | none => rw [hvs] at this; simp at this
      | some v =>
        rw [hvs] at this
        simp only [Option.map_some, Option.some.injEq] at this
        have a := (getVertex_iff wf.nodup).mpr this
        have b := (getVertex_iff wf.nodup).mpr x2
        rw [a] at b; exact b
    have hx : (⟨x.dst, x.info.routingCost, toRel x.info.relation⟩ : Search.Edge K) ∈
        g.filtered id w.1 x.src := by
      simp only [RGraph.filtered, List.mem_map]
      exact ⟨x, (view_exact h hw id x.src x).mpr ⟨x1, rfl, x4, by rw [x5]; exact hr⟩, rfl⟩
    have := PathCost.snoc h1 hlast hx
    rw [x6] at this
    exact ⟨_, this, by simp [h2, x3]⟩

/-- the relations a path may use -/
def pathRelations (lc areas : Bool) : List RelationType :=
  if lc then if areas then [Successor, Left, Right, Area] else [Successor, Left, Right]
  else if areas then [Successor, Area] else [Successor]

/-- the view for a path query -/
def pathView (lc areas : Bool) : RelationType :=
  if lc then if areas then withAreasAndLaneChanges else withLaneChanges
  else if areas then withAreasWithoutLaneChanges else withoutLaneChanges

theorem pathView_mem (lc areas : Bool) : (pathView lc areas, pathRelations lc areas) ∈ views := by
  cases lc <;> cases areas <;> simp [pathView, pathRelations, views]

/-- C21 at the interface: for a built graph and a valid cost module, `shortestPath(from, to)` of two members
of the graph either reports that there is no path over the permitted relations, or returns one of minimal
cost among all of them. -/
theorem routing_shortestPath {t : CostTests K} (ht : TestsOk t) {g : RGraph P K} (h : Built t g)
    {pick : Nat → (Nat → K) → List Nat → Nat} (hpick : PickMin pick) (src dst : P)
    (hs : src ∈ g.vertices) (hd : dst ∈ g.vertices) (id : Nat) (hid : id < g.numRoutingCosts)
    (lc areas : Bool) :
    (g.shortestPath pick src dst id lc areas = .ok (some none) ∧
      ∀ ps c, PPath g Cost.zero Cost.add id (pathRelations lc areas) ps c → ps.head? = some src →
        ps.getLast? ≠ some dst) ∨
    (∃ ps c, g.shortestPath pick src dst id lc areas = .ok (some (some ps)) ∧
      PPath g Cost.zero Cost.add id (pathRelations lc areas) ps c ∧ ps.head? = some src ∧
      ps.getLast? = some dst ∧
      ∀ ps' c', PPath g Cost.zero Cost.add id (pathRelations lc areas) ps' c' →
        ps'.head? = some src → ps'.getLast? = some dst → Cost.le c c') := by
  have wf := built_wf h
  obtain ⟨u, hu⟩ := getVertex_isSome hs
  obtain ⟨v, hv⟩ := getVertex_isSome hd
  obtain ⟨hu1, hu2⟩ := getVertex_spec hu
  obtain ⟨hv1, hv2⟩ := getVertex_spec hv
  have hview := pathView_mem lc areas
  have hok := filtered_ok ht h id (pathView lc areas)
  have hfg : g.getFilteredGraph id (pathView lc areas) = .ok (id, pathView lc areas) := by
    simp [RGraph.getFilteredGraph]; omega
  have hsp : g.shortestPath pick src dst id lc areas =
      match Search.shortestPathImpl (g.filtered id (pathView lc areas)) pick u v with
      | none => .ok none
      | some none => .ok (some none)
      | some (some p) =>
        .ok ((Search.allSome (p.map fun x => x.bind fun v => g.vertices[v]?)).map some) := by
    simp only [RGraph.shortestPath, hu, hv]
    show (g.getFilteredGraph id (pathView lc areas) >>= _) = _
    rw [hfg]
    rfl
  -- paths of primitives give walks
  have toWalk : ∀ ps c, PPath g Cost.zero Cost.add id (pathRelations lc areas) ps c →
      ps.head? = some src → ps.getLast? = some dst →
      AnyWalk (g.filtered id (pathView lc areas)) u c v := by
    intro ps c hp hh hl
    obtain ⟨vs, k1, k2⟩ := pathCost_of_ppath h hview id hp (by
      intro p hp'; rw [hh] at hp'; have := Option.some.inj hp'; subst this; exact hs)
    have e1 := congrArg List.head? k2
    have e2 := congrArg List.getLast? k2
    rw [List.head?_map, List.head?_map, hh] at e1
    rw [List.getLast?_map, List.getLast?_map, hl] at e2
    cases hvs : vs.head? with
    | none => rw [hvs] at e1; simp at e1
    | some a =>
      cases hvl : vs.getLast? with
      | none => rw [hvl] at e2; simp at e2
      | some b =>
        rw [hvs] at e1; rw [hvl] at e2
        simp only [Option.map_some, Option.some.injEq] at e1 e2
        have a1 := (getVertex_iff wf.nodup).mpr e1
        have b1 := (getVertex_iff wf.nodup).mpr e2
        rw [hu] at a1; rw [hv] at b1
        have := Option.some.inj a1; subst this
        have := Option.some.inj b1; subst this
        exact k1.walk hvs hvl
  rcases Search.shortestPath_spec (target := v) hok hu1 hpick with ⟨h1, h2⟩ | ⟨p, c, h1, h2, h3, h4, -, h5⟩
  · left
    refine ⟨by rw [hsp, h1], ?_⟩
    intro ps c hp hh hl
    exact h2 c (toWalk ps c hp hh hl)
  · right
    obtain ⟨ps, k1, k2⟩ := ppath_of_pathCost h hview id h2 (by
      intro w hw; rw [h3] at hw; have := Option.some.inj hw; omega)
    refine ⟨ps, c, ?_, k1, ?_, ?_, ?_⟩
    · rw [hsp, h1]
      simp only [List.map_map]
      have : (p.map ((fun x => x.bind fun v => g.vertices[v]?) ∘ some)) = ps.map some := by
        rw [← k2]; rfl
      rw [this, Search.allSome_some]; rfl
    · have := congrArg List.head? k2
      rw [List.head?_map, List.head?_map, h3] at this
      simp only [Option.map_some, hu2] at this
      cases hps : ps.head? with
      | none => rw [hps] at this; simp at this
      | some q => rw [hps] at this; simpa using this.symm
    · have := congrArg List.getLast? k2
      rw [List.getLast?_map, List.getLast?_map, h4] at this
      simp only [Option.map_some, hv2] at this
      cases hps : ps.getLast? with
      | none => rw [hps] at this; simp at this
      | some q => rw [hps] at this; simpa using this.symm
    · intro ps' c' hp hh hl
      exact h5 c' (toWalk ps' c' hp hh hl)

/-- C21: a lanelet that is not in the graph has no paths, an unknown cost module is rejected. -/
theorem routing_shortestPath_errors (g : RGraph P K)
    (pick : Nat → (Nat → K) → List Nat → Nat) (src dst : P) (id : Nat) (lc areas : Bool) :
    ((src ∉ g.vertices ∨ dst ∉ g.vertices) →
      g.shortestPath pick src dst id lc areas = .ok (some none)) ∧
    (src ∈ g.vertices → dst ∈ g.vertices → g.numRoutingCosts ≤ id →
      g.shortestPath pick src dst id lc areas = .error ()) := by
  constructor
  · rintro (h | h)
    · simp [RGraph.shortestPath, getVertex_none h]
    · rw [RGraph.shortestPath, getVertex_none h]
      cases g.getVertex src <;> rfl
  · intro h1 h2 h3
    obtain ⟨u, hu⟩ := getVertex_isSome h1
    obtain ⟨v, hv⟩ := getVertex_isSome h2
    have hfg : ∀ r, g.getFilteredGraph id r = .error () := by
      intro r; simp [RGraph.getFilteredGraph, h3]
    simp only [RGraph.shortestPath, hu, hv, hfg]
    rfl

theorem natTests_ok : TestsOk natTests := fun c _ _ => Nat.zero_le c

/-- the successor chain 10 → 20 → 30 with a lane change 10 → 30 of cost 5 -/
def exRoad : RGraph Nat Nat :=
  ⟨1, [10, 20, 30], [⟨0, 1, ⟨1, 0, Successor⟩⟩, ⟨1, 2, ⟨2, 0, Successor⟩⟩, ⟨0, 2, ⟨5, 0, Left⟩⟩]⟩

theorem exRoad_built : Built natTests exRoad := by
  have h0 : Built natTests (RGraph.empty 1 : RGraph Nat Nat) := .empty 1
  have h1 := h0.vertex 10 (by decide)
  have h2 := h1.vertex 20 (by decide)
  have h3 := h2.vertex 30 (by decide)
  have h4 : Built natTests (⟨1, [10, 20, 30], [⟨0, 1, ⟨1, 0, Successor⟩⟩]⟩ : RGraph Nat Nat) :=
    h3.edge 10 20 ⟨1, 0, Successor⟩ (by decide) rfl
  have h5 : Built natTests (⟨1, [10, 20, 30], [⟨0, 1, ⟨1, 0, Successor⟩⟩,
      ⟨1, 2, ⟨2, 0, Successor⟩⟩]⟩ : RGraph Nat Nat) :=
    h4.edge 20 30 ⟨2, 0, Successor⟩ (by decide) rfl
  exact h5.edge 10 30 ⟨5, 0, Left⟩ (by decide) rfl

/-- Case for `relations_partial`: 10 is followed by 20 and, with lane changes, by 30. -/
example : exRoad.followingRelations (fun _ => true) 10 true = some [(20, Successor), (30, Left)] ∧
    exRoad.previousRelations (fun _ => true) 30 true = [(20, Successor), (10, Left)] ∧
    (30, Left) ∉ exRoad.previousRelations (fun _ => true) 30 false ∧
    ∃ l, exRoad.followingRelations (fun _ => true) 10 true = some l ∧ (30, Left) ∈ l := by
  refine ⟨by decide, by decide, by decide, ?_⟩
  obtain ⟨⟨l, h1, -, h2⟩, -⟩ := relations_partial exRoad_built (fun _ => true) 10 true (by
    rintro a b id id' r r' c c' ⟨e, he, e1, e2, e3, e4, -⟩ ⟨e', he', e1', e2', e3', e4', -⟩
    simp only [exRoad, List.mem_cons, List.not_mem_nil, or_false] at he he' e1 e2 e1' e2'
    rcases he with rfl | rfl | rfl <;> rcases he' with rfl | rfl | rfl <;>
      first | exact ⟨e3.symm, e4.symm.trans e4'⟩ | (exfalso; revert e1 e2 e1' e2'; simp; omega))
  exact ⟨l, h1, (h2 30 Left).mpr ⟨rfl, by decide, 5, ⟨0, 2, ⟨5, 0, Left⟩⟩, by decide, rfl, rfl, rfl, rfl, rfl⟩⟩

/-- Case: from 10 to 30 a path of cost at most 5 is returned. -/
example : ∃ ps c, exRoad.shortestPath Search.exPick 10 30 0 true false = .ok (some (some ps)) ∧ c ≤ 5 := by
  have hp : PPath exRoad 0 Nat.add 0 [Successor, Left, Right] [10, 30] 5 :=
    .snoc (ps := [10]) (c := 0) (w := 5) (p := 10) (q := 30) (r := Left) (.single 10) rfl (by decide)
      ⟨⟨0, 2, ⟨5, 0, Left⟩⟩, by decide, rfl, rfl, rfl, rfl, rfl⟩
  rcases routing_shortestPath natTests_ok exRoad_built Search.exPick_min 10 30 (by decide) (by decide) 0
    (by decide) true false with ⟨-, h⟩ | ⟨ps, c, h1, -, -, -, h2⟩
  · exact absurd rfl (h _ _ hp rfl)
  · exact ⟨ps, c, h1, h2 _ _ hp rfl rfl⟩

/-- C22 at the interface: exactly the primitives with a path of cost at most the limit, each once. -/
theorem routing_reachableSet {t : CostTests K} (ht : TestsOk t) {g : RGraph P K} (h : Built t g)
    {pick : Nat → (Nat → K) → List Nat → Nat} (hpick : PickMin pick) (src : P)
    (hs : src ∈ g.vertices) (id : Nat) (hid : id < g.numRoutingCosts) (limit : K) (lc areas : Bool) :
    ∃ r, g.reachableSet pick false src limit id (pathView lc areas) = .ok (some r) ∧ r.Nodup ∧
      ∀ q, q ∈ r ↔ ∃ ps c, PPath g Cost.zero Cost.add id (pathRelations lc areas) ps c ∧
        ps.head? = some src ∧ ps.getLast? = some q ∧ Cost.le c limit := by
  have wf := built_wf h
  obtain ⟨u, hu⟩ := getVertex_isSome hs
  obtain ⟨hu1, hu2⟩ := getVertex_spec hu
  have hview := pathView_mem lc areas
  have hok := filtered_ok ht h id (pathView lc areas)
  have hfg : g.getFilteredGraph id (pathView lc areas) = .ok (id, pathView lc areas) := by
    simp [RGraph.getFilteredGraph]; omega
  obtain ⟨r, r1, r2, r3⟩ := Search.reachableSet_spec hok hu1 hpick limit
  have hlt : ∀ v ∈ r, v < g.vertices.length := by
    intro v hv
    have : ∀ c v, AnyWalk (g.filtered id (pathView lc areas)) u c v → v < g.vertices.length := by
      intro c v hw
      induction hw with
      | nil => exact hu1
      | snoc hw ha he ih => exact hok.dst _ ih _ he
    obtain ⟨c, hc, -⟩ := (r3 v).mp hv
    exact this c v hc
  have hps : ∃ ps : List P, r.map (fun v => g.vertices[v]?) = ps.map some ∧ ps.Nodup ∧
      ∀ q, q ∈ ps ↔ ∃ v ∈ r, g.vertices[v]? = some q := by
    clear r1 r3
    induction r with
    | nil => exact ⟨[], by simp⟩
    | cons v r ih =>
      obtain ⟨ps, k1, k2, k3⟩ := ih (List.nodup_cons.mp r2).2
        (fun w hw => hlt w (List.mem_cons_of_mem _ hw))
      have hv := hlt v (by simp)
      refine ⟨g.vertices[v] :: ps, by simp [k1, hv], ?_, ?_⟩
      · rw [List.nodup_cons]
        refine ⟨?_, k2⟩
        rw [k3]
        rintro ⟨w, hw, hwv⟩
        have a := (getVertex_iff wf.nodup).mpr hwv
        have b := (getVertex_iff wf.nodup).mpr (List.getElem?_eq_getElem hv)
        rw [a] at b
        have := Option.some.inj b
        subst this
        exact (List.nodup_cons.mp r2).1 hw
      · intro q
        rw [List.mem_cons, k3]
        simp only [List.mem_cons]
        constructor
        · rintro (rfl | ⟨w, hw, hq⟩)
          · exact ⟨v, Or.inl rfl, List.getElem?_eq_getElem hv⟩
          · exact ⟨w, Or.inr hw, hq⟩
        · rintro ⟨w, rfl | hw, hq⟩
          · left; rw [List.getElem?_eq_getElem hv] at hq; exact (Option.some.inj hq).symm
          · exact Or.inr ⟨w, hw, hq⟩
  obtain ⟨ps, k1, k2, k3⟩ := hps
  refine ⟨ps, ?_, k2, ?_⟩
  · simp only [RGraph.reachableSet, hu]
    rw [hfg]
    show (match Search.reachableSetImpl (g.filtered id (pathView lc areas)) g.vertices.length pick u
      (Search.stopIfCostMoreThan true limit) with
      | none => Except.ok none
      | some r => Except.ok (Search.allSome (r.map fun v => g.vertices[v]?))) = _
    rw [r1]
    simp only
    rw [k1, Search.allSome_some]
  · intro q
    rw [k3]
    constructor
    · rintro ⟨v, hv, hq⟩
      obtain ⟨c, hw, hc⟩ := (r3 v).mp hv
      obtain ⟨vs, p1, p2, p3⟩ := hw.path
      obtain ⟨qs, q1, q2⟩ := ppath_of_pathCost h hview id p1 (by
        intro w hw; rw [p2] at hw; have := Option.some.inj hw; omega)
      refine ⟨qs, c, q1, ?_, ?_, hc⟩
      · have := congrArg List.head? q2
        rw [List.head?_map, List.head?_map, p2] at this
        simp only [Option.map_some, hu2] at this
        cases hps : qs.head? with
        | none => rw [hps] at this; simp at this
        | some q => rw [hps] at this; simpa using this.symm
      · have := congrArg List.getLast? q2
        rw [List.getLast?_map, List.getLast?_map, p3] at this
        simp only [Option.map_some, hq] at this
        cases hps : qs.getLast? with
        | none => rw [hps] at this; simp at this
        | some q => rw [hps] at this; simpa using this.symm
    · rintro ⟨qs, c, hp, hh, hl, hc⟩
      obtain ⟨vs, k1, k2⟩ := pathCost_of_ppath h hview id hp (by
        intro p hp'; rw [hh] at hp'; have := Option.some.inj hp'; subst this; exact hs)
      have e1 := congrArg List.head? k2
      have e2 := congrArg List.getLast? k2
      rw [List.head?_map, List.head?_map, hh] at e1
      rw [List.getLast?_map, List.getLast?_map, hl] at e2
      cases hvs : vs.head? with
      | none => rw [hvs] at e1; simp at e1
      | some a =>
        cases hvl : vs.getLast? with
        | none => rw [hvl] at e2; simp at e2
        | some b =>
          rw [hvs] at e1; rw [hvl] at e2
          simp only [Option.map_some, Option.some.injEq] at e1 e2
          have a1 := (getVertex_iff wf.nodup).mpr e1
          rw [hu] at a1
          have := Option.some.inj a1; subst this
          exact ⟨b, (r3 b).mpr ⟨c, k1.walk hvs hvl, hc⟩, e2⟩

end Verif.Graph
