import Verif.Build.Props
import Verif.Graph.Validity
import Verif.Valid.Model

/-!
C105: the routing graph of a map and the validator of routing graphs.
-/
namespace Verif.Build
open Verif.Graph (RGraph EdgeInfo BaseEdge CostTests RelationType VErr nbrs passes Consistent EdgesOk)
open Verif.Graph.RelationType
open Verif.Lanelet (LH World leftOf rightOf follows invertL)

set_option linter.unusedSectionVars false
variable {P K : Type} [DecidableEq P]

/-! ### model -/

/-- ConstLaneletOrArea::isLanelet, LaneletOrArea.h 36 -/
def isLane : Prim → Bool := Sum.isLeft

/-- RoutingGraphIsValid::operator(), RoutingGraphIsValid.cpp 13-17. `text` is the text of a message, `order` the iteration order of
the vertex lookup, `none` a call that does not return. -/
def routingGraphIsValid (text : VErr Prim → String) (g : RGraph Prim K) (order : List Prim) : Option (List Verif.Valid.Issue) :=
  (g.checkValidity isLane order).map fun errors => errors.map fun e => ⟨.error, none, text e⟩

/-! ### specification -/

/-- Lanelets of the graph that are beside each other are connected in no other way, and a lanelet has at most one other beside it on
each side. Specification. -/
structure Tidy (i : Input P K) : Prop where
  only : ∀ isLeft a b, InGraph i a → InGraph i b → a ≠ b → Beside i isLeft a b → OnlyBeside i isLeft a b
  one : ∀ isLeft a b b', InGraph i a → InGraph i b → InGraph i b' → b ≠ a → b' ≠ a → Beside i isLeft a b → Beside i isLeft a b' → b = b'

/-! ### proofs -/

/-- the relations of one side; Helper of the proofs. -/
def sideRels (isLeft : Bool) : RelationType × RelationType := if isLeft then (Left, AdjacentLeft) else (Right, AdjacentRight)

theorem passes_iff (x : EdgeInfo K) (rel : RelationType) (hrel : rel ∈ [Left, AdjacentLeft, Right, AdjacentRight])
    (hx : x.relation ∈ [Successor, Left, Right, AdjacentLeft, AdjacentRight, Conflicting, Area]) :
    passes 0 rel x = true ↔ x.costId = 0 ∧ x.relation = rel := by
  unfold passes
  have : ∀ rel ∈ ([Left, AdjacentLeft, Right, AdjacentRight] : List RelationType),
      ∀ y ∈ ([Successor, Left, Right, AdjacentLeft, AdjacentRight, Conflicting, Area] : List RelationType),
      ((rel == allRelations || (rel &&& y) != 0) = true ↔ y = rel) := by decide
  rw [Bool.and_eq_true, this rel hrel _ hx, beq_iff_eq]

theorem edge_relation (i : Input P K) (hi : InputOk i) (ok : CostsOk i) (g : RGraph Prim K) (hg : build i = some g) (a b : Prim)
    (x : EdgeInfo K) (hx : x ∈ edgesOf g a b) :
    x.relation ∈ [Successor, Left, Right, AdjacentLeft, AdjacentRight, Conflicting, Area] := by
  obtain ⟨s, l, gl, gr, g', h1, h2⟩ := build_phases i hi ok
  obtain rfl : g' = g := by rw [hg] at h1; simpa using h1.symm
  obtain ⟨ph, g1, xs, r, hxs, -⟩ := h2.reason a b x hx
  cases r with
  | adjacent isLeft la lb => rw [infos_rel i _ _ _ x hxs]; cases isLeft <;> decide
  | change isLeft la lb rest =>
    obtain ⟨ci, -, rfl⟩ := List.mem_map.mp hxs
    rcases lc_rel i isLeft ((la, lb) :: rest) ci with h | h <;> rw [h] <;> cases isLeft <;> decide
  | _ => rw [infos_rel i _ _ _ x hxs]; decide

/-- neighbours in the graph are ends of edges -/
theorem mem_nbrs (g : RGraph Prim K) (hn : g.vertices.Nodup) (rel : RelationType) (a b : Prim) :
    b ∈ nbrs g rel a ↔ ∃ x ∈ edgesOf g a b, passes 0 rel x = true := by
  unfold nbrs RGraph.getAllEdges edgesOf RGraph.outEdges
  have hget : ∀ (n : Nat), g.vertices[n]? = some b ↔ g.getVertex b = some n := by
    intro n
    constructor
    · intro h
      have hb : ∃ v, g.getVertex b = some v := Option.isSome_iff_exists.mp ((getVertex_isSome g b).mpr (List.mem_of_getElem? h))
      obtain ⟨v, hv⟩ := hb
      rw [hv]
      have h' := getVertex_get hv
      have hlt : n < g.vertices.length := (List.getElem?_eq_some_iff.mp h).1
      have := (List.getElem?_inj hlt hn).mp (h.trans h'.symm)
      rw [this]
    · exact getVertex_get
  cases ha : g.getVertex a with
  | none => simp
  | some u =>
    simp only [if_true, List.mem_filterMap, List.mem_filter, Bool.and_eq_true, beq_iff_eq, hget]
    cases hb : g.getVertex b with
    | none => simp
    | some v =>
      simp only [List.mem_map, List.mem_filter, Bool.and_eq_true, beq_iff_eq, Option.some.injEq]
      constructor
      · rintro ⟨e, ⟨he, hu, hp⟩, hv⟩
        exact ⟨e.info, ⟨e, ⟨he, hu, hv.symm⟩, rfl⟩, hp⟩
      · rintro ⟨x, ⟨e, ⟨he, hu, hv⟩, rfl⟩, hp⟩
        exact ⟨e, ⟨he, hu, hp⟩, hv.symm⟩

theorem filter_zip_le {C : Type} (costs : List C) (f : C × Nat → EdgeInfo K) (hf : ∀ ci, (f ci).costId = ci.2) (rel : RelationType) :
    ((costs.zipIdx.map f).filter (passes 0 rel)).length ≤ 1 := by
  cases costs with
  | nil => simp
  | cons c cs =>
    have h : ((cs.zipIdx 1).map f).filter (passes 0 rel) = [] := by
      rw [List.filter_eq_nil_iff]
      rintro x hx hp
      obtain ⟨⟨c', k⟩, hci, rfl⟩ := List.mem_map.mp hx
      have hk := (List.mem_zipIdx hci).1
      unfold passes at hp
      rw [Bool.and_eq_true, hf, beq_iff_eq] at hp
      omega
    rw [List.zipIdx_cons, List.map_cons, List.filter_cons]
    rw [Nat.zero_add, h]
    split <;> simp

/-- with one target the neighbours are the edges to it -/
theorem nbrs_le_one (g : RGraph Prim K) (hn : g.vertices.Nodup) (ho : EdgesOk g) (rel : RelationType) (a b : Prim)
    (hall : ∀ q ∈ nbrs g rel a, q = b) (hb : ((edgesOf g a b).filter (passes 0 rel)).length ≤ 1) : (nbrs g rel a).length ≤ 1 := by
  cases ha : g.getVertex a with
  | none => simp [nbrs, RGraph.getAllEdges, ha]
  | some u =>
    rw [Verif.Graph.nbrs_length ho ha]
    by_cases hne : nbrs g rel a = []
    · rw [← Verif.Graph.nbrs_length ho ha, hne]; simp
    · obtain ⟨q, hq⟩ := List.exists_mem_of_ne_nil _ hne
      have hqb := hall q hq
      subst hqb
      obtain ⟨v, hv⟩ := Option.isSome_iff_exists.mp ((getVertex_isSome g q).mpr (Verif.Graph.nbr_mem hq))
      have hsame : g.outEdges 0 rel u = (g.edges.filter fun e => e.src == u && e.dst == v).filter fun e => passes 0 rel e.info := by
        unfold RGraph.outEdges
        rw [List.filter_filter]
        apply List.filter_congr
        intro e he
        by_cases hs : e.src = u
        · by_cases hp : passes 0 rel e.info = true
          · have hd := (ho e he).2
            have hm : g.vertices[e.dst] ∈ nbrs g rel a := by
              unfold nbrs RGraph.getAllEdges
              simp only [ha, if_true]
              refine List.mem_filterMap.mpr ⟨e, ?_, List.getElem?_eq_getElem hd⟩
              unfold RGraph.outEdges
              exact List.mem_filter.mpr ⟨he, by simp [hs, hp]⟩
            have h1 := hall _ hm
            have h2 := getVertex_get hv
            have h3 : g.vertices[e.dst]? = g.vertices[v]? := by rw [List.getElem?_eq_getElem hd, h1, h2]
            have := (List.getElem?_inj hd hn).mp h3
            simp [hs, hp, this]
          · rw [Bool.not_eq_true] at hp
            simp [hp]
        · have hs' : (e.src == u) = false := beq_eq_false_iff_ne.mpr hs
          rw [hs', Bool.false_and, Bool.false_and, Bool.and_false]
      rw [hsame]
      have he : (edgesOf g a q).filter (passes 0 rel) =
          ((g.edges.filter fun e => e.src == u && e.dst == v).filter fun e => passes 0 rel e.info).map (·.info) := by
        unfold edgesOf
        rw [ha, hv]
        simp only
        rw [List.filter_map]
        rfl
      rw [he, List.length_map] at hb
      exact hb

/-- one edge per cost module between lanelets that are beside each other and nothing else -/
theorem side_edges (i : Input P K) (hi : InputOk i) (ok : CostsOk i) (hc : i.costs ≠ []) (g : RGraph Prim K)
    (hg : build i = some g) (isLeft : Bool) (a b : LH) (ha : InGraph i a) (hb : InGraph i b) (h : OnlyBeside i isLeft a b)
    (hone : ∀ b', InGraph i b' → b' ≠ a → Beside i isLeft a b' → b' = b) :
    ∃ f : CostModule K × Nat → EdgeInfo K, (∀ ci, (f ci).costId = ci.2 ∧
      ((f ci).relation = (sideRels isLeft).1 ∨ (f ci).relation = (sideRels isLeft).2)) ∧
      edgesOf g (.inl a) (.inl b) = i.costs.zipIdx.map f := by
  by_cases hch : i.rules.change a b = true
  · obtain ⟨c, -, -, h3⟩ := neighbour_laneChange i hi ok hc g hg isLeft a b ha hb h hone hch
    refine ⟨fun ci => changeEdge i isLeft c ci.1 ci.2, ?_, h3⟩
    intro ci
    unfold changeEdge sideRels
    dsimp only
    split <;> cases isLeft <;> simp
  · have h3 := neighbour_adjacent i hi ok hc g hg isLeft a b ha hb h (by simpa using hch)
    refine ⟨fun ci => ⟨i.one, ci.2, if isLeft then AdjacentLeft else AdjacentRight⟩, ?_, h3⟩
    intro ci
    unfold sideRels
    cases isLeft <;> simp

/-- the neighbours on one side, whatever the kind -/
theorem nbr_beside (i : Input P K) (hi : InputOk i) (ok : CostsOk i) (g : RGraph Prim K) (hg : build i = some g) (isLeft : Bool)
    (p q : Prim) (rel : RelationType) (hrel : rel = (sideRels isLeft).1 ∨ rel = (sideRels isLeft).2) (h : q ∈ nbrs g rel p) :
    ∃ a b, p = .inl a ∧ q = .inl b ∧ InGraph i a ∧ InGraph i b ∧ a ≠ b ∧ Beside i isLeft a b := by
  obtain ⟨g', hg', -, -, -, hn⟩ := build_vertices i hi ok
  obtain rfl : g' = g := by rw [hg] at hg'; simpa using hg'.symm
  obtain ⟨x, hx, hp⟩ := (mem_nbrs g' hn rel p q).mp h
  have hr := ((passes_iff x rel (by rcases hrel with rfl | rfl <;> cases isLeft <;> decide) (edge_relation i hi ok g' hg p q x hx)).mp hp).2
  rcases hrel with rfl | rfl
  · obtain ⟨a, b, h1, h2, h3, h4, h5, h6, -⟩ := laneChange_sound i hi ok g' hg isLeft p q x hx
      (by rw [hr]; cases isLeft <;> rfl)
    exact ⟨a, b, h1, h2, h3, h4, h5, h6⟩
  · obtain ⟨a, b, h1, h2, h3, h4, h5, h6, -⟩ := adjacent_sound i hi ok g' hg isLeft p q x hx
      (by rw [hr]; cases isLeft <;> rfl)
    exact ⟨a, b, h1, h2, h3, h4, h5, h6⟩

theorem edges_nbr (i : Input P K) (hi : InputOk i) (ok : CostsOk i) (hc : i.costs ≠ []) (g : RGraph Prim K)
    (hg : build i = some g) (isLeft : Bool) (a b : LH) (ha : InGraph i a) (hb : InGraph i b) (h : OnlyBeside i isLeft a b)
    (hone : ∀ b', InGraph i b' → b' ≠ a → Beside i isLeft a b' → b' = b) :
    (.inl b : Prim) ∈ nbrs g (sideRels isLeft).1 (.inl a) ++ nbrs g (sideRels isLeft).2 (.inl a) := by
  obtain ⟨g', hg', -, -, -, hn⟩ := build_vertices i hi ok
  obtain rfl : g' = g := by rw [hg] at hg'; simpa using hg'.symm
  obtain ⟨f, hf, he⟩ := side_edges i hi ok hc g' hg isLeft a b ha hb h hone
  obtain ⟨c, cs, hcs⟩ := List.exists_cons_of_ne_nil hc
  have hx : f (c, 0) ∈ edgesOf g' (.inl a) (.inl b) := by rw [he, hcs]; simp
  have hr := edge_relation i hi ok g' hg _ _ _ hx
  rw [List.mem_append, mem_nbrs g' hn, mem_nbrs g' hn]
  rcases (hf (c, 0)).2 with h1 | h1
  · exact .inl ⟨_, hx, (passes_iff _ _ (by cases isLeft <;> decide) hr).mpr ⟨(hf (c, 0)).1, h1⟩⟩
  · exact .inr ⟨_, hx, (passes_iff _ _ (by cases isLeft <;> decide) hr).mpr ⟨(hf (c, 0)).1, h1⟩⟩

theorem beside_flip (i : Input P K) (isLeft : Bool) (a b : LH) : Beside i isLeft a b ↔ Beside i (!isLeft) b a := by
  unfold Beside rightOf
  cases isLeft <;> simp

theorem build_edgesOk (i : Input P K) (hi : InputOk i) (ok : CostsOk i) (g : RGraph Prim K) (hg : build i = some g) : EdgesOk g := by
  obtain ⟨s, l, gl, gr, g', h1, h2⟩ := build_phases i hi ok
  obtain rfl : g' = g := by rw [hg] at h1; simpa using h1.symm
  have grow : ∀ {ph : Phase} {g g' : RGraph Prim K}, Grow i ph g g' → EdgesOk g → EdgesOk g' := by
    intro ph g g' h h0
    induction h with
    | refl => exact h0
    | step a b xs _ _ ih =>
      rename_i gm _ _
      unfold plus
      split
      · rename_i u v hu hv
        intro e he
        rcases List.mem_append.mp he with he | he
        · exact ih e he
        · obtain ⟨x, -, rfl⟩ := List.mem_map.mp he
          exact ⟨(List.getElem?_eq_some_iff.mp (getVertex_get hu)).1, (List.getElem?_eq_some_iff.mp (getVertex_get hv)).1⟩
      · exact ih
  refine grow h2.areas.1 (grow h2.right.ext.1 (grow h2.left.ext.1 (grow h2.lanes.ext.1 ?_)))
  intro e he
  rw [h2.start.2.1] at he
  cases he

/-- C105: if lanelets have at most one neighbour per side, the graph of the map is consistent. -/
theorem build_consistent (i : Input P K) (hi : InputOk i) (ok : CostsOk i) (hc : i.costs ≠ []) (ht : Tidy i) (g : RGraph Prim K)
    (hg : build i = some g) : Consistent g isLane := by
  obtain ⟨g', hg', -, -, -, hn⟩ := build_vertices i hi ok
  obtain rfl : g' = g := by rw [hg] at hg'; simpa using hg'.symm
  have ho := build_edgesOk i hi ok g' hg
  have hone : ∀ (isLeft : Bool) (a b : LH), InGraph i a → InGraph i b → a ≠ b → Beside i isLeft a b →
      ∀ b', InGraph i b' → b' ≠ a → Beside i isLeft a b' → b' = b := fun isLeft a b ha hb hne hbs b' hb' hne' hbs' =>
    ht.one isLeft a b' b ha hb' hb hne' (Ne.symm hne) hbs' hbs
  have huniq : ∀ (isLeft : Bool) (p : Prim) (rel : RelationType), (rel = (sideRels isLeft).1 ∨ rel = (sideRels isLeft).2) →
      (nbrs g' rel p).length ≤ 1 := by
    intro isLeft p rel hrel
    by_cases he : nbrs g' rel p = []
    · rw [he]; simp
    · obtain ⟨q, hq⟩ := List.exists_mem_of_ne_nil _ he
      obtain ⟨a, b, rfl, rfl, ha, hb, hne, hbs⟩ := nbr_beside i hi ok g' hg isLeft p q rel hrel hq
      refine nbrs_le_one g' hn ho rel (.inl a) (.inl b) ?_ ?_
      · intro q' hq'
        obtain ⟨a', b', h1, rfl, -, hb', hne', hbs'⟩ := nbr_beside i hi ok g' hg isLeft _ q' rel hrel hq'
        obtain rfl := Sum.inl.inj h1
        rw [hone isLeft a b ha hb hne hbs b' hb' (Ne.symm hne') hbs']
      · obtain ⟨f, hf, hef⟩ := side_edges i hi ok hc g' hg isLeft a b ha hb (ht.only isLeft a b ha hb hne hbs)
          (hone isLeft a b ha hb hne hbs)
        rw [hef]
        exact filter_zip_le i.costs f (fun ci => (hf ci).1) rel
  have hkind : ∀ (isLeft : Bool) (p : Prim), ¬ ((∃ q ∈ nbrs g' (sideRels isLeft).1 p, isLane q = true) ∧
      ∃ q ∈ nbrs g' (sideRels isLeft).2 p, isLane q = true) := by
    rintro isLeft p ⟨⟨q, hq, -⟩, ⟨q', hq', -⟩⟩
    obtain ⟨a, b, rfl, rfl, ha, hb, hne, hbs⟩ := nbr_beside i hi ok g' hg isLeft p q _ (.inl rfl) hq
    obtain ⟨a', b', h1, rfl, -, hb', hne', hbs'⟩ := nbr_beside i hi ok g' hg isLeft _ q' _ (.inr rfl) hq'
    obtain rfl := Sum.inl.inj h1
    obtain rfl := hone isLeft a b ha hb hne hbs b' hb' (Ne.symm hne') hbs'
    obtain ⟨f, hf, hef⟩ := side_edges i hi ok hc g' hg isLeft a b' ha hb (ht.only isLeft a b' ha hb hne hbs)
      (hone isLeft a b' ha hb hne hbs)
    obtain ⟨x, hx, hp⟩ := (mem_nbrs g' hn _ _ _).mp hq
    obtain ⟨y, hy, hp'⟩ := (mem_nbrs g' hn _ _ _).mp hq'
    have h1 := (passes_iff x _ (by cases isLeft <;> decide) (edge_relation i hi ok g' hg _ _ x hx)).mp hp
    have h2 := (passes_iff y _ (by cases isLeft <;> decide) (edge_relation i hi ok g' hg _ _ y hy)).mp hp'
    rw [hef] at hx hy
    obtain ⟨⟨c, k⟩, hk, rfl⟩ := List.mem_map.mp hx
    obtain ⟨⟨c', k'⟩, hk', rfl⟩ := List.mem_map.mp hy
    rw [(hf _).1] at h1 h2
    obtain ⟨rfl, e1⟩ := h1
    obtain ⟨rfl, e2⟩ := h2
    have hcc : c = c' := by
      have a1 := List.mem_zipIdx_iff_getElem?.mp hk
      have a2 := List.mem_zipIdx_iff_getElem?.mp hk'
      simp only at a1 a2
      rw [a1] at a2
      simpa using a2
    subst hcc
    rw [e1] at e2
    revert e2
    cases isLeft <;> decide
  have hmirror : ∀ (isLeft : Bool) (p q : Prim), q ∈ nbrs g' (sideRels isLeft).1 p ++ nbrs g' (sideRels isLeft).2 p →
      isLane p = true ∧ p ∈ nbrs g' (sideRels (!isLeft)).1 q ++ nbrs g' (sideRels (!isLeft)).2 q := by
    intro isLeft p q hq
    have : ∃ a b, p = .inl a ∧ q = .inl b ∧ InGraph i a ∧ InGraph i b ∧ a ≠ b ∧ Beside i isLeft a b := by
      rcases List.mem_append.mp hq with hq | hq
      · exact nbr_beside i hi ok g' hg isLeft p q _ (.inl rfl) hq
      · exact nbr_beside i hi ok g' hg isLeft p q _ (.inr rfl) hq
    obtain ⟨a, b, rfl, rfl, ha, hb, hne, hbs⟩ := this
    have hbs' := (beside_flip i isLeft a b).mp hbs
    exact ⟨rfl, edges_nbr i hi ok hc g' hg (!isLeft) b a hb ha (ht.only _ b a hb ha (Ne.symm hne) hbs')
      (hone _ b a hb ha (Ne.symm hne) hbs')⟩
  refine ⟨?_, fun p _ => hkind true p, fun p _ => hkind false p, fun p _ q _ h => hmirror true p q h, fun p _ q _ h => hmirror false p q h⟩
  intro p _ rel hrel
  simp only [List.mem_cons, List.not_mem_nil, or_false] at hrel
  rcases hrel with rfl | rfl | rfl | rfl
  · exact huniq true p _ (.inl rfl)
  · exact huniq true p _ (.inr rfl)
  · exact huniq false p _ (.inl rfl)
  · exact huniq false p _ (.inr rfl)

/-- C105: whenever the validator returns, it reports nothing iff the graph is consistent, and what it reports are errors without
primitive. -/
theorem routingGraphIsValid_iff (text : VErr Prim → String) (g : RGraph Prim K) (ho : EdgesOk g) (order : List Prim)
    (hord : ∀ p, p ∈ order ↔ p ∈ g.vertices) (issues : List Verif.Valid.Issue) (h : routingGraphIsValid text g order = some issues) :
    (issues = [] ↔ Consistent g isLane) ∧ ∀ x ∈ issues, x.severity = .error ∧ x.prim = none := by
  unfold routingGraphIsValid at h
  obtain ⟨es, hes, rfl⟩ := Option.map_eq_some_iff.mp h
  constructor
  · rw [List.map_eq_nil_iff]
    exact Verif.Graph.checkValidity_iff ho hord hes
  · intro x hx
    obtain ⟨e, -, rfl⟩ := List.mem_map.mp hx
    exact ⟨rfl, rfl⟩

theorem neighbour_mem_nbrs (g : RGraph Prim K) (rel : RelationType) (p q : Prim) (h : g.neighbour isLane 0 rel p = some q) :
    q ∈ nbrs g rel p := by
  unfold RGraph.neighbour at h
  unfold nbrs RGraph.getAllEdges
  cases hv : g.getVertex p with
  | none => rw [hv] at h; cases h
  | some v =>
    rw [hv] at h
    simp only [if_true] at h ⊢
    cases hl : g.outEdges 0 rel v with
    | nil => rw [hl] at h; cases h
    | cons e es =>
      rw [hl] at h
      simp only at h
      cases hq : g.vertices[e.dst]? with
      | none => rw [hq] at h; cases h
      | some q' =>
        rw [hq] at h
        simp only at h
        split at h
        · cases h
          exact List.mem_filterMap.mpr ⟨e, by simp, hq⟩
        · cases h

/-- C105: in a map where lanelets have at most one neighbour per side and where going to the left comes to an end (`lanes`: the number of
lanes to the left), the validator of the graph returns and reports nothing. -/
theorem build_valid (i : Input P K) (hi : InputOk i) (ok : CostsOk i) (hc : i.costs ≠ []) (ht : Tidy i) (g : RGraph Prim K)
    (hg : build i = some g) (lanes : LH → Nat) (hl : ∀ a b, InGraph i a → InGraph i b → a ≠ b → Beside i true a b → lanes b < lanes a)
    (text : VErr Prim → String) (order : List Prim) (hord : ∀ p, p ∈ order ↔ p ∈ g.vertices) :
    routingGraphIsValid text g order = some [] := by
  have hM : ∀ a, InGraph i a → lanes a ≤ ((allLanelets i).map lanes).sum := by
    intro a ha
    have hm := (mem_allLanelets i hi a).mpr ha
    generalize allLanelets i = l at hm
    induction l with
    | nil => cases hm
    | cons x l ih =>
      rw [List.map_cons, List.sum_cons]
      rcases List.mem_cons.mp hm with rfl | hm
      · omega
      · have := ih hm; omega
  obtain ⟨es, hes⟩ := Verif.Graph.checkValidity_returns (g := g) (isLanelet := isLane)
    (l := fun p => match p with | .inl a => lanes a | .inr _ => 0)
    (r := fun p => match p with | .inl a => ((allLanelets i).map lanes).sum - lanes a | .inr _ => 0)
    (by
      rintro p q (h | h)
      · obtain ⟨a, b, rfl, rfl, ha, hb, hne, hbs⟩ := nbr_beside i hi ok g hg true p q _ (.inl rfl) (neighbour_mem_nbrs g _ p q h)
        exact hl a b ha hb hne hbs
      · obtain ⟨a, b, rfl, rfl, ha, hb, hne, hbs⟩ := nbr_beside i hi ok g hg true p q _ (.inr rfl) (neighbour_mem_nbrs g _ p q h)
        exact hl a b ha hb hne hbs)
    (by
      have key : ∀ p q : Prim, (∃ a b, p = .inl a ∧ q = .inl b ∧ InGraph i a ∧ InGraph i b ∧ a ≠ b ∧ Beside i false a b) →
          (match q with | .inl a => ((allLanelets i).map lanes).sum - lanes a | .inr (_ : Nat) => 0) <
            (match p with | .inl a => ((allLanelets i).map lanes).sum - lanes a | .inr (_ : Nat) => 0) := by
        rintro p q ⟨a, b, rfl, rfl, ha, hb, hne, hbs⟩
        have h1 := hl b a hb ha (Ne.symm hne) ((beside_flip i false a b).mp hbs)
        have h2 := hM b hb
        simp only
        omega
      rintro p q (h | h)
      · exact key p q (nbr_beside i hi ok g hg false p q _ (.inl rfl) (neighbour_mem_nbrs g _ p q h))
      · exact key p q (nbr_beside i hi ok g hg false p q _ (.inr rfl) (neighbour_mem_nbrs g _ p q h)))
    order
  have hr : routingGraphIsValid text g order = some (es.map fun e => ⟨.error, none, text e⟩) := by
    unfold routingGraphIsValid; rw [hes]; rfl
  rw [hr, ((routingGraphIsValid_iff text g (build_edgesOk i hi ok g hg) order hord _ hr).1).mpr (build_consistent i hi ok hc ht g hg)]

/-- Disagreement with C105: whenever two lanelets `b` and `b'` lie beside `a` on the same side (both have the bound of `a` on this side)
and `a` is their only neighbour on the other side, the graph that is built for this map is not consistent, whatever the traffic rules
say about lane changes. The validator complains about a graph that the library has built itself. -/
theorem two_neighbours_counterexample (i : Input P K) (hi : InputOk i) (ok : CostsOk i) (hc : i.costs ≠ []) (g : RGraph Prim K)
    (hg : build i = some g) (isLeft : Bool) (a b b' : LH) (ha : InGraph i a) (hb : InGraph i b) (hb' : InGraph i b') (hne : b ≠ b')
    (h : OnlyBeside i (!isLeft) b a) (h' : OnlyBeside i (!isLeft) b' a)
    (hone : ∀ x, InGraph i x → Beside i (!isLeft) b x → x = a) (hone' : ∀ x, InGraph i x → Beside i (!isLeft) b' x → x = a) :
    ¬ Consistent g isLane := by
  intro hcons
  have m := edges_nbr i hi ok hc g hg (!isLeft) b a hb ha h (fun x hx _ hs => hone x hx hs)
  have m' := edges_nbr i hi ok hc g hg (!isLeft) b' a hb' ha h' (fun x hx _ hs => hone' x hx hs)
  obtain ⟨g', hg', -, hv, -, -⟩ := build_vertices i hi ok
  obtain rfl : g' = g := by rw [hg] at hg'; simpa using hg'.symm
  have va := (hv a).mpr ha
  have len : ∀ {l : List Prim} {x y : Prim}, l.length ≤ 1 → x ∈ l → y ∈ l → x = y := by
    intro l x y hl hx hy
    match l, hl with
    | [], _ => cases hx
    | [z], _ => simp at hx hy; rw [hx, hy]
  have fin : ∀ r1 r2 : RelationType, r1 ∈ [Left, AdjacentLeft, Right, AdjacentRight] → r2 ∈ [Left, AdjacentLeft, Right, AdjacentRight] →
      ¬ ((∃ q ∈ nbrs g' r1 (.inl a), isLane q = true) ∧ ∃ q ∈ nbrs g' r2 (.inl a), isLane q = true) →
      (.inl b : Prim) ∈ nbrs g' r1 (.inl a) ++ nbrs g' r2 (.inl a) → (.inl b' : Prim) ∈ nbrs g' r1 (.inl a) ++ nbrs g' r2 (.inl a) → False := by
    intro r1 r2 hr1 hr2 hk x y
    rcases List.mem_append.mp x with x | x <;> rcases List.mem_append.mp y with y | y
    · exact hne (Sum.inl.inj (len (hcons.unique _ va r1 hr1) x y))
    · exact hk ⟨⟨_, x, rfl⟩, ⟨_, y, rfl⟩⟩
    · exact hk ⟨⟨_, y, rfl⟩, ⟨_, x, rfl⟩⟩
    · exact hne (Sum.inl.inj (len (hcons.unique _ va r2 hr2) x y))
  cases isLeft with
  | true =>
    exact fin Left AdjacentLeft (by decide) (by decide) (hcons.leftKind _ va)
      (hcons.rightMirror _ ((hv b).mpr hb) _ rfl m).2 (hcons.rightMirror _ ((hv b').mpr hb') _ rfl m').2
  | false =>
    exact fin Right AdjacentRight (by decide) (by decide) (hcons.rightKind _ va)
      (hcons.leftMirror _ ((hv b).mpr hb) _ rfl m).2 (hcons.leftMirror _ ((hv b').mpr hb') _ rfl m').2

/-! ### cases -/

/-- the lanelets of the example are tidy -/
theorem exInput_tidy : Tidy exInput := by
  have hall : allLanelets exInput = [⟨0, false⟩, ⟨1, false⟩, ⟨2, false⟩, ⟨3, false⟩, ⟨2, true⟩] := by decide
  have hm : ∀ a, InGraph exInput a → a ∈ ([⟨0, false⟩, ⟨1, false⟩, ⟨2, false⟩, ⟨3, false⟩, ⟨2, true⟩] : List LH) := fun a ha => by
    rw [← hall]; exact (mem_allLanelets exInput exInput_ok.1 a).mpr ha
  constructor
  · intro isLeft a b ha hb hne hbs
    have key : ∀ a ∈ ([⟨0, false⟩, ⟨1, false⟩, ⟨2, false⟩, ⟨3, false⟩, ⟨2, true⟩] : List LH),
        ∀ b ∈ ([⟨0, false⟩, ⟨1, false⟩, ⟨2, false⟩, ⟨3, false⟩, ⟨2, true⟩] : List LH), ∀ isLeft, a ≠ b → Beside exInput isLeft a b →
          ¬ Beside exInput (!isLeft) a b ∧ follows exInput.w a b = false ∧
            (exInput.overlapsLL a b = false ∧ exInput.overlapsLL b a = false) ∧ b ≠ invertL a := by decide +kernel
    obtain ⟨k1, k2, k3, k4⟩ := key a (hm a ha) b (hm b hb) isLeft hne hbs
    exact ⟨hne, hbs, k1, k2, k3, k4⟩
  · intro isLeft a b b' ha hb hb' hne hne' hbs hbs'
    have key : ∀ a ∈ ([⟨0, false⟩, ⟨1, false⟩, ⟨2, false⟩, ⟨3, false⟩, ⟨2, true⟩] : List LH),
        ∀ b ∈ ([⟨0, false⟩, ⟨1, false⟩, ⟨2, false⟩, ⟨3, false⟩, ⟨2, true⟩] : List LH),
        ∀ b' ∈ ([⟨0, false⟩, ⟨1, false⟩, ⟨2, false⟩, ⟨3, false⟩, ⟨2, true⟩] : List LH), ∀ isLeft, b ≠ a → b' ≠ a →
          Beside exInput isLeft a b → Beside exInput isLeft a b' → b = b' := by decide +kernel
    exact key a (hm a ha) b (hm b hb) b' (hm b' hb') isLeft hne hne' hbs hbs'

/-- Case: two lanelets beside each other; the validator reports nothing. -/
example : ∃ g, build exInput = some g ∧ ∀ text, routingGraphIsValid text g g.vertices = some [] := by
  obtain ⟨g, hg, -⟩ := build_vertices exInput exInput_ok.1 exInput_ok.2
  refine ⟨g, hg, fun text => build_valid exInput exInput_ok.1 exInput_ok.2 (by decide) exInput_tidy g hg (fun l => l.data) ?_ text _
    (fun _ => Iff.rfl)⟩
  intro a b ha hb hne hbs
  have hall : allLanelets exInput = [⟨0, false⟩, ⟨1, false⟩, ⟨2, false⟩, ⟨3, false⟩, ⟨2, true⟩] := by decide
  have hm : ∀ a, InGraph exInput a → a ∈ ([⟨0, false⟩, ⟨1, false⟩, ⟨2, false⟩, ⟨3, false⟩, ⟨2, true⟩] : List LH) := fun a ha => by
    rw [← hall]; exact (mem_allLanelets exInput exInput_ok.1 a).mpr ha
  have key : ∀ a ∈ ([⟨0, false⟩, ⟨1, false⟩, ⟨2, false⟩, ⟨3, false⟩, ⟨2, true⟩] : List LH),
      ∀ b ∈ ([⟨0, false⟩, ⟨1, false⟩, ⟨2, false⟩, ⟨3, false⟩, ⟨2, true⟩] : List LH), a ≠ b → Beside exInput true a b →
        b.data < a.data := by decide +kernel
  exact key a (hm a ha) b (hm b hb) hne hbs

/-- Example: lanelets 1 and 2 both have the right bound that is the left bound of lanelet 0. -/
def forkInput : Input Nat Nat where
  w := { pts := fun n => [10 * n, 10 * n + 1], ids := fun n => n,
         lls := fun n => if n = 0 then ⟨⟨1, false⟩, ⟨0, false⟩, [], none⟩ else ⟨⟨n + 1, false⟩, ⟨1, false⟩, [], none⟩,
         ars := fun _ => ⟨[], [], [], [], []⟩ }
  ptId n := n
  llId n := n
  lanelets := [⟨0, false⟩, ⟨1, false⟩, ⟨2, false⟩]
  areas := []
  rules := ⟨fun l => !l.inv, fun _ => true, fun _ _ => true, fun _ _ => false, fun _ _ => false, fun _ _ => false, fun _ _ => true⟩
  costs := [⟨fun _ _ => 3, fun _ _ => 2⟩]
  tests := ⟨fun _ => true, fun _ => false⟩
  one := 1
  boxLL _ _ := true
  boxAL _ _ := true
  boxAA _ _ := true
  overlapsLL a b := (a.data == 1 && b.data == 2) || (a.data == 2 && b.data == 1)
  overlapsAL _ _ := false
  overlapsAA _ _ := false
  orderRange l := l
  orderSearch l := l
  orderSearchA l := l
  shuffle l := l

/-- Case: the graph of a map with two lanelets on the left of a third is not consistent. -/
example : ∃ g, build forkInput = some g ∧ ¬ Consistent g isLane := by
  have h1 : InputOk forkInput := ⟨by decide, by decide, by decide, by decide, fun l => List.Perm.refl l, fun l => List.Perm.refl l,
    fun l => List.Perm.refl l, fun l => List.Perm.refl l⟩
  have h2 : CostsOk forkInput := ⟨rfl, rfl, fun c _ a b => rfl, fun c _ a b => rfl⟩
  obtain ⟨g, hg, -⟩ := build_vertices forkInput h1 h2
  have hall : allLanelets forkInput = [⟨0, false⟩, ⟨1, false⟩, ⟨2, false⟩] := by decide
  have hone : ∀ b ∈ ([⟨1, false⟩, ⟨2, false⟩] : List LH), ∀ x, InGraph forkInput x → Beside forkInput false b x → x = ⟨0, false⟩ := by
    intro b hb x hx
    have hm := (mem_allLanelets forkInput h1 x).mpr hx
    rw [hall] at hm
    have key : ∀ b ∈ ([⟨1, false⟩, ⟨2, false⟩] : List LH), ∀ x ∈ ([⟨0, false⟩, ⟨1, false⟩, ⟨2, false⟩] : List LH),
        Beside forkInput false b x → x = ⟨0, false⟩ := by decide +kernel
    exact key b hb x hm
  exact ⟨g, hg, two_neighbours_counterexample forkInput h1 h2 (by decide) g hg true ⟨0, false⟩ ⟨1, false⟩ ⟨2, false⟩ (by decide) (by decide)
    (by decide) (by decide) ⟨by decide, by decide, by decide, by decide, by decide, by decide⟩
    ⟨by decide, by decide, by decide, by decide, by decide, by decide⟩ (hone _ (by simp)) (hone _ (by simp))⟩

/-- Example: lanelet 1 lies on the left of lanelet 0, lane changes are permitted in both directions, and they overlap. The lanelets come
in the given order. -/
def overlapInput (lanelets : List LH) : Input Nat Nat :=
  { forkInput with lanelets := lanelets, overlapsLL := fun a b => a.data != b.data }

/-- the graph that is built; Example. -/
def overlapGraph (a b : LH) (rel : RelationType) : RGraph Prim Nat :=
  ⟨1, [.inl a, .inl b], [⟨0, 1, ⟨1, 0, Conflicting⟩⟩, ⟨1, 0, ⟨1, 0, Conflicting⟩⟩, ⟨0, 1, ⟨2, 0, rel⟩⟩]⟩

theorem overlap_build (isLeft : Bool) :
    build (overlapInput (if isLeft then [⟨0, false⟩, ⟨1, false⟩] else [⟨1, false⟩, ⟨0, false⟩])) =
      some (if isLeft then overlapGraph ⟨0, false⟩ ⟨1, false⟩ Left else overlapGraph ⟨1, false⟩ ⟨0, false⟩ Right) := by
  have key : ∀ (i : Input Nat Nat) (a b : LH) (s : St Nat) (l : Loop Nat) (isLeft : Bool) (gf : RGraph Prim Nat), initial i = some s →
      (allLanelets i).foldlM (laneletStep i) ⟨s, [], []⟩ = some l → (∀ x, i.shuffle x = x) →
      l.toLeft = (if isLeft then [⟨a, b, false⟩] else []) → l.toRight = (if isLeft then [] else [⟨a, b, false⟩]) →
      nextOf l.s.g a = some [] → prevOf l.s.g a = some [] → nextOf l.s.g b = some [] → prevOf l.s.g b = some [] →
      assignLaneChangeCosts i isLeft [(a, b)] l.s.g = some gf → addAreaEdges i gf = some gf → build i = some gf := by
    intro i a b s l isLeft gf h1 h2 h3 h4 h5 n1 n2 n3 n4 h6 h7
    have hch : ∀ adj : LH → Option (List LH), adj a = some [] → adj b = some [] → ∀ m, chain adj m a b = some (m, []) := by
      intro adj e1 e2 m
      rw [chain, e1, e2]; rfl
    have hnil : ∀ (isL : Bool) (g : RGraph Prim Nat), addLaneChangeEdges i isL g [] = some g := by
      intro isL g
      unfold addLaneChangeEdges
      rw [h3, laneChangeLoop]; rfl
    have hone : addLaneChangeEdges i isLeft l.s.g [⟨a, b, false⟩] = some gf := by
      unfold addLaneChangeEdges
      rw [h3, laneChangeLoop]
      have g1 : getNext (prevOf l.s.g) (nextOf l.s.g) [⟨a, b, false⟩] 0 = some (some [(a, b)], [⟨a, b, true⟩], 0) := by
        simp [getNext, mark, hch _ n1 n3, hch _ n2 n4]
      rw [g1]
      simp only [Option.bind_eq_bind, Option.bind_some, h6]
      rw [laneChangeLoop]
      rfl
    unfold build addLaneletEdges
    rw [h1]
    simp only [Option.bind_eq_bind, Option.bind_some, h2, h4, h5]
    cases isLeft
    · simp only [Bool.false_eq_true, if_false, hnil, Option.bind_some, hone, h7]
    · simp only [if_true, hnil, Option.bind_some, hone, h7]
  cases isLeft
  · exact key (overlapInput [⟨1, false⟩, ⟨0, false⟩]) ⟨1, false⟩ ⟨0, false⟩ _ _ false _ rfl rfl (fun _ => rfl) rfl rfl rfl rfl rfl rfl rfl rfl
  · exact key (overlapInput [⟨0, false⟩, ⟨1, false⟩]) ⟨0, false⟩ ⟨1, false⟩ _ _ true _ rfl rfl (fun _ => rfl) rfl rfl rfl rfl rfl rfl rfl rfl

/-- Disagreement with C28 and C105: two lanelets that lie beside each other, overlap a little and have permitted lane changes in both
directions: only the one that comes first in the map gets its lane change, the other is left with a conflict, so that the graph depends on
the order of a hash map and is not consistent. -/
theorem overlap_neighbours_counterexample :
    ∃ g g', build (overlapInput [⟨0, false⟩, ⟨1, false⟩]) = some g ∧ build (overlapInput [⟨1, false⟩, ⟨0, false⟩]) = some g' ∧
      (edgesOf g (.inl ⟨0, false⟩) (.inl ⟨1, false⟩)).map (·.relation) = [Conflicting, Left] ∧
      (edgesOf g (.inl ⟨1, false⟩) (.inl ⟨0, false⟩)).map (·.relation) = [Conflicting] ∧
      (edgesOf g' (.inl ⟨0, false⟩) (.inl ⟨1, false⟩)).map (·.relation) = [Conflicting] ∧
      (edgesOf g' (.inl ⟨1, false⟩) (.inl ⟨0, false⟩)).map (·.relation) = [Conflicting, Right] ∧
      ¬ Consistent g isLane ∧ ¬ Consistent g' isLane := by
  refine ⟨_, _, overlap_build true, overlap_build false, by decide, by decide, by decide, by decide, ?_, ?_⟩
  · intro h
    exact absurd (h.leftMirror (.inl ⟨0, false⟩) (by decide) (.inl ⟨1, false⟩) rfl (by decide)).2 (by decide)
  · intro h
    exact absurd (h.rightMirror (.inl ⟨1, false⟩) (by decide) (.inl ⟨0, false⟩) rfl (by decide)).2 (by decide)

/-- Disagreement with C28: two lanelets that can be used in both directions and overlap conflict in three of the four combinations of their
directions, but never if both are driven against their direction. -/
theorem both_inverted_counterexample (i : Input P K) (hi : InputOk i) (ok : CostsOk i) (g : RGraph Prim K) (hg : build i = some g)
    (a b : LH) (ha : a.inv = true) (hb : b.inv = true) : ∀ x ∈ edgesOf g (.inl a) (.inl b), x.relation ≠ Conflicting := by
  intro x hx hr
  rcases (conflicting_sound i hi ok g hg a b x hx hr).2.2.2.1 with h | h
  · rw [ha] at h; cases h
  · rw [hb] at h; cases h

/-- Example: two crossing lanelets that can be used in both directions. -/
def crossInput : Input Nat Nat :=
  { forkInput with
    w := { pts := fun n => [10 * n, 10 * n + 1], ids := fun n => n, lls := fun n => ⟨⟨2 * n, false⟩, ⟨2 * n + 1, false⟩, [], none⟩,
           ars := fun _ => ⟨[], [], [], [], []⟩ }
    lanelets := [⟨0, false⟩, ⟨1, false⟩]
    rules := ⟨fun _ => true, fun _ => true, fun _ _ => true, fun _ _ => false, fun _ _ => false, fun _ _ => false, fun _ _ => true⟩
    overlapsLL := fun a b => a.data != b.data }

/-- Case: all four lanelets of the graph overlap those of the other road; the conflict between the inverted ones is missing. -/
example : ∃ g, build crossInput = some g ∧ (.inl ⟨0, true⟩ : Prim) ∈ g.vertices ∧ (.inl ⟨1, true⟩ : Prim) ∈ g.vertices ∧
    crossInput.overlapsLL ⟨0, true⟩ ⟨1, true⟩ = true ∧
    ⟨1, 0, Conflicting⟩ ∈ edgesOf g (.inl ⟨0, false⟩) (.inl ⟨1, false⟩) ∧ ⟨1, 0, Conflicting⟩ ∈ edgesOf g (.inl ⟨0, true⟩) (.inl ⟨1, false⟩) ∧
    ⟨1, 0, Conflicting⟩ ∈ edgesOf g (.inl ⟨1, true⟩) (.inl ⟨0, false⟩) ∧
    ∀ x ∈ edgesOf g (.inl ⟨0, true⟩) (.inl ⟨1, true⟩), x.relation ≠ Conflicting := by
  have h1 : InputOk crossInput := ⟨by decide, by decide, by decide, by decide, fun l => List.Perm.refl l, fun l => List.Perm.refl l,
    fun l => List.Perm.refl l, fun l => List.Perm.refl l⟩
  have h2 : CostsOk crossInput := ⟨rfl, rfl, fun c _ a b => rfl, fun c _ a b => rfl⟩
  obtain ⟨g, hg, -, hv, -⟩ := build_vertices crossInput h1 h2
  have key : ∀ a b : LH, InGraph crossInput a → InGraph crossInput b → b.inv = false → a ≠ b → crossInput.overlapsLL a b = true →
      follows crossInput.w a b = false → ¬ Beside crossInput true a b → ¬ Beside crossInput false a b →
      (⟨1, 0, Conflicting⟩ : EdgeInfo Nat) ∈ edgesOf g (.inl a) (.inl b) := fun a b k1 k2 k3 k4 k5 k6 k7 k8 =>
    ((conflicting_complete crossInput h1 h2 (by decide) g hg a b k1 k2 k3 k4 rfl k5).2 k6 k7 k8 0 (by decide)).1
  exact ⟨g, hg, (hv _).mpr (by decide), (hv _).mpr (by decide), by decide,
    key _ _ (by decide) (by decide) rfl (by decide) (by decide) (by decide) (by decide) (by decide),
    key _ _ (by decide) (by decide) rfl (by decide) (by decide) (by decide) (by decide) (by decide),
    key _ _ (by decide) (by decide) rfl (by decide) (by decide) (by decide) (by decide) (by decide),
    both_inverted_counterexample crossInput h1 h2 g hg _ _ rfl rfl⟩

end Verif.Build
