import Verif.Route.Build

/-!
Helper lemmas: what the result of the construction looks like.
-/
set_option linter.unusedSectionVars false
namespace Verif.Route
open Verif.Graph Verif.Graph.RelationType
open Relation (ReflTransGen EqvGen)
variable {P K : Type} [DecidableEq P]

theorem visited_valid {vis : Visited} {n v : Nat} (h : v ∈ vis.valid n) : v < n := by
  unfold Visited.valid at h
  exact List.mem_range.mp (List.mem_of_mem_filter h)

theorem addAdjacent_grows {E : List (BaseEdge K)} {n start finish : Nat} {within R R' : List Nat} {b : Bool}
    (h : addAdjacent E n start finish within R = some (.ok (b, R'))) : ∃ new, R' = R ++ new ∧ ∀ v ∈ new, v < n := by
  unfold addAdjacent at h
  simp only [bind, Option.bind_eq_some_iff] at h
  obtain ⟨order, -, vis, -, o, -, h⟩ := h
  cases o with
  | error f => cases h
  | ok rem =>
    have h := Except.ok.inj (Option.some.inj h)
    refine ⟨_, (congrArg Prod.snd h).symm, ?_⟩
    intro v hv
    exact visited_valid (List.mem_of_mem_filter hv)

theorem extend_grows {E : List (BaseEdge K)} {n start finish : Nat} {within R R' : List Nat}
    (h : extend E n start finish within R = some (.ok R')) : ∃ new, R' = R ++ new ∧ ∀ v ∈ new, v < n := by
  have key := extend.partial_correctness E n start finish within
    (fun R o => ∀ R', o = .ok R' → ∃ new, R' = R ++ new ∧ ∀ v ∈ new, v < n) ?_ R (.ok R') h
  · exact key R' rfl
  · intro rec ih R o h R' ho
    simp only [bind, Option.bind_eq_some_iff] at h
    obtain ⟨a, ha, h⟩ := h
    cases a with
    | error f => subst ho; cases h
    | ok s =>
      obtain ⟨b, R1⟩ := s
      obtain ⟨new, h1, h2⟩ := addAdjacent_grows ha
      simp only at h
      cases b with
      | true =>
        simp only [if_true] at h
        obtain ⟨new', k1, k2⟩ := ih R1 o h R' ho
        refine ⟨new ++ new', by rw [k1, h1]; simp, ?_⟩
        intro v hv
        rcases List.mem_append.mp hv with hv | hv
        · exact h2 v hv
        · exact k2 v hv
      | false =>
        simp only [Bool.false_eq_true, if_false, pure, Option.some.injEq] at h
        rw [← h] at ho
        cases ho
        exact ⟨new, h1, h2⟩

theorem mapM_getVertex {g : RGraph P K} : ∀ {path : List P} {vs : List Nat}, path.mapM g.getVertex = some vs →
    vs.map (g.vertices[·]?) = path.map some := by
  intro path
  induction path with
  | nil => intro vs h; simp only [List.mapM_nil, pure, Option.some.injEq] at h; subst h; rfl
  | cons p path ih =>
    intro vs h
    rw [List.mapM_cons] at h
    simp only [bind, Option.bind_eq_some_iff, pure, Option.some.injEq] at h
    obtain ⟨v, hv, vs', h', rfl⟩ := h
    rw [List.map_cons, List.map_cons, ih h', (getVertex_spec hv).2]

/-- the shape of the result -/
structure Facts (t : CostTests K) (g : RGraph P K) (path : List P) (lc : Bool) (costId : Nat) (vs R order : List Nat) (s : Visitor P K) :
    Prop where
  mapped : vs.map (g.vertices[·]?) = path.map some
  onPath : ∀ v ∈ vs, v ∈ R
  bound : ∀ v ∈ R, v < g.vertices.length
  start : order.head? = vs.head?
  nodup : order.Nodup
  reach : ∀ v, v ∈ order ↔ ∃ u, vs.head? = some u ∧ ReflTransGen (fun a b => ∃ e ∈ original g lc costId, e.src = a ∧ e.dst = b ∧ b ∈ R) u v
  inv : Inv g (original g lc costId) (routeOut (original g lc costId) R) (routeIn (original g lc costId) R)
    (order.flatMap (routeOut (original g lc costId) R)) order order s
  ext : ∃ start fin within, vs.head? = some start ∧ vs.getLast? = some fin ∧ lastLanelets (original g lc costId) vs = some within ∧
    extend (original g lc costId) g.vertices.length start fin within vs.dedup = some (.ok R)

theorem original_sub {g : RGraph P K} {lc : Bool} {costId : Nat} {e : BaseEdge K} (h : e ∈ original g lc costId) : e ∈ g.edges :=
  List.mem_of_mem_filter h

theorem mem_routeOut {E : List (BaseEdge K)} {R : List Nat} {v : Nat} {e : BaseEdge K} :
    e ∈ routeOut E R v ↔ e ∈ E ∧ e.src = v ∧ e.dst ∈ R := by
  simp only [routeOut, outE, List.mem_filter, beq_iff_eq, decide_eq_true_eq, and_assoc]

theorem mem_routeIn {E : List (BaseEdge K)} {R : List Nat} {v : Nat} {e : BaseEdge K} :
    e ∈ routeIn E R v ↔ e ∈ E ∧ e.dst = v ∧ e.src ∈ R := by
  simp only [routeIn, inE, List.mem_filter, beq_iff_eq, decide_eq_true_eq, and_assoc]

/-- what remains to be checked when the graph is constructed -/
def finish (g : RouteGraph P K) (path : List P) : Option (Route P K) :=
  match path.getLast? with
  | none => none
  | some last => (g.graph.getVertex last).map fun _ => { graph := g, shortestPath := path }

theorem buildRoute_facts {t : CostTests K} {g : RGraph P K} (wf : WF t g) {path : List P} {lc : Bool} {costId : Nat}
    {x : Option (Route P K)} (h : buildRoute t g path lc costId = some (.ok x)) :
    ∃ vs R order s, Facts t g path lc costId vs R order s ∧ x = finish s.route path := by
  unfold buildRoute at h
  split at h
  · cases h
  · rename_i vs hvs
    simp only at h
    split at h
    · rename_i start fin hstart hfin
      simp only [bind, Option.bind_eq_some_iff] at h
      obtain ⟨within, hwithin, o, ho, h⟩ := h
      cases o with
      | error f => cases h
      | ok R =>
        simp only [finalize, bind, Option.bind_eq_some_iff, pure, Option.some.injEq] at h
        obtain ⟨order, hord, h⟩ := h
        obtain ⟨new, hR, hnew⟩ := extend_grows ho
        have hpath := mapM_getVertex hvs
        have hvb : ∀ v ∈ vs, v < g.vertices.length := by
          intro v hv
          have h1 : g.vertices[v]? ∈ vs.map (g.vertices[·]?) := List.mem_map_of_mem (f := (g.vertices[·]?)) hv
          rw [hpath] at h1
          obtain ⟨p, -, hp⟩ := List.mem_map.mp h1
          exact (List.getElem?_eq_some_iff.mp hp.symm).1
        have hsb : start < g.vertices.length := hvb _ (List.mem_of_head? hstart)
        have hE : EOk t g (routeOut (original g lc costId) R) (original g lc costId) :=
          ⟨fun e he => wf.dst e (original_sub he), fun e he => wf.fin e (original_sub he), fun e he => wf.nonneg e (original_sub he),
            fun u e he => ⟨(mem_routeOut.mp he).1, (mem_routeOut.mp he).2.1⟩⟩
        obtain ⟨s, hs, hinv⟩ := construct_inv (ins := routeIn (original g lc costId) R) wf.nodup hE hsb hord
        obtain ⟨o1, o2, o3⟩ := bfs_spec hord
        refine ⟨vs, R, order, s, ⟨hpath, ?_, ?_, ?_, o1, ?_, hinv, start, fin, within, hstart, hfin, hwithin, ho⟩, ?_⟩
        · intro v hv
          rw [hR]
          exact List.mem_append_left _ (List.mem_dedup.mpr hv)
        · intro v hv
          rw [hR] at hv
          rcases List.mem_append.mp hv with hv | hv
          · exact hvb v (List.mem_dedup.mp hv)
          · exact hnew v hv
        · rw [o2, hstart]
        · intro v
          rw [o3 v]
          have hrel : (fun a b => b ∈ (routeOut (original g lc costId) R a).map (·.dst)) =
              (fun a b => ∃ e ∈ original g lc costId, e.src = a ∧ e.dst = b ∧ b ∈ R) := by
            funext a b
            apply propext
            simp only [List.mem_map, mem_routeOut]
            constructor
            · rintro ⟨e, ⟨h1, h2, h3⟩, rfl⟩; exact ⟨e, h1, h2, rfl, h3⟩
            · rintro ⟨e, h1, h2, rfl, h3⟩; exact ⟨e, ⟨h1, h2, h3⟩, rfl⟩
          rw [hrel]
          constructor
          · intro h; exact ⟨start, hstart, h⟩
          · rintro ⟨u, hu, h⟩
            rw [hstart] at hu
            cases hu
            exact h
        · rw [hs] at h
          simp only [bind, Except.bind] at h
          unfold finish
          cases hl : path.getLast? with
          | none => rw [hl] at h; cases h
          | some last =>
            rw [hl] at h
            simp only at h ⊢
            cases hg : s.route.graph.getVertex last with
            | none => rw [hg] at h; simp only [pure, Except.pure, Except.ok.injEq] at h; rw [← h]; rfl
            | some v => rw [hg] at h; simp only [pure, Except.pure, Except.ok.injEq] at h; rw [← h]; rfl
    · cases h

section
variable {t : CostTests K} {g : RGraph P K} {path : List P} {lc : Bool} {costId : Nat} {vs R order : List Nat} {s : Visitor P K}

theorem Facts.order_sub (f : Facts t g path lc costId vs R order s) {v : Nat} (hv : v ∈ order) : v ∈ R := by
  obtain ⟨u, hu, h⟩ := (f.reach v).mp hv
  cases h with
  | refl => exact f.onPath _ (List.mem_of_head? hu)
  | tail _ h2 => obtain ⟨e, -, -, -, h⟩ := h2; exact h

theorem Facts.step (f : Facts t g path lc costId vs R order s) {e : BaseEdge K} (he : e ∈ original g lc costId) (h1 : e.src ∈ order)
    (h2 : e.dst ∈ R) : e.dst ∈ order := by
  obtain ⟨u, hu, h⟩ := (f.reach _).mp h1
  exact (f.reach _).mpr ⟨u, hu, h.tail ⟨e, he, rfl, rfl, h2⟩⟩

/-- the vertex of an element of the order -/
theorem Facts.vertex (f : Facts t g path lc costId vs R order s) {v : Nat} (hv : v ∈ order) :
    s.route.graph.vertices[order.idxOf v]? = g.vertices[v]? := by
  have h := sees_get f.inv.sees (order.idxOf v)
  rw [List.getElem?_idxOf hv] at h
  simp only [Option.map_some] at h
  obtain ⟨p, hp⟩ : ∃ p, g.vertices[v]? = some p := ⟨_, List.getElem?_eq_getElem (f.inv.bound v hv)⟩
  rw [hp] at h ⊢
  cases hv : s.route.graph.vertices[order.idxOf v]? with
  | none => rw [hv] at h; cases h
  | some q => rw [hv] at h; exact Option.some.inj h

/-- the vertices of the route -/
theorem Facts.mem (f : Facts t g path lc costId vs R order s) {p : P} :
    p ∈ s.route.graph.vertices ↔ ∃ v ∈ order, g.vertices[v]? = some p := by
  constructor
  · intro h
    have h1 : some p ∈ s.route.graph.vertices.map some := List.mem_map_of_mem h
    rw [f.inv.sees] at h1
    obtain ⟨v, hv, h2⟩ := List.mem_map.mp h1
    exact ⟨v, hv, h2⟩
  · rintro ⟨v, hv, hp⟩
    have h1 : g.vertices[v]? ∈ order.map (g.vertices[·]?) := List.mem_map_of_mem (f := (g.vertices[·]?)) hv
    rw [← f.inv.sees, hp] at h1
    obtain ⟨q, hq, h2⟩ := List.mem_map.mp h1
    rw [← Option.some.inj h2]
    exact hq

theorem Facts.getVertex (f : Facts t g path lc costId vs R order s) (wf : WF t g) {v : Nat} {p : P} (hv : v ∈ order)
    (hp : g.vertices[v]? = some p) : s.route.graph.getVertex p = some (order.idxOf v) := by
  rw [sees_getVertex wf.nodup f.inv.sees f.nodup hp, if_pos hv]

theorem Facts.mem_edges (f : Facts t g path lc costId vs R order s) {e' : BaseEdge K} :
    e' ∈ s.route.graph.edges ↔ ∃ e ∈ original g lc costId, e.src ∈ order ∧ e.dst ∈ order ∧ e' = routeEdge order e := by
  rw [f.inv.edges]
  simp only [List.mem_map, List.mem_flatMap, mem_routeOut]
  constructor
  · rintro ⟨e, ⟨u, hu, h1, rfl, h2⟩, rfl⟩
    exact ⟨e, h1, hu, f.step h1 hu h2, rfl⟩
  · rintro ⟨e, h1, h2, h3, rfl⟩
    exact ⟨e, ⟨e.src, h2, h1, rfl, f.order_sub h3⟩, rfl⟩

theorem flatMap_perm {E : List (BaseEdge K)} : ∀ {l : List Nat}, l.Nodup →
    (l.flatMap fun u => E.filter fun e => e.src == u).Perm (E.filter fun e => decide (e.src ∈ l)) := by
  intro l
  induction l with
  | nil => intro _; simp
  | cons a l ih =>
    intro h
    rw [List.nodup_cons] at h
    rw [List.flatMap_cons]
    have h1 := List.filter_append_perm (fun e : BaseEdge K => e.src == a) (E.filter fun e => decide (e.src ∈ a :: l))
    rw [List.filter_filter, List.filter_filter] at h1
    have e1 : (E.filter fun e => e.src == a && decide (e.src ∈ a :: l)) = E.filter fun e => e.src == a := by
      apply List.filter_congr
      intro e _
      by_cases h : e.src = a <;> simp [h]
    have e2 : (E.filter fun e => !(e.src == a) && decide (e.src ∈ a :: l)) = E.filter fun e => decide (e.src ∈ l) := by
      apply List.filter_congr
      intro e _
      by_cases h' : e.src = a
      · simp [h', h.1]
      · simp [h']
    rw [e1, e2] at h1
    exact ((List.Perm.refl _).append (ih h.2)).trans h1

/-- the edges of the route with their multiplicity -/
theorem Facts.edges_perm (f : Facts t g path lc costId vs R order s) :
    s.route.graph.edges.Perm (((original g lc costId).filter fun e => decide (e.src ∈ order) && decide (e.dst ∈ order)).map (routeEdge order)) := by
  rw [f.inv.edges]
  apply List.Perm.map
  have h1 : (order.flatMap (routeOut (original g lc costId) R)) =
      (order.flatMap fun u => ((original g lc costId).filter fun e => decide (e.dst ∈ R)).filter fun e => e.src == u) := by
    congr 1
    funext u
    rw [routeOut, outE, List.filter_filter, List.filter_filter]
    apply List.filter_congr
    intro e _
    rw [Bool.and_comm]
  rw [h1]
  refine (flatMap_perm f.nodup).trans ?_
  rw [List.filter_filter]
  apply List.Perm.of_eq
  apply List.filter_congr
  intro e he
  by_cases h1 : e.src ∈ order
  · by_cases h2 : e.dst ∈ R
    · simp [h1, h2, f.step he h1 h2]
    · have : e.dst ∉ order := fun h => h2 (f.order_sub h)
      simp [h1, h2, this]
  · simp [h1]

end
end Verif.Route
