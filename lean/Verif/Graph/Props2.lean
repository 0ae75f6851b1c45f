import Verif.Graph.Props

/-!
More of C22, C24 and C27 at the interface of the routing graph: backward queries, all limits of possiblePaths,
leftRelations and rightRelations with their labels.
-/
namespace Verif.Search
variable {K : Type} [Cost K]

/-- A path stays within the limits of the parameters. -/
def Within (p : PossiblePathsParams K) (cost : K) (length : Nat) : Prop :=
  (∀ c, p.routingCostLimit = some c → Cost.lt cost c) ∧ (∀ n, p.elementLimit = some n → length < n)

theorem stopCriterion_iff {p : PossiblePathsParams K} {f : VisitInfo K → Bool} (h : stopCriterion p = .ok f)
    (i : VisitInfo K) : f i = true ↔ Within p i.cost i.length := by
  obtain ⟨c, n, b⟩ := p
  unfold Within
  cases c <;> cases n <;> simp [stopCriterion] at h <;> subst h <;>
    simp [stopIfCostMoreThan, stopIfLaneletsMoreThan]

/-- C24 for every combination of limits: `possiblePaths` returns paths whose proper prefixes are all within
the limits, and without `includeShorterPaths` every returned path has reached a limit. It fails only if no limit is given. -/
theorem possiblePaths_limits {g : Graph K} {n start : Nat} (hg : GraphOk g n) (hs : start < n)
    {pick : Nat → (Nat → K) → List Nat → Nat} (hpick : PickMin pick) (backw : Bool) (p : PossiblePathsParams K)
    (hp : p.routingCostLimit.isSome ∨ p.elementLimit.isSome) :
    ∃ paths : List (List Nat), possiblePaths g n pick backw start p = .ok (some (paths.map (render backw))) ∧
      (∀ l ∈ paths, ∀ q, q <+: l → q ≠ l → q ≠ [] → ∃ c, PathCost g q c ∧ Within p c q.length) ∧
      (∀ l ∈ paths, p.includeShorterPaths = false → ∃ c, PathCost g l c ∧ ¬ Within p c l.length) := by
  have hf : ∃ f, stopCriterion p = .ok f := by
    obtain ⟨c, n, b⟩ := p
    cases c <;> cases n <;> simp [stopCriterion] at hp ⊢
  obtain ⟨f, hf⟩ := hf
  obtain ⟨s, paths, h, hq, hpr, hn, h1, h2, h3⟩ := possiblePaths_core hg hs hpick backw p.includeShorterPaths f
  have hcost : ∀ {v sv p}, s.map v = some sv → TreePath s.map v p → PathCost g p sv.cost := by
    intro v sv p hv ht
    obtain ⟨p', ht', hc, -⟩ := h.treePath _ hv rfl
    rw [ht.unique ht']; exact hc
  have hlen : ∀ {v sv p}, s.map v = some sv → TreePath s.map v p → p.length = sv.length := by
    intro v sv p hv ht
    obtain ⟨sv', r1, r2⟩ := ht.length
    rw [hv] at r1
    have := Option.some.inj r1
    subst this
    exact r2.symm
  refine ⟨paths, ?_, ?_, ?_⟩
  · simp only [possiblePaths, hf]
    show Except.ok (possiblePathsImpl g n pick backw p.includeShorterPaths start f) = _
    rw [h1]
  · intro l hl q hql hne hq0
    obtain ⟨v, sv, hv, -, hk, ht⟩ := (h2 l).mp hl
    obtain ⟨u, hqu⟩ : ∃ u, q.getLast? = some u := by
      rw [List.getLast?_eq_some_getLast hq0]; exact ⟨_, rfl⟩
    have htu := ht.prefix hql hqu
    have huv : u ≠ v := by
      intro huv
      subst huv
      exact hne (htu.unique ht)
    obtain ⟨su, k1, k2⟩ := ht.inner h (hql.subset (List.mem_of_getLast? hqu)) huv
    refine ⟨su.cost, hcost k1 htu, ?_⟩
    rw [hpr u su k1] at k2
    rw [hlen k1 htu]
    exact (stopCriterion_iff hf _).mp k2
  · intro l hl hks
    obtain ⟨v, sv, hv, -, hk, ht⟩ := (h2 l).mp hl
    refine ⟨sv.cost, hcost hv ht, ?_⟩
    rw [hks] at hk
    have hk : sv.predicate = false := by simpa using hk
    rw [hlen hv ht]
    intro hw
    have := (stopCriterion_iff hf ⟨v, sv.predecessor, sv.cost, sv.length, sv.numLaneChanges⟩).mpr hw
    rw [← hpr v sv hv, hk] at this
    cases this

/-- Case with both limits. -/
example : ∃ paths : List (List Nat),
    possiblePaths exG 6 exPick false 0 ⟨some 3, some 2, false⟩ = .ok (some (paths.map (render false))) ∧
    ∀ l ∈ paths, ∃ c, PathCost exG l c ∧ (3 ≤ c ∨ 2 ≤ l.length) := by
  obtain ⟨paths, h1, -, h3⟩ := possiblePaths_limits exG_ok (start := 0) (by decide) exPick_min false
    ⟨some 3, some 2, false⟩ (by simp)
  refine ⟨paths, h1, ?_⟩
  intro l hl
  obtain ⟨c, hc, hw⟩ := h3 l hl rfl
  refine ⟨c, hc, ?_⟩
  by_cases h : 3 ≤ c
  · exact Or.inl h
  · right
    by_cases h2 : 2 ≤ l.length
    · exact h2
    · refine absurd ⟨?_, ?_⟩ hw
      · intro c' hc'
        simp only [Option.some.injEq] at hc'
        subst hc'
        exact h
      · intro n hn
        simp only [Option.some.injEq] at hn
        omega

end Verif.Search

namespace Verif.Graph
open Verif.Search RelationType
variable {P K : Type} [DecidableEq P]

/-- C27: `leftRelations` goes from lanelet to lanelet, each time to the neighbour on the left: by an edge `Left` if
there is one and otherwise by an edge `AdjacentLeft`, and reports it with this relation, until there is none. -/
theorem leftRelations_spec (g : RGraph P K) (isLanelet : P → Bool) (id : Nat) (p : P)
    (hx : ∀ v, g.neighbour isLanelet id Left v = none ∨ g.neighbour isLanelet id AdjacentLeft v = none)
    (l : List (P × RelationType)) (h : g.leftRelations isLanelet id p = some l) :
    ChainR (fun v => match g.neighbour isLanelet id Left v, g.neighbour isLanelet id AdjacentLeft v with
      | some w, _ => some (w, Left)
      | none, some w => some (w, AdjacentLeft)
      | none, none => none) p l := by
  have := relations_spec _ _ Left AdjacentLeft hx p l h
  have e : (stepEither (g.neighbour isLanelet id Left) (g.neighbour isLanelet id AdjacentLeft) Left AdjacentLeft) =
      (fun v => match g.neighbour isLanelet id Left v, g.neighbour isLanelet id AdjacentLeft v with
      | some w, _ => some (w, Left)
      | none, some w => some (w, AdjacentLeft)
      | none, none => none) := by
    funext v
    unfold stepEither
    cases g.neighbour isLanelet id Left v <;> cases g.neighbour isLanelet id AdjacentLeft v <;> rfl
  rw [← e]; exact this

/-- C27: the same for `rightRelations`. -/
theorem rightRelations_spec (g : RGraph P K) (isLanelet : P → Bool) (id : Nat) (p : P)
    (hx : ∀ v, g.neighbour isLanelet id Right v = none ∨ g.neighbour isLanelet id AdjacentRight v = none)
    (l : List (P × RelationType)) (h : g.rightRelations isLanelet id p = some l) :
    ChainR (fun v => match g.neighbour isLanelet id Right v, g.neighbour isLanelet id AdjacentRight v with
      | some w, _ => some (w, Right)
      | none, some w => some (w, AdjacentRight)
      | none, none => none) p l := by
  have := relations_spec _ _ Right AdjacentRight hx p l h
  have e : (stepEither (g.neighbour isLanelet id Right) (g.neighbour isLanelet id AdjacentRight) Right AdjacentRight) =
      (fun v => match g.neighbour isLanelet id Right v, g.neighbour isLanelet id AdjacentRight v with
      | some w, _ => some (w, Right)
      | none, some w => some (w, AdjacentRight)
      | none, none => none) := by
    funext v
    unfold stepEither
    cases g.neighbour isLanelet id Right v <;> cases g.neighbour isLanelet id AdjacentRight v <;> rfl
  rw [← e]; exact this

/-- A path over edges of one cost module whose relations are in `rels`, with the costs summed up from its end to its
beginning, as backward queries do. -/
inductive PPathTo (g : RGraph P K) (zero : K) (add : K → K → K) (id : Nat) (rels : List RelationType) :
    List P → K → Prop where
  | single (p : P) : PPathTo g zero add id rels [p] zero
  | cons {ps : List P} {c w : K} {p q : P} {r : RelationType} : PPathTo g zero add id rels ps c →
      ps.head? = some q → r ∈ rels → HasEdge g p q id r w → PPathTo g zero add id rels (p :: ps) (add c w)

variable [Cost K]

theorem ppathTo_of_pathCostTo {t : CostTests K} {g : RGraph P K} (h : Built t g)
    {w : RelationType × List RelationType} (hw : w ∈ views) (id : Nat) {vs : List Nat} {c : K}
    (hp : PathCostTo (g.filtered id w.1) vs c) (hlt : ∀ v ∈ vs, v < g.vertices.length) :
    ∃ ps, PPathTo g Cost.zero Cost.add id w.2 ps c ∧ vs.map (fun v => g.vertices[v]?) = ps.map some := by
  induction hp with
  | single v =>
    have := hlt v (by simp)
    exact ⟨[g.vertices[v]], .single _, by simp [this]⟩
  | cons hp hl he hd ih =>
    rename_i p c u v e
    obtain ⟨ps, h1, h2⟩ := ih (fun v hv => hlt v (List.mem_cons_of_mem _ hv))
    simp only [RGraph.filtered, List.mem_map] at he
    obtain ⟨x, hx, rfl⟩ := he
    have hx := (view_exact h hw id u x).mp hx
    simp only at hd
    subst hd
    have hu := hlt u (by simp)
    have hv : x.dst < g.vertices.length := (built_wf h).dst x hx.1
    have hh : ps.head? = some g.vertices[x.dst] := by
      have := congrArg List.head? h2
      rw [List.head?_map, hl, List.head?_map] at this
      simp only [Option.map_some, List.getElem?_eq_getElem hv] at this
      cases hps : ps.head? with
      | none => rw [hps] at this; simp at this
      | some q => rw [hps] at this; simpa using this.symm
    refine ⟨g.vertices[u] :: ps, .cons h1 hh hx.2.2.2 ⟨x, hx.1, ?_, List.getElem?_eq_getElem hv, hx.2.2.1, rfl, rfl⟩, ?_⟩
    · rw [hx.2.1, List.getElem?_eq_getElem hu]
    · simp [h2, List.getElem?_eq_getElem hu]

theorem pathCostTo_of_ppathTo {t : CostTests K} {g : RGraph P K} (h : Built t g)
    {w : RelationType × List RelationType} (hw : w ∈ views) (id : Nat) {ps : List P} {c : K}
    (hp : PPathTo g Cost.zero Cost.add id w.2 ps c) (hlast : ∀ p, ps.getLast? = some p → p ∈ g.vertices) :
    ∃ vs, PathCostTo (g.filtered id w.1) vs c ∧ vs.map (fun v => g.vertices[v]?) = ps.map some ∧
      ∀ v ∈ vs, v < g.vertices.length := by
  have wf := built_wf h
  induction hp with
  | single p =>
    obtain ⟨v, hv⟩ := getVertex_isSome (hlast p rfl)
    exact ⟨[v], .single v, by simp [(getVertex_spec hv).2], by simp [(getVertex_spec hv).1]⟩
  | cons hp hh hr he ih =>
    rename_i ps c wt p q r
    obtain ⟨vs, h1, h2, h3⟩ := ih (by
      intro v hv
      apply hlast
      cases ps with
      | nil => simp at hv
      | cons a l => rw [List.getLast?_cons_cons]; exact hv)
    obtain ⟨x, x1, x2, x3, x4, x5, x6⟩ := he
    have hhead : vs.head? = some x.dst := by
      have := congrArg List.head? h2
      rw [List.head?_map, List.head?_map, hh] at this
      cases hvs : vs.head? with
      | none => rw [hvs] at this; simp at this
      | some v =>
        rw [hvs] at this
        simp only [Option.map_some, Option.some.injEq] at this
        have a := (getVertex_iff wf.nodup).mpr this
        have b := (getVertex_iff wf.nodup).mpr x3
        rw [a] at b; exact b
    have hx : (⟨x.dst, x.info.routingCost, toRel x.info.relation⟩ : Search.Edge K) ∈ g.filtered id w.1 x.src := by
      simp only [RGraph.filtered, List.mem_map]
      exact ⟨x, (view_exact h hw id x.src x).mpr ⟨x1, rfl, x4, by rw [x5]; exact hr⟩, rfl⟩
    have := PathCostTo.cons h1 hhead hx rfl
    simp only [x6] at this
    refine ⟨_, this, by simp [h2, x2], ?_⟩
    intro v hv
    rcases List.mem_cons.mp hv with rfl | hv
    · exact wf.src x x1
    · exact h3 v hv

theorem vertices_map {g : RGraph P K} (hn : g.vertices.Nodup) (r : List Nat) (hr : r.Nodup)
    (hlt : ∀ v ∈ r, v < g.vertices.length) :
    ∃ ps : List P, r.map (fun v => g.vertices[v]?) = ps.map some ∧ ps.Nodup ∧
      ∀ q, q ∈ ps ↔ ∃ v ∈ r, g.vertices[v]? = some q := by
  induction r with
  | nil => exact ⟨[], by simp⟩
  | cons v r ih =>
    obtain ⟨ps, k1, k2, k3⟩ := ih (List.nodup_cons.mp hr).2 (fun w hw => hlt w (List.mem_cons_of_mem _ hw))
    have hv := hlt v (by simp)
    refine ⟨g.vertices[v] :: ps, by simp [k1, hv], ?_, ?_⟩
    · rw [List.nodup_cons]
      refine ⟨?_, k2⟩
      rw [k3]
      rintro ⟨w, hw, hwv⟩
      have a := (getVertex_iff hn).mpr hwv
      have b := (getVertex_iff hn).mpr (List.getElem?_eq_getElem hv)
      rw [a] at b
      have := Option.some.inj b
      subst this
      exact (List.nodup_cons.mp hr).1 hw
    · intro q
      rw [List.mem_cons, k3]
      simp only [List.mem_cons]
      constructor
      · rintro (rfl | ⟨w, hw, hq⟩)
        · exact ⟨v, Or.inl rfl, List.getElem?_eq_getElem hv⟩
        · exact ⟨w, Or.inr hw, hq⟩
      · rintro ⟨w, rfl | hw, hq⟩
        · left; rw [List.getElem?_eq_getElem hv] at hq; exact (Option.some.inj hq).symm
        · exact Or.inr ⟨w, hw, hq⟩

/-- C22 at the interface, backwards: exactly the primitives from which there is a path to the target with a cost
of at most the limit, each once. -/
theorem routing_reachableSetTowards {t : CostTests K} (ht : TestsOk t) {g : RGraph P K} (h : Built t g)
    {pick : Nat → (Nat → K) → List Nat → Nat} (hpick : PickMin pick) (target : P)
    (hs : target ∈ g.vertices) (id : Nat) (hid : id < g.numRoutingCosts) (limit : K) (lc areas : Bool) :
    ∃ r, g.reachableSet pick true target limit id (pathView lc areas) = .ok (some r) ∧ r.Nodup ∧
      ∀ q, q ∈ r ↔ ∃ ps c, PPathTo g Cost.zero Cost.add id (pathRelations lc areas) ps c ∧
        ps.head? = some q ∧ ps.getLast? = some target ∧ Cost.le c limit := by
  have wf := built_wf h
  obtain ⟨u, hu⟩ := getVertex_isSome hs
  obtain ⟨hu1, hu2⟩ := getVertex_spec hu
  have hview := pathView_mem lc areas
  have hok := filtered_ok ht h id (pathView lc areas)
  have hfg : g.getFilteredGraph id (pathView lc areas) = .ok (id, pathView lc areas) := by
    simp [RGraph.getFilteredGraph]; omega
  obtain ⟨r, r1, r2, r3⟩ := Search.reachableSetTowards_spec hok hu1 hpick limit
  have hlt : ∀ v ∈ r, v < g.vertices.length := by
    intro v hv
    obtain ⟨p, c, -, k2, k3, -⟩ := (r3 v).mp hv
    exact k2 v (List.mem_of_head? k3)
  obtain ⟨ps, k1, k2, k3⟩ := vertices_map wf.nodup r r2 hlt
  refine ⟨ps, ?_, k2, ?_⟩
  · simp only [RGraph.reachableSet, hu]
    rw [hfg]
    show (match Search.reachableSetImpl (Search.reverse (g.filtered id (pathView lc areas)) g.vertices.length)
      g.vertices.length pick u (Search.stopIfCostMoreThan true limit) with
      | none => Except.ok none
      | some r => Except.ok (Search.allSome (r.map fun v => g.vertices[v]?))) = _
    rw [r1]
    simp only
    rw [k1, Search.allSome_some]
  · intro q
    rw [k3]
    constructor
    · rintro ⟨v, hv, hq⟩
      obtain ⟨vs, c, p1, p2, p3, p4, hc⟩ := (r3 v).mp hv
      obtain ⟨qs, q1, q2⟩ := ppathTo_of_pathCostTo h hview id p1 p2
      refine ⟨qs, c, q1, ?_, ?_, hc⟩
      · have := congrArg List.head? q2
        rw [List.head?_map, List.head?_map, p3] at this
        simp only [Option.map_some, hq] at this
        cases hps : qs.head? with
        | none => rw [hps] at this; simp at this
        | some q => rw [hps] at this; simpa using this.symm
      · have := congrArg List.getLast? q2
        rw [List.getLast?_map, List.getLast?_map, p4] at this
        simp only [Option.map_some, hu2] at this
        cases hps : qs.getLast? with
        | none => rw [hps] at this; simp at this
        | some q => rw [hps] at this; simpa using this.symm
    · rintro ⟨qs, c, hp, hh, hl, hc⟩
      obtain ⟨vs, m1, m2, m3⟩ := pathCostTo_of_ppathTo h hview id hp (by
        intro p hp'; rw [hl] at hp'; have := Option.some.inj hp'; subst this; exact hs)
      have e1 := congrArg List.head? m2
      have e2 := congrArg List.getLast? m2
      rw [List.head?_map, List.head?_map, hh] at e1
      rw [List.getLast?_map, List.getLast?_map, hl] at e2
      cases hvs : vs.head? with
      | none => rw [hvs] at e1; simp at e1
      | some a =>
        cases hvl : vs.getLast? with
        | none => rw [hvl] at e2; simp at e2
        | some b =>
          rw [hvs] at e1; rw [hvl] at e2
          simp only [Option.map_some, Option.some.injEq] at e1 e2
          have b1 := (getVertex_iff wf.nodup).mpr e2
          rw [hu] at b1
          have := Option.some.inj b1; subst this
          exact ⟨a, (r3 a).mpr ⟨vs, c, m1, m3, hvs, hvl, hc⟩, e1⟩

/-- Case: 20 reaches 30 with cost 2, 10 only with 3. -/
example : ∃ r, exRoad.reachableSet Search.exPick true 30 2 0 withoutLaneChanges = .ok (some r) ∧ 20 ∈ r := by
  obtain ⟨r, h1, -, h2⟩ := routing_reachableSetTowards natTests_ok exRoad_built Search.exPick_min 30 (by decide) 0
    (by decide) 2 false false
  refine ⟨r, h1, (h2 20).mpr ⟨[20, 30], 2, ?_, rfl, rfl, by decide⟩⟩
  exact .cons (ps := [30]) (c := 0) (w := 2) (q := 30) (r := Successor) (.single 30) rfl (by decide)
    ⟨⟨1, 2, ⟨2, 0, Successor⟩⟩, by decide, rfl, rfl, rfl, rfl, rfl⟩

end Verif.Graph
