import Verif.Build.Whole

/-!
Properties of the construction of the routing graph (C28, C29).

All theorems are about `build i = some g` for an arbitrary input `i`: map, traffic rules, cost modules, geometry tests and
iteration orders. `InputOk` says that bounds are not empty and that the iteration orders are permutations, `CostsOk` that no
cost is negative. `edgesOf g a b` is the list of the edges from `a` to `b` in the graph.
-/
namespace Verif.Build
open Verif.Graph (RGraph EdgeInfo BaseEdge CostTests RelationType)
open Verif.Graph.RelationType
open Verif.Lanelet (LH World points leftBound rightBound follows leftOf rightOf invertL)
open List (Perm)
open scoped List

set_option linter.unusedSectionVars false
variable {P K : Type} [DecidableEq P]

/-- A lanelet is part of the graph: it is in the map and may be used in this direction. The inverted lanelet is used only if
the lanelet itself is. -/
def InGraph (i : Input P K) (ll : LH) : Prop :=
  ⟨ll.data, false⟩ ∈ i.lanelets ∧ i.rules.passL ⟨ll.data, false⟩ = true ∧ (ll.inv = true → i.rules.passL ll = true)

/-- The construction terminates without undefined behaviour and without exception; the vertices are the usable lanelets and
areas. -/
theorem build_vertices (i : Input P K) (hi : InputOk i) (ok : CostsOk i) :
    ∃ g, build i = some g ∧ g.numRoutingCosts = i.costs.length ∧ (∀ ll, (.inl ll : Prim) ∈ g.vertices ↔ InGraph i ll) ∧
      (∀ ar, (.inr ar : Prim) ∈ g.vertices ↔ ar ∈ i.areas ∧ i.rules.passA ar = true) ∧ g.vertices.Nodup := by
  obtain ⟨s, l, gl, gr, g, h1, h2⟩ := build_phases i hi ok
  have num : ∀ {ph : Phase} {g g' : RGraph Prim K}, Grow i ph g g' → g'.numRoutingCosts = g.numRoutingCosts := by
    intro ph g g' h
    induction h with
    | refl => rfl
    | step a b xs _ _ ih =>
      rw [← ih]
      unfold plus
      split <;> rfl
  refine ⟨g, h1, ?_, ?_, ?_, ?_⟩
  · rw [num h2.areas.1, num h2.right.ext.1, num h2.left.ext.1, num h2.lanes.ext.1]; exact h2.start.2.2.1
  · intro ll
    rw [h2.vertices]
    unfold InGraph
    rw [← mem_allLanelets i hi ll]
    simp [allVertices]
  · intro ar
    rw [h2.vertices]
    simp [allVertices, passableAreas]
  · rw [h2.vertices]
    unfold allVertices
    rw [List.nodup_append]
    have hp : (passable i).Nodup := hi.lanelets.filter _
    refine ⟨?_, ?_, ?_⟩
    · refine List.pairwise_map.mpr (List.Pairwise.imp (R := (· ≠ ·)) (fun h e => h (Sum.inl.inj e)) ?_)
      show (allLanelets i).Nodup
      unfold allLanelets
      rw [List.nodup_append]
      refine ⟨hp, ?_, ?_⟩
      · unfold bidirectional
        refine List.Pairwise.filterMap _ ?_ hp
        intro a a' hne b hb b' hb' e
        split at hb
        · split at hb'
          · simp only [Option.some.injEq] at hb hb'
            subst hb; subst hb'
            have := congrArg invertL e
            rw [Verif.Lanelet.invertL_invertL, Verif.Lanelet.invertL_invertL] at this
            exact hne this
          · simp at hb'
        · simp at hb
      · intro a ha b hb e
        subst e
        have hai := hi.notInverted a (List.mem_filter.mp ha).1
        unfold bidirectional at hb
        obtain ⟨x, hx, hxb⟩ := List.mem_filterMap.mp hb
        have hxi := hi.notInverted x (List.mem_filter.mp hx).1
        split at hxb
        · simp only [Option.some.injEq] at hxb
          rw [← hxb] at hai
          simp [invertL, hxi] at hai
        · simp at hxb
    · exact List.pairwise_map.mpr (List.Pairwise.imp (R := (· ≠ ·)) (fun h e => h (Sum.inr.inj e)) (hi.areas.filter _))
    · intro a ha b hb
      obtain ⟨x, -, rfl⟩ := List.mem_map.mp ha
      obtain ⟨y, -, rfl⟩ := List.mem_map.mp hb
      simp

theorem mem_zipIdx_costs (i : Input P K) (ci : CostModule K × Nat) :
    ci ∈ i.costs.zipIdx ↔ i.costs[ci.2]? = some ci.1 := List.mem_zipIdx_iff_getElem?

/-- an edge with the cost of driving from `a` to `b` -/
def DriveEdge (i : Input P K) (a b : Prim) (rel : RelationType) (x : EdgeInfo K) : Prop :=
  ∃ k c, i.costs[k]? = some c ∧ i.tests.isFinite (c.succ a b) = true ∧ x = ⟨c.succ a b, k, rel⟩

/-- an edge with the fixed cost -/
def FixedEdge (i : Input P K) (rel : RelationType) (x : EdgeInfo K) : Prop :=
  ∃ k, k < i.costs.length ∧ x = ⟨i.one, k, rel⟩

theorem mem_infos_drive (i : Input P K) (a b : Prim) (rel : RelationType) (h : rel = Successor ∨ rel = Area)
    (x : EdgeInfo K) : x ∈ infos i a b rel ↔ DriveEdge i a b rel x := by
  unfold infos DriveEdge
  rw [if_pos h]
  simp only [List.mem_map, List.mem_filter, mem_zipIdx_costs]
  constructor
  · rintro ⟨ci, ⟨h1, h2⟩, rfl⟩
    exact ⟨ci.2, ci.1, h1, h2, rfl⟩
  · rintro ⟨k, c, h1, h2, rfl⟩
    exact ⟨(c, k), ⟨h1, h2⟩, rfl⟩

theorem mem_infos_fixed (i : Input P K) (a b : Prim) (rel : RelationType) (h : ¬ (rel = Successor ∨ rel = Area))
    (x : EdgeInfo K) : x ∈ infos i a b rel ↔ FixedEdge i rel x := by
  unfold infos FixedEdge
  rw [if_neg h]
  simp only [List.mem_map, mem_zipIdx_costs]
  constructor
  · rintro ⟨ci, h1, rfl⟩
    exact ⟨ci.2, (List.getElem?_eq_some_iff.mp h1).1, rfl⟩
  · rintro ⟨k, h1, rfl⟩
    exact ⟨(i.costs[k], k), List.getElem?_eq_getElem h1, rfl⟩

theorem lc_rel (i : Input P K) (isLeft : Bool) (c : List (LH × LH)) (ci : CostModule K × Nat) :
    (laneChangeInfo i isLeft c ci).relation = (if isLeft then Left else Right) ∨
    (laneChangeInfo i isLeft c ci).relation = (if isLeft then AdjacentLeft else AdjacentRight) := by
  unfold laneChangeInfo
  split
  · exact .inl rfl
  · exact .inr rfl

/-! ### C28 -/

/-- Successor edges: exactly between usable lanelets where the second follows the first and the traffic rules permit the
transition, one kind of edge per cost module with finite cost, with the cost of the module. -/
theorem successor_iff (i : Input P K) (hi : InputOk i) (ok : CostsOk i) (g : RGraph Prim K) (hg : build i = some g)
    (a b : Prim) (x : EdgeInfo K) :
    (x ∈ edgesOf g a b ∧ x.relation = Successor) ↔
      ∃ la lb, a = .inl la ∧ b = .inl lb ∧ InGraph i la ∧ InGraph i lb ∧ follows i.w la lb = true ∧
        i.rules.passLL la lb = true ∧ DriveEdge i a b Successor x := by
  obtain ⟨s, l, gl, gr, g', h1, h2⟩ := build_phases i hi ok
  obtain rfl : g' = g := by rw [hg] at h1; simpa using h1.symm
  constructor
  · rintro ⟨hx, hr⟩
    obtain ⟨ph, g1, xs, r, hxs, -⟩ := h2.reason a b x hx
    cases r with
    | succ la lb ha hb hf hp =>
      exact ⟨la, lb, rfl, rfl, (mem_allLanelets i hi la).mp ha, (mem_allLanelets i hi lb).mp hb, hf, hp,
        (mem_infos_drive i _ _ _ (.inl rfl) x).mp hxs⟩
    | adjacent isLeft la lb =>
      rw [infos_rel i _ _ _ x hxs] at hr
      cases isLeft <;> exact absurd hr (by decide)
    | change isLeft la lb rest =>
      obtain ⟨ci, -, rfl⟩ := List.mem_map.mp hxs
      exact absurd hr (laneChangeInfo_rel i isLeft _ ci)
    | _ => rw [infos_rel i _ _ _ x hxs] at hr; exact absurd hr (by decide)
  · rintro ⟨la, lb, rfl, rfl, ha, hb, hf, hp, hx⟩
    refine ⟨?_, by obtain ⟨k, c, -, -, rfl⟩ := hx; rfl⟩
    exact h2.mem_of_loop _ _ x ((h2.done la ((mem_allLanelets i hi la).mpr ha)).succ lb ((mem_allLanelets i hi lb).mpr hb)
      hf hp x ((mem_infos_drive i _ _ _ (.inl rfl) x).mpr hx))

/-- a chain of lane changes: each is permitted and leads to the direct neighbour on this side, and consecutive ones are
connected by unambiguous successors or predecessors on both lanes -/
def LaneChangeChain (i : Input P K) (g : RGraph Prim K) (isLeft : Bool) (c : List (LH × LH)) : Prop :=
  (∀ p ∈ c, InGraph i p.1 ∧ InGraph i p.2 ∧ p.1 ≠ p.2 ∧ Beside i isLeft p.1 p.2 ∧ i.rules.change p.1 p.2 = true) ∧
  Sequence (prevOf g) (nextOf g) c

/-- the edge for a lane change that can be done along the chain `c`: it has the cost of the module for the whole chain, or
is no lane change if this cost is infinite -/
def changeEdge (i : Input P K) (isLeft : Bool) (c : List (LH × LH)) (m : CostModule K) (k : Nat) : EdgeInfo K :=
  let cost := m.change (c.map (·.1)) (c.map (·.2))
  if i.tests.isFinite cost = true then ⟨cost, k, if isLeft then Left else Right⟩
  else ⟨i.one, k, if isLeft then AdjacentLeft else AdjacentRight⟩

theorem next_areas {i : Input P K} {g g' : RGraph Prim K} (h : Grow i .areas g g') (ll : LH) :
    nextOf g' ll = nextOf g ll ∧ prevOf g' ll = prevOf g ll := by
  induction h with
  | refl => exact ⟨rfl, rfl⟩
  | step a b xs _ r ih =>
    have h0 : ∀ x ∈ xs, x.relation ≠ Successor := by
      intro x hx
      cases r <;> rw [infos_rel i _ _ _ x hx] <;> decide
    exact ⟨(nextOf_plus _ a b xs h0 ll).1.trans ih.1, (nextOf_plus _ a b xs h0 ll).2.trans ih.2⟩

theorem Built.next {i : Input P K} {s : St K} {l : Loop K} {gl gr g : RGraph Prim K} (h : Built i s l gl gr g) :
    (nextOf g = nextOf l.s.g ∧ prevOf g = prevOf l.s.g) ∧ nextOf g = nextOf gl ∧ prevOf g = prevOf gl := by
  refine ⟨⟨?_, ?_⟩, ?_, ?_⟩ <;> funext ll
  · rw [(next_areas h.areas.1 ll).1, (h.right.next ll).1, (h.left.next ll).1]
  · rw [(next_areas h.areas.1 ll).2, (h.right.next ll).2, (h.left.next ll).2]
  · rw [(next_areas h.areas.1 ll).1, (h.right.next ll).1]
  · rw [(next_areas h.areas.1 ll).2, (h.right.next ll).2]

theorem col_nil (i : Input P K) (b : Bool) : ColOk i b [] := ⟨List.nodup_nil, by simp⟩

theorem Built.col {i : Input P K} {s : St K} {l : Loop K} {gl gr g : RGraph Prim K} (h : Built i s l gl gr g)
    (isLeft : Bool) : ColOk i isLeft (if isLeft then l.toLeft else l.toRight) := by
  cases isLeft with
  | true => exact h.lanes.leftOk (col_nil i _)
  | false => exact h.lanes.rightOk (col_nil i _)

theorem Built.chain {i : Input P K} (hi : InputOk i) {s : St K} {l : Loop K} {gl gr g : RGraph Prim K}
    (h : Built i s l gl gr g) (isLeft : Bool) (e : Entry) (he : e ∈ (if isLeft then l.toLeft else l.toRight)) :
    ∃ c, c.head? = some (e.src, e.target) ∧ LaneChangeChain i g isLeft c ∧
      edgesOf (if isLeft then gl else gr) (.inl e.src) (.inl e.target) =
        edgesOf (if isLeft then l.s.g else gl) (.inl e.src) (.inl e.target) ++
          i.costs.zipIdx.map (laneChangeInfo i isLeft c) := by
  have hcol := h.col isLeft
  have key : ∀ c : List (LH × LH), (∀ p ∈ c, ∃ e ∈ (if isLeft then l.toLeft else l.toRight), p = (e.src, e.target)) →
      ∀ p ∈ c, InGraph i p.1 ∧ InGraph i p.2 ∧ p.1 ≠ p.2 ∧ Beside i isLeft p.1 p.2 ∧ i.rules.change p.1 p.2 = true := by
    intro c hc p hp
    obtain ⟨e, he, rfl⟩ := hc p hp
    obtain ⟨-, h1, h2, h0, h3, h4⟩ := hcol.2 e he
    exact ⟨(mem_allLanelets i hi _).mp h1, (mem_allLanelets i hi _).mp h2, h0, h3, h4⟩
  cases isLeft with
  | true =>
    obtain ⟨c, c1, c2, c3, c4⟩ := h.left.collected e he
    refine ⟨c, c1, ⟨key c c3, ?_⟩, c4⟩
    rw [h.next.1.1, h.next.1.2]; exact c2
  | false =>
    obtain ⟨c, c1, c2, c3, c4⟩ := h.right.collected e he
    refine ⟨c, c1, ⟨key c c3, ?_⟩, c4⟩
    rw [h.next.2.1, h.next.2.2]; exact c2

/-- where the edges between two lanelets come from -/
theorem Built.origin {i : Input P K} (hi : InputOk i) {s : St K} {l : Loop K} {gl gr g : RGraph Prim K}
    (h : Built i s l gl gr g) (a b : LH) (x : EdgeInfo K) (hx : x ∈ edgesOf g (.inl a) (.inl b)) :
    x ∈ edgesOf l.s.g (.inl a) (.inl b) ∨ ∃ isLeft, ∃ e ∈ (if isLeft then l.toLeft else l.toRight), e.src = a ∧ e.target = b ∧
      ∃ c, c.head? = some (a, b) ∧ LaneChangeChain i g isLeft c ∧ x ∈ i.costs.zipIdx.map (laneChangeInfo i isLeft c) := by
  rw [h.areas.1.areas_lanelets] at hx
  have hgl : x ∈ edgesOf gl (.inl a) (.inl b) → x ∈ edgesOf l.s.g (.inl a) (.inl b) ∨
      ∃ isLeft, ∃ e ∈ (if isLeft then l.toLeft else l.toRight), e.src = a ∧ e.target = b ∧
      ∃ c, c.head? = some (a, b) ∧ LaneChangeChain i g isLeft c ∧ x ∈ i.costs.zipIdx.map (laneChangeInfo i isLeft c) := by
    intro hx
    by_cases hm : ∃ e ∈ l.toLeft, (e.src, e.target) = (a, b)
    · obtain ⟨e, he, hab⟩ := hm
      obtain ⟨c, c1, c2, c3⟩ := h.chain hi true e he
      simp only [Prod.mk.injEq] at hab
      obtain ⟨rfl, rfl⟩ := hab
      simp only [if_true] at c3
      rw [c3] at hx
      rcases List.mem_append.mp hx with hx | hx
      · exact .inl hx
      · exact .inr ⟨true, e, he, rfl, rfl, c, c1, c2, hx⟩
    · rw [h.left.other a b (fun e he hab => hm ⟨e, he, hab⟩)] at hx
      exact .inl hx
  by_cases hm : ∃ e ∈ l.toRight, (e.src, e.target) = (a, b)
  · obtain ⟨e, he, hab⟩ := hm
    obtain ⟨c, c1, c2, c3⟩ := h.chain hi false e he
    simp only [Prod.mk.injEq] at hab
    obtain ⟨rfl, rfl⟩ := hab
    simp only [Bool.false_eq_true, if_false] at c3
    rw [c3] at hx
    rcases List.mem_append.mp hx with hx | hx
    · exact hgl hx
    · exact .inr ⟨false, e, he, rfl, rfl, c, c1, c2, hx⟩
  · rw [h.right.other a b (fun e he hab => hm ⟨e, he, hab⟩)] at hx
    exact hgl hx

/-- reasons of the edges in the first part of the construction -/
theorem Built.lane_reason {i : Input P K} {s : St K} {l : Loop K} {gl gr g : RGraph Prim K} (h : Built i s l gl gr g)
    (a b : Prim) (x : EdgeInfo K) (hx : x ∈ edgesOf l.s.g a b) :
    ∃ g' xs, Reason i .lanes g' a b xs ∧ x ∈ xs ∧ ∀ y ∈ xs, y ∈ edgesOf l.s.g a b := by
  rcases h.lanes.ext.1.reason a b x hx with hx | h'
  · rw [edgesOf_start i s h.start.2.1] at hx; simp at hx
  · exact h'

/-- Left and Right edges are permitted lane changes to the direct neighbour on this side, with a finite cost that the module
gives to a chain of lane changes beginning here. -/
theorem laneChange_sound (i : Input P K) (hi : InputOk i) (ok : CostsOk i) (g : RGraph Prim K) (hg : build i = some g)
    (isLeft : Bool) (a b : Prim) (x : EdgeInfo K) (hx : x ∈ edgesOf g a b)
    (hr : x.relation = if isLeft then Left else Right) :
    ∃ la lb, a = .inl la ∧ b = .inl lb ∧ InGraph i la ∧ InGraph i lb ∧ la ≠ lb ∧ Beside i isLeft la lb ∧
      i.rules.change la lb = true ∧ ∃ (c : List (LH × LH)) (m : CostModule K), c.head? = some (la, lb) ∧ LaneChangeChain i g isLeft c ∧
        i.costs[x.costId]? = some m ∧ x.routingCost = m.change (c.map (·.1)) (c.map (·.2)) ∧
        i.tests.isFinite x.routingCost = true := by
  obtain ⟨s, l, gl, gr, g', h1, h2⟩ := build_phases i hi ok
  obtain rfl : g' = g := by rw [hg] at h1; simpa using h1.symm
  obtain ⟨ph, g1, xs, r, hxs, -⟩ := h2.reason a b x hx
  have hlr : x.relation ≠ Successor ∧ x.relation ≠ AdjacentLeft ∧ x.relation ≠ AdjacentRight ∧
      x.relation ≠ Conflicting ∧ x.relation ≠ Area := by rw [hr]; cases isLeft <;> decide
  cases r with
  | change isLeft' la lb rest ha hb hne hbs hch =>
    refine ⟨la, lb, rfl, rfl, (mem_allLanelets i hi la).mp ha, (mem_allLanelets i hi lb).mp hb, hne, ?_, hch, ?_⟩
    · have : isLeft' = isLeft := by
        obtain ⟨ci, -, rfl⟩ := List.mem_map.mp hxs
        rcases lc_rel i isLeft' ((la, lb) :: rest) ci with h | h <;> rw [hr] at h <;>
          cases isLeft <;> cases isLeft' <;> first | rfl | exact absurd h (by decide)
      rw [← this]; exact hbs
    · rcases h2.origin hi la lb x hx with hx | ⟨isLeft'', e, -, -, -, c, c1, c2, c3⟩
      · obtain ⟨g2, ys, r2, hy, -⟩ := h2.lane_reason _ _ x hx
        exfalso
        cases r2 with
        | succ => exact hlr.1 (infos_rel i _ _ _ x hy)
        | adjacent isL =>
          have := infos_rel i _ _ _ x hy
          cases isL
          · exact hlr.2.2.1 this
          · exact hlr.2.1 this
        | conflict => exact hlr.2.2.2.1 (infos_rel i _ _ _ x hy)
      · obtain ⟨ci, hci, hx'⟩ := List.mem_map.mp c3
        rw [mem_zipIdx_costs] at hci
        unfold laneChangeInfo at hx'
        split at hx'
        · rename_i hfin
          have : isLeft'' = isLeft := by
            rw [← hx'] at hr; dsimp only at hr
            cases isLeft <;> cases isLeft'' <;> first | rfl | exact absurd hr (by decide)
          subst this
          subst hx'
          exact ⟨c, ci.1, c1, c2, hci, rfl, hfin⟩
        · rw [← hx'] at hlr; dsimp only at hlr
          cases isLeft'' <;> exact absurd hlr (by decide)
  | succ => exact absurd (infos_rel i _ _ _ x hxs) hlr.1
  | adjacent isL =>
    have := infos_rel i _ _ _ x hxs
    cases isL
    · exact absurd this hlr.2.2.1
    · exact absurd this hlr.2.1
  | conflict => exact absurd (infos_rel i _ _ _ x hxs) hlr.2.2.2.1
  | areaLanelet => exact absurd (infos_rel i _ _ _ x hxs) hlr.2.2.2.2
  | laneletArea => exact absurd (infos_rel i _ _ _ x hxs) hlr.2.2.2.2
  | areaArea => exact absurd (infos_rel i _ _ _ x hxs) hlr.2.2.2.2
  | conflictLaneletArea => exact absurd (infos_rel i _ _ _ x hxs) hlr.2.2.2.1
  | conflictAreas => exact absurd (infos_rel i _ _ _ x hxs) hlr.2.2.2.1

/-- There is at most one lanelet on each side to which the lane can be changed. -/
theorem laneChange_unique (i : Input P K) (hi : InputOk i) (ok : CostsOk i) (g : RGraph Prim K) (hg : build i = some g)
    (isLeft : Bool) (a b b' : LH) (x x' : EdgeInfo K) (hx : x ∈ edgesOf g (.inl a) (.inl b)) (hx' : x' ∈ edgesOf g (.inl a) (.inl b'))
    (hr : x.relation = if isLeft then Left else Right) (hr' : x'.relation = if isLeft then Left else Right) : b = b' := by
  obtain ⟨s, l, gl, gr, g', h1, h2⟩ := build_phases i hi ok
  obtain rfl : g' = g := by rw [hg] at h1; simpa using h1.symm
  have key : ∀ (b : LH) (x : EdgeInfo K), x ∈ edgesOf g' (.inl a) (.inl b) → (x.relation = if isLeft then Left else Right) →
      ∃ e ∈ (if isLeft then l.toLeft else l.toRight), e.src = a ∧ e.target = b := by
    intro b x hx hr
    have hlr : x.relation ≠ Successor ∧ x.relation ≠ AdjacentLeft ∧ x.relation ≠ AdjacentRight ∧ x.relation ≠ Conflicting := by
      rw [hr]; cases isLeft <;> decide
    rcases h2.origin hi a b x hx with hx | ⟨isLeft', e, e1, e2, e3, c, c1, c2, c3⟩
    · obtain ⟨g2, ys, r2, hy, -⟩ := h2.lane_reason _ _ x hx
      exfalso
      cases r2 with
      | succ => exact hlr.1 (infos_rel i _ _ _ x hy)
      | adjacent isL =>
        have := infos_rel i _ _ _ x hy
        cases isL
        · exact hlr.2.2.1 this
        · exact hlr.2.1 this
      | conflict => exact hlr.2.2.2 (infos_rel i _ _ _ x hy)
    · obtain ⟨ci, -, rfl⟩ := List.mem_map.mp c3
      have : isLeft' = isLeft := by
        rcases lc_rel i isLeft' c ci with h | h <;> rw [hr] at h <;>
          cases isLeft <;> cases isLeft' <;> first | rfl | exact absurd h (by decide)
      subst this
      exact ⟨e, e1, e2, e3⟩
  obtain ⟨e, e1, e2, rfl⟩ := key b x hx hr
  obtain ⟨e', e1', e2', rfl⟩ := key b' x' hx' hr'
  have hn := (h2.col isLeft).1
  obtain ⟨n, hn1⟩ := List.mem_iff_getElem?.mp e1
  obtain ⟨n', hn2⟩ := List.mem_iff_getElem?.mp e1'
  have hlt : n < ((if isLeft then l.toLeft else l.toRight).map (·.src)).length := by
    rw [List.length_map]; exact (List.getElem?_eq_some_iff.mp hn1).1
  have hnn : n = n' := (List.getElem?_inj hlt hn).mp (by rw [List.getElem?_map, List.getElem?_map, hn1, hn2]; simp [e2, e2'])
  rw [hnn, hn2] at hn1
  rw [Option.some.inj hn1]

/-- AdjacentLeft and AdjacentRight edges lead to direct neighbours where a lane change is forbidden or, for this cost module,
impossible. -/
theorem adjacent_sound (i : Input P K) (hi : InputOk i) (ok : CostsOk i) (g : RGraph Prim K) (hg : build i = some g)
    (isLeft : Bool) (a b : Prim) (x : EdgeInfo K) (hx : x ∈ edgesOf g a b)
    (hr : x.relation = if isLeft then AdjacentLeft else AdjacentRight) :
    ∃ la lb, a = .inl la ∧ b = .inl lb ∧ InGraph i la ∧ InGraph i lb ∧ la ≠ lb ∧ Beside i isLeft la lb ∧
      x.routingCost = i.one ∧ (i.rules.change la lb = false ∨ ∃ (c : List (LH × LH)) (m : CostModule K), c.head? = some (la, lb) ∧
        i.costs[x.costId]? = some m ∧ i.tests.isFinite (m.change (c.map (·.1)) (c.map (·.2))) = false) := by
  obtain ⟨s, l, gl, gr, g', h1, h2⟩ := build_phases i hi ok
  obtain rfl : g' = g := by rw [hg] at h1; simpa using h1.symm
  obtain ⟨ph, g1, xs, r, hxs, -⟩ := h2.reason a b x hx
  have hlr : x.relation ≠ Successor ∧ x.relation ≠ Left ∧ x.relation ≠ Right ∧ x.relation ≠ Conflicting ∧
      x.relation ≠ Area := by rw [hr]; cases isLeft <;> decide
  cases r with
  | change isLeft' la lb rest ha hb hne hbs hch =>
    obtain ⟨ci, hci, hx'⟩ := List.mem_map.mp hxs
    rw [mem_zipIdx_costs] at hci
    unfold laneChangeInfo at hx'
    split at hx'
    · rw [← hx'] at hlr; dsimp only at hlr
      cases isLeft' <;> exact absurd hlr (by decide)
    · rename_i hfin
      have : isLeft' = isLeft := by
        rw [← hx'] at hr; dsimp only at hr
        cases isLeft <;> cases isLeft' <;> first | rfl | exact absurd hr (by decide)
      subst this
      subst hx'
      exact ⟨la, lb, rfl, rfl, (mem_allLanelets i hi la).mp ha, (mem_allLanelets i hi lb).mp hb, hne, hbs, rfl,
        .inr ⟨(la, lb) :: rest, ci.1, rfl, hci, by simpa using hfin⟩⟩
  | adjacent isL la lb ha hb hne hbs hch =>
    have hrel := infos_rel i _ _ _ x hxs
    have : isL = isLeft := by
      rw [hr] at hrel
      cases isLeft <;> cases isL <;> first | rfl | exact absurd hrel (by decide)
    subst this
    obtain ⟨k, -, rfl⟩ := (mem_infos_fixed i _ _ _ (by cases isL <;> decide) x).mp hxs
    exact ⟨la, lb, rfl, rfl, (mem_allLanelets i hi la).mp ha, (mem_allLanelets i hi lb).mp hb, hne, hbs, rfl, .inl hch⟩
  | succ => exact absurd (infos_rel i _ _ _ x hxs) hlr.1
  | conflict => exact absurd (infos_rel i _ _ _ x hxs) hlr.2.2.2.1
  | areaLanelet => exact absurd (infos_rel i _ _ _ x hxs) hlr.2.2.2.2
  | laneletArea => exact absurd (infos_rel i _ _ _ x hxs) hlr.2.2.2.2
  | areaArea => exact absurd (infos_rel i _ _ _ x hxs) hlr.2.2.2.2
  | conflictLaneletArea => exact absurd (infos_rel i _ _ _ x hxs) hlr.2.2.2.1
  | conflictAreas => exact absurd (infos_rel i _ _ _ x hxs) hlr.2.2.2.1

theorem Grow.once {i : Input P K} {g g' : RGraph Prim K} (h : Grow i .lanes g g') (a b : Prim) (X : List (EdgeInfo K))
    (h0 : edgesOf g a b = []) (hr : ∀ g'' xs, Reason i .lanes g'' a b xs → xs = X ∧ edgesOf g'' a b = []) :
    edgesOf g' a b = [] ∨ edgesOf g' a b = X := by
  induction h with
  | refl => exact .inl h0
  | step a' b' xs _ r ih =>
    rw [edgesOf_plus]
    split
    · rename_i hc
      obtain ⟨rfl, rfl, -⟩ := hc
      obtain ⟨rfl, he⟩ := hr _ xs r
      exact .inr (by rw [he]; rfl)
    · rw [List.append_nil]; exact ih

/-- `b` is connected with `a` as neighbour on one side and in no other way. -/
structure OnlyBeside (i : Input P K) (isLeft : Bool) (a b : LH) : Prop where
  ne : a ≠ b
  side : Beside i isLeft a b
  otherSide : ¬ Beside i (!isLeft) a b
  follows : follows i.w a b = false
  overlap : i.overlapsLL a b = false ∧ i.overlapsLL b a = false
  inverse : b ≠ invertL a

/-- A direct neighbour without permitted lane change: exactly one Adjacent edge per cost module. -/
theorem neighbour_adjacent (i : Input P K) (hi : InputOk i) (ok : CostsOk i) (hc : i.costs ≠ []) (g : RGraph Prim K)
    (hg : build i = some g) (isLeft : Bool) (a b : LH) (ha : InGraph i a) (hb : InGraph i b)
    (h : OnlyBeside i isLeft a b) (hch : i.rules.change a b = false) :
    edgesOf g (.inl a) (.inl b) =
      i.costs.zipIdx.map fun ci => ⟨i.one, ci.2, if isLeft then AdjacentLeft else AdjacentRight⟩ := by
  obtain ⟨s, l, gl, gr, g', h1, h2⟩ := build_phases i hi ok
  obtain rfl : g' = g := by rw [hg] at h1; simpa using h1.symm
  have ha' := (mem_allLanelets i hi a).mpr ha
  have hb' := (mem_allLanelets i hi b).mpr hb
  have hno : ∀ isL : Bool, ∀ e ∈ (if isL then l.toLeft else l.toRight), (e.src, e.target) ≠ (a, b) := by
    intro isL e he hab
    simp only [Prod.mk.injEq] at hab
    have := ((h2.col isL).2 e he).2.2.2.2.2
    rw [hab.1, hab.2, hch] at this
    simp at this
  rw [h2.areas.1.areas_lanelets, h2.right.other a b (hno false), h2.left.other a b (hno true)]
  have hX : infos i (.inl a) (.inl b) (if isLeft then AdjacentLeft else AdjacentRight) =
      i.costs.zipIdx.map fun ci => ⟨i.one, ci.2, if isLeft then AdjacentLeft else AdjacentRight⟩ := by
    unfold infos
    rw [if_neg (by cases isLeft <;> decide)]
  rw [← hX]
  rcases h2.lanes.ext.1.once (.inl a) (.inl b) (infos i (.inl a) (.inl b) (if isLeft then AdjacentLeft else AdjacentRight))
    (edgesOf_start i s h2.start.2.1 _ _) (by
      intro g'' xs r
      cases r with
      | succ _ _ _ _ hf => rw [h.follows] at hf; simp at hf
      | adjacent isL _ _ _ _ _ hbs _ he =>
        have : isL = isLeft := by
          cases hl : isLeft <;> cases hl' : isL <;> first
            | rfl
            | (subst hl; subst hl'; exact absurd hbs h.otherSide)
        subst this
        exact ⟨rfl, he⟩
      | conflict _ _ _ _ ho =>
        rw [h.overlap.1, h.overlap.2] at ho
        rcases ho with ho | ho | ho
        · simp at ho
        · simp at ho
        · exact absurd ho h.inverse) with he | he
  · exfalso
    rcases (h2.done a ha').side hc isLeft b hb' (Ne.symm h.ne) h.side with hh | hh
    · exact (hasEdge_iff l.s.g a b).mp hh he
    · rw [hch] at hh; simp at hh
  · exact he

/-- C29. A permitted lane change to the only direct neighbour on this side: for each cost module there is exactly one edge,
whatever the iteration order of the map of lane changes. Its cost is the cost of a chain of lane changes that begins with
this one. -/
theorem neighbour_laneChange (i : Input P K) (hi : InputOk i) (ok : CostsOk i) (hc : i.costs ≠ []) (g : RGraph Prim K)
    (hg : build i = some g) (isLeft : Bool) (a b : LH) (ha : InGraph i a) (hb : InGraph i b)
    (h : OnlyBeside i isLeft a b) (hone : ∀ b', InGraph i b' → b' ≠ a → Beside i isLeft a b' → b' = b)
    (hch : i.rules.change a b = true) :
    ∃ c, c.head? = some (a, b) ∧ LaneChangeChain i g isLeft c ∧
      edgesOf g (.inl a) (.inl b) = i.costs.zipIdx.map fun ci => changeEdge i isLeft c ci.1 ci.2 := by
  obtain ⟨s, l, gl, gr, g', h1, h2⟩ := build_phases i hi ok
  obtain rfl : g' = g := by rw [hg] at h1; simpa using h1.symm
  have ha' := (mem_allLanelets i hi a).mpr ha
  have hb' := (mem_allLanelets i hi b).mpr hb
  have hnil : edgesOf l.s.g (.inl a) (.inl b) = [] := by
    apply List.eq_nil_iff_forall_not_mem.mpr
    intro x hx
    obtain ⟨g2, ys, r2, hy, -⟩ := h2.lane_reason _ _ x hx
    cases r2 with
    | succ _ _ _ _ hf => rw [h.follows] at hf; simp at hf
    | adjacent isL _ _ _ _ _ _ hn => rw [hch] at hn; simp at hn
    | conflict _ _ _ _ ho =>
      rw [h.overlap.1, h.overlap.2] at ho
      rcases ho with ho | ho | ho
      · simp at ho
      · simp at ho
      · exact absurd ho h.inverse
  have hentry : ∃ e ∈ (if isLeft then l.toLeft else l.toRight), e.src = a ∧ e.target = b := by
    rcases (h2.done a ha').side hc isLeft b hb' (Ne.symm h.ne) h.side with hh | ⟨-, e, he, hes⟩
    · exact absurd hnil ((hasEdge_iff l.s.g a b).mp hh)
    · refine ⟨e, he, hes, ?_⟩
      obtain ⟨-, e1, e2, e3, e4, e5⟩ := (h2.col isLeft).2 e he
      rw [hes] at e3 e4
      exact hone _ ((mem_allLanelets i hi _).mp e2) (Ne.symm e3) e4
  have hno : ∀ e ∈ (if (!isLeft) then l.toLeft else l.toRight), (e.src, e.target) ≠ (a, b) := by
    intro e he hab
    simp only [Prod.mk.injEq] at hab
    have := ((h2.col (!isLeft)).2 e he).2.2.2.2.1
    rw [hab.1, hab.2] at this
    exact h.otherSide this
  obtain ⟨e, he, rfl, rfl⟩ := hentry
  obtain ⟨c, c1, c2, c3⟩ := h2.chain hi isLeft e he
  refine ⟨c, c1, c2, ?_⟩
  rw [h2.areas.1.areas_lanelets]
  cases isLeft with
  | true =>
    simp only [if_true] at c3
    rw [h2.right.other _ _ hno, c3, hnil]
    rfl
  | false =>
    simp only [Bool.false_eq_true, if_false] at c3
    rw [c3, h2.left.other _ _ hno, hnil]
    rfl

/-- Not more than one neighbour per side gets lane change edges. Where a lanelet has several direct neighbours on a side, to
which it is allowed to change, all but one of them are missing in the graph: the claim "Left exactly for permitted lane
changes" fails there. -/
theorem laneChange_target_unique (i : Input P K) (hi : InputOk i) (ok : CostsOk i) (g : RGraph Prim K)
    (hg : build i = some g) (isLeft : Bool) (a b b' : LH) (x x' : EdgeInfo K) (hx : x ∈ edgesOf g (.inl a) (.inl b))
    (hx' : x' ∈ edgesOf g (.inl a) (.inl b')) (hr : x.relation = if isLeft then Left else Right)
    (hr' : x'.relation = if isLeft then Left else Right) : b = b' := by
  obtain ⟨s, l, gl, gr, g', h1, h2⟩ := build_phases i hi ok
  obtain rfl : g' = g := by rw [hg] at h1; simpa using h1.symm
  have key : ∀ (b : LH) (x : EdgeInfo K), x ∈ edgesOf g' (.inl a) (.inl b) → (x.relation = if isLeft then Left else Right) →
      ∃ e ∈ (if isLeft then l.toLeft else l.toRight), e.src = a ∧ e.target = b := by
    intro b x hx hr
    rcases h2.origin hi a b x hx with hx | ⟨isL, e, he, e1, e2, c, -, -, c3⟩
    · exfalso
      obtain ⟨g2, ys, r2, hy, -⟩ := h2.lane_reason _ _ x hx
      cases r2 with
      | adjacent isL => rw [infos_rel i _ _ _ x hy] at hr; cases isL <;> cases isLeft <;> exact absurd hr (by decide)
      | _ => rw [infos_rel i _ _ _ x hy] at hr; cases isLeft <;> exact absurd hr (by decide)
    · obtain ⟨ci, -, rfl⟩ := List.mem_map.mp c3
      have : isL = isLeft := by
        rcases lc_rel i isL c ci with h | h <;> rw [hr] at h <;>
          cases isLeft <;> cases isL <;> first | rfl | exact absurd h (by decide)
      subst this
      exact ⟨e, he, e1, e2⟩
  obtain ⟨e, he, e1, e2⟩ := key b x hx hr
  obtain ⟨e', he', e1', e2'⟩ := key b' x' hx' hr'
  have hn := (h2.col isLeft).1
  have : e = e' := by
    obtain ⟨p, hp, hpe⟩ := List.getElem_of_mem he
    obtain ⟨q, hq, hqe⟩ := List.getElem_of_mem he'
    have : p = q := by
      apply (List.getElem?_inj (i := p) (j := q) (by simpa using hp) hn).mp
      rw [List.getElem?_map, List.getElem?_map, List.getElem?_eq_getElem hp, List.getElem?_eq_getElem hq, hpe, hqe]
      simp [e1, e1']
    subst this
    exact hpe.symm.trans hqe
  rw [← e2, ← e2', this]

/-- Conflicting edges between lanelets are symmetric. -/
theorem conflicting_symm (i : Input P K) (hi : InputOk i) (ok : CostsOk i) (g : RGraph Prim K) (hg : build i = some g)
    (a b : LH) : (edgesOf g (.inl a) (.inl b)).filter (fun x => x.relation == Conflicting) =
      (edgesOf g (.inl b) (.inl a)).filter (fun x => x.relation == Conflicting) := by
  obtain ⟨s, l, gl, gr, g', h1, h2⟩ := build_phases i hi ok
  obtain rfl : g' = g := by rw [hg] at h1; simpa using h1.symm
  have h0 : Symm s.g := fun a b => by rw [edgesOf_start i s h2.start.2.1, edgesOf_start i s h2.start.2.1]
  exact h2.areas.2 (h2.right.ext.2 (h2.left.ext.2 (h2.lanes.ext.2 h0))) a b

/-- Conflicting edges between lanelets: they overlap, or one is the other in the opposite direction; at least one of them is
not inverted. -/
theorem conflicting_sound (i : Input P K) (hi : InputOk i) (ok : CostsOk i) (g : RGraph Prim K) (hg : build i = some g)
    (a b : LH) (x : EdgeInfo K) (hx : x ∈ edgesOf g (.inl a) (.inl b)) (hr : x.relation = Conflicting) :
    InGraph i a ∧ InGraph i b ∧ a ≠ b ∧ (a.inv = false ∨ b.inv = false) ∧
      (i.overlapsLL a b = true ∨ i.overlapsLL b a = true ∨ b = invertL a) ∧ x.routingCost = i.one := by
  obtain ⟨s, l, gl, gr, g', h1, h2⟩ := build_phases i hi ok
  obtain rfl : g' = g := by rw [hg] at h1; simpa using h1.symm
  obtain ⟨ph, g1, xs, r, hxs, -⟩ := h2.reason _ _ x hx
  have hv := edgesOf_vertices _ _ _ x hx
  rw [h2.vertices] at hv
  have key : ∀ ll : LH, (.inl ll : Prim) ∈ allVertices i → InGraph i ll := by
    intro ll hll
    apply (mem_allLanelets i hi ll).mp
    simpa [allVertices] using hll
  cases r with
  | conflict _ _ hne hinv ho =>
    obtain ⟨k, -, rfl⟩ := (mem_infos_fixed i _ _ _ (by decide) x).mp hxs
    exact ⟨key _ hv.1, key _ hv.2, hne, hinv, ho, rfl⟩
  | succ => rw [infos_rel i _ _ _ x hxs] at hr; exact absurd hr (by decide)
  | adjacent isL => rw [infos_rel i _ _ _ x hxs] at hr; cases isL <;> exact absurd hr (by decide)
  | change isL la lb rest =>
    obtain ⟨ci, -, rfl⟩ := List.mem_map.mp hxs
    rcases lc_rel i isL ((a, b) :: rest) ci with h | h <;> rw [hr] at h <;> cases isL <;> exact absurd h (by decide)

/-- Overlapping lanelets: every usable lanelet has an edge to every usable lanelet of the map that it overlaps; if they are
not connected otherwise, these edges say Conflicting, in both directions and for every cost module. -/
theorem conflicting_complete (i : Input P K) (hi : InputOk i) (ok : CostsOk i) (hc : i.costs ≠ []) (g : RGraph Prim K)
    (hg : build i = some g) (a b : LH) (ha : InGraph i a) (hb : InGraph i b) (hbi : b.inv = false) (hne : a ≠ b)
    (hbox : i.boxLL a b = true) (ho : i.overlapsLL a b = true) :
    edgesOf g (.inl a) (.inl b) ≠ [] ∧
    (follows i.w a b = false → ¬ Beside i true a b → ¬ Beside i false a b →
      ∀ k, k < i.costs.length → ⟨i.one, k, Conflicting⟩ ∈ edgesOf g (.inl a) (.inl b) ∧
        ⟨i.one, k, Conflicting⟩ ∈ edgesOf g (.inl b) (.inl a)) := by
  obtain ⟨s, l, gl, gr, g', h1, h2⟩ := build_phases i hi ok
  obtain rfl : g' = g := by rw [hg] at h1; simpa using h1.symm
  have ha' := (mem_allLanelets i hi a).mpr ha
  have hbp : b ∈ passable i := by
    obtain ⟨d, v⟩ := b
    simp only at hbi
    subst hbi
    exact List.mem_filter.mpr ⟨hb.1, hb.2.1⟩
  have hh := (hasEdge_iff l.s.g a b).mp (((h2.done a ha').conflict hc b hbp hbox).1 (Ne.symm hne) ho)
  obtain ⟨x, hx⟩ := List.exists_mem_of_ne_nil _ hh
  refine ⟨List.ne_nil_of_mem (h2.mem_of_loop _ _ x hx), ?_⟩
  intro hf hl hr k hk
  obtain ⟨g2, ys, r2, hy, hys⟩ := h2.lane_reason _ _ x hx
  have hmem : (⟨i.one, k, Conflicting⟩ : EdgeInfo K) ∈ edgesOf g' (.inl a) (.inl b) := by
    cases r2 with
    | succ _ _ _ _ hf' => rw [hf] at hf'; simp at hf'
    | adjacent isL _ _ _ _ _ hbs =>
      cases isL
      · exact absurd hbs hr
      · exact absurd hbs hl
    | conflict =>
      apply h2.mem_of_loop
      apply hys
      exact (mem_infos_fixed i _ _ _ (by decide) _).mpr ⟨k, hk, rfl⟩
  refine ⟨hmem, ?_⟩
  have hsym := conflicting_symm i hi ok g' hg a b
  have : (⟨i.one, k, Conflicting⟩ : EdgeInfo K) ∈ (edgesOf g' (.inl a) (.inl b)).filter (fun x => x.relation == Conflicting) :=
    List.mem_filter.mpr ⟨hmem, by simp⟩
  rw [hsym] at this
  exact (List.mem_filter.mp this).1

/-- A lanelet usable in both directions conflicts with its inversion. -/
theorem conflicting_inverse (i : Input P K) (hi : InputOk i) (ok : CostsOk i) (hc : i.costs ≠ []) (g : RGraph Prim K)
    (hg : build i = some g) (a : LH) (ha : InGraph i a) (hai : a.inv = false) (hb : InGraph i (invertL a))
    (hbox : i.boxLL a a = true) (k : Nat) (hk : k < i.costs.length) :
    ⟨i.one, k, Conflicting⟩ ∈ edgesOf g (.inl a) (.inl (invertL a)) ∧
      ⟨i.one, k, Conflicting⟩ ∈ edgesOf g (.inl (invertL a)) (.inl a) := by
  obtain ⟨s, l, gl, gr, g', h1, h2⟩ := build_phases i hi ok
  obtain rfl : g' = g := by rw [hg] at h1; simpa using h1.symm
  have ha' := (mem_allLanelets i hi a).mpr ha
  have hb' := (mem_allLanelets i hi _).mpr hb
  obtain ⟨d, v⟩ := a
  simp only at hai
  subst hai
  have hap : (⟨d, false⟩ : LH) ∈ passable i := List.mem_filter.mpr ⟨ha.1, ha.2.1⟩
  have hboth : i.llId d ∈ s.both := by
    rw [h2.start.2.2.2]
    refine List.mem_map.mpr ⟨⟨d, true⟩, ?_, rfl⟩
    exact List.mem_filterMap.mpr ⟨⟨d, false⟩, hap, by
      have := hb.2.2 (by simp [invertL])
      rw [this]; rfl⟩
  have hmem : (⟨i.one, k, Conflicting⟩ : EdgeInfo K) ∈ edgesOf g' (.inl ⟨d, false⟩) (.inl (invertL ⟨d, false⟩)) :=
    h2.mem_of_loop _ _ _ (((h2.done _ ha').conflict hc _ hap hbox).2 rfl hboth _
      ((mem_infos_fixed i _ _ _ (by decide) _).mpr ⟨k, hk, rfl⟩) hb')
  refine ⟨hmem, ?_⟩
  have hsym := conflicting_symm i hi ok g' hg ⟨d, false⟩ (invertL ⟨d, false⟩)
  have : (⟨i.one, k, Conflicting⟩ : EdgeInfo K) ∈
      (edgesOf g' (.inl ⟨d, false⟩) (.inl (invertL ⟨d, false⟩))).filter (fun x => x.relation == Conflicting) :=
    List.mem_filter.mpr ⟨hmem, by simp⟩
  rw [hsym] at this
  exact (List.mem_filter.mp this).1

/-- what the traffic rules say about driving between two primitives, one of which is an area -/
def canDrive (i : Input P K) : Prim → Prim → Bool
  | .inl a, .inr ar => i.rules.passLA a ar
  | .inr ar, .inl a => i.rules.passAL ar a
  | .inr a, .inr b => i.rules.passAA a b && a != b
  | .inl _, .inl _ => false

/-- the bounding boxes of the primitives meet, as found by the search -/
def boxesMeet (i : Input P K) : Prim → Prim → Bool
  | .inl a, .inr ar => i.boxAL ar ⟨a.data, false⟩
  | .inr ar, .inl a => i.boxAL ar ⟨a.data, false⟩
  | .inr a, .inr b => i.boxAA a b
  | .inl _, .inl _ => false

/-- Area edges lead exactly where the traffic rules permit to drive into or out of an area (if the search finds the
primitives, which share points), with the cost of the module. -/
theorem area_iff (i : Input P K) (hi : InputOk i) (ok : CostsOk i) (g : RGraph Prim K) (hg : build i = some g)
    (hbox : ∀ a b, canDrive i a b = true → boxesMeet i a b = true) (a b : Prim) (x : EdgeInfo K) :
    (x ∈ edgesOf g a b ∧ x.relation = Area) ↔
      a ∈ g.vertices ∧ b ∈ g.vertices ∧ canDrive i a b = true ∧ DriveEdge i a b Area x := by
  obtain ⟨s, l, gl, gr, g', h1, h2⟩ := build_phases i hi ok
  obtain rfl : g' = g := by rw [hg] at h1; simpa using h1.symm
  constructor
  · rintro ⟨hx, hr⟩
    obtain ⟨ph, g1, xs, r, hxs, -⟩ := h2.reason a b x hx
    have hv := edgesOf_vertices _ _ _ x hx
    refine ⟨hv.1, hv.2, ?_⟩
    cases r with
    | areaLanelet ar la hp => exact ⟨hp, (mem_infos_drive i _ _ _ (.inr rfl) x).mp hxs⟩
    | laneletArea la ar hp => exact ⟨hp, (mem_infos_drive i _ _ _ (.inr rfl) x).mp hxs⟩
    | areaArea a b hne hp => exact ⟨by simp [canDrive, hp, hne], (mem_infos_drive i _ _ _ (.inr rfl) x).mp hxs⟩
    | adjacent isLeft la lb =>
      rw [infos_rel i _ _ _ x hxs] at hr
      cases isLeft <;> exact absurd hr (by decide)
    | change isLeft la lb rest =>
      obtain ⟨ci, -, rfl⟩ := List.mem_map.mp hxs
      rcases lc_rel i isLeft ((la, lb) :: rest) ci with h | h <;> rw [hr] at h <;> cases isLeft <;> exact absurd h (by decide)
    | _ => rw [infos_rel i _ _ _ x hxs] at hr; exact absurd hr (by decide)
  · rintro ⟨ha, hb, hd, hx⟩
    have hbx := hbox a b hd
    have hx' := (mem_infos_drive i _ _ _ (.inr rfl) x).mpr hx
    refine ⟨?_, by obtain ⟨k, c, -, -, rfl⟩ := hx; rfl⟩
    rw [h2.vertices] at ha hb
    have hll : ∀ ll : LH, (.inl ll : Prim) ∈ allVertices i →
        (⟨ll.data, false⟩ : LH) ∈ passable i ∧ (ll = ⟨ll.data, false⟩ ∨ ll = invertL ⟨ll.data, false⟩) := by
      intro ll hll
      have := (mem_allLanelets i hi ll).mp (by simpa [allVertices] using hll)
      refine ⟨List.mem_filter.mpr ⟨this.1, this.2.1⟩, ?_⟩
      obtain ⟨d, v⟩ := ll
      cases v
      · exact .inl rfl
      · exact .inr rfl
    have har : ∀ ar : Nat, (.inr ar : Prim) ∈ allVertices i → ar ∈ passableAreas i := by
      intro ar h; simpa [allVertices] using h
    match a, b, hd, hbx with
    | .inl la, .inr ar, hd, hbx =>
      obtain ⟨hp, hor⟩ := hll la ha
      exact (((h2.doneAreas ar (har ar hb)).1 _ hp hbx).1 la hor ha).2 hd x hx'
    | .inr ar, .inl la, hd, hbx =>
      obtain ⟨hp, hor⟩ := hll la hb
      exact (((h2.doneAreas ar (har ar ha)).1 _ hp hbx).1 la hor hb).1 hd x hx'
    | .inr ar, .inr br, hd, hbx =>
      simp only [canDrive, Bool.and_eq_true, bne_iff_ne, ne_eq] at hd
      exact (h2.doneAreas ar (har ar ha)).2 br (har br hb) hbx (fun h => hd.2 h.symm) hd.1 x hx'

/-- Conflicts between lanelets and areas are in the graph in one direction only: from the lanelet to the area. -/
theorem conflicting_area_oneway (i : Input P K) (hi : InputOk i) (ok : CostsOk i) (g : RGraph Prim K)
    (hg : build i = some g) (ar : Nat) (ll : LH) :
    (∀ x ∈ edgesOf g (.inr ar) (.inl ll), x.relation ≠ Conflicting) ∧
    (InGraph i ll → ll.inv = false → (.inr ar : Prim) ∈ g.vertices → i.boxAL ar ll = true → i.overlapsAL ar ll = true →
      (∀ l, l = ll ∨ l = invertL ll → i.rules.passAL ar l = false ∧ i.rules.passLA l ar = false) →
      ∀ k, k < i.costs.length → ⟨i.one, k, Conflicting⟩ ∈ edgesOf g (.inl ll) (.inr ar)) := by
  obtain ⟨s, l, gl, gr, g', h1, h2⟩ := build_phases i hi ok
  obtain rfl : g' = g := by rw [hg] at h1; simpa using h1.symm
  constructor
  · intro x hx hr
    obtain ⟨ph, g1, xs, r, hxs, -⟩ := h2.reason _ _ x hx
    cases r with
    | areaLanelet => rw [infos_rel i _ _ _ x hxs] at hr; exact absurd hr (by decide)
  · intro hin hinv har hbox ho hno k hk
    rw [h2.vertices] at har
    obtain ⟨d, v⟩ := ll
    simp only at hinv
    subst hinv
    exact ((h2.doneAreas ar (by simpa [allVertices] using har)).1 _ (List.mem_filter.mpr ⟨hin.1, hin.2.1⟩) hbox).2 hno ho _
      ((mem_infos_fixed i _ _ _ (by decide) _).mpr ⟨k, hk, rfl⟩)

/-- The chain of lane changes, and with it the cost of a lane change, depends on the iteration order of the hash map: with
two lane changes `1 → 11` and `2 → 12`, where lanelet 2 is one of two successors of lanelet 1, the lane change from
lanelet 1 is handed out alone if the iteration begins with it, and together with the next one if it begins there. -/
theorem laneChange_order_counterexample :
    let ll (n : Nat) : LH := ⟨n, false⟩
    let next (l : LH) : Option (List LH) :=
      if l = ll 1 then some [ll 2, ll 3] else if l = ll 11 then some [ll 12] else some []
    let prev (l : LH) : Option (List LH) :=
      if l = ll 2 then some [ll 1] else if l = ll 3 then some [ll 1] else if l = ll 12 then some [ll 11] else some []
    let a : Entry := ⟨ll 1, ll 11, false⟩
    let b : Entry := ⟨ll 2, ll 12, false⟩
    (getNext prev next [a, b] 0).map (·.1) = some (some [(ll 1, ll 11)]) ∧
    (getNext prev next [b, a] 0).map (·.1) = some (some [(ll 1, ll 11), (ll 2, ll 12)]) := by
  constructor
  · simp [getNext, mark]
    rw [chain]
    simp
    rw [chain]
    simp
  · simp [getNext, mark]
    rw [chain]
    simp
    rw [chain]
    simp [mark]
    rw [chain]
    simp

/-! A map with four lanelets: 0 and 1 side by side, 2 behind 0, 3 overlaps 1; area 0 overlaps lanelet 3. Lanelet 2 may be
used in both directions. -/
/-- Example: lanelets with their bounds. -/
def exWorld : World Nat where
  pts n := if n = 0 then [0, 1] else if n = 1 then [10, 11] else if n = 2 then [20, 21] else if n = 3 then [1, 2]
    else if n = 4 then [11, 12] else [50 + n, 60 + n]
  ids n := n
  lls n := if n = 0 then ⟨⟨0, false⟩, ⟨1, false⟩, [], none⟩ else if n = 1 then ⟨⟨1, false⟩, ⟨2, false⟩, [], none⟩
    else if n = 2 then ⟨⟨3, false⟩, ⟨4, false⟩, [], none⟩ else ⟨⟨5, false⟩, ⟨6, false⟩, [], none⟩
  ars _ := ⟨[], [], [], [], []⟩

/-- Example: a map and rules for these lanelets. -/
def exInput : Input Nat Nat where
  w := exWorld
  ptId n := n
  llId n := n
  lanelets := [⟨0, false⟩, ⟨1, false⟩, ⟨2, false⟩, ⟨3, false⟩]
  areas := [0]
  rules := ⟨fun l => !l.inv || l.data == 2, fun _ => true, fun _ _ => true, fun l a => l.data == 2 && a == 0,
    fun _ _ => false, fun _ _ => false, fun a b => a.data == 0 && b.data == 1⟩
  costs := [⟨fun _ _ => 3, fun _ _ => 2⟩, ⟨fun _ _ => 5, fun _ _ => 100⟩]
  tests := ⟨fun n => n < 100, fun _ => false⟩
  one := 1
  boxLL _ _ := true
  boxAL _ _ := true
  boxAA _ _ := true
  overlapsLL a b := (a.data == 1 && b.data == 3) || (a.data == 3 && b.data == 1)
  overlapsAL _ a := a.data == 3
  overlapsAA _ _ := false
  orderRange l := l.reverse
  orderSearch l := l.reverse
  orderSearchA l := l
  shuffle l := l.reverse

theorem exInput_ok : InputOk exInput ∧ CostsOk exInput := by
  refine ⟨⟨by decide, by decide, by decide, by decide, fun l => List.reverse_perm l, fun l => List.reverse_perm l,
    fun l => List.Perm.refl l, fun l => List.reverse_perm l⟩, by decide, by decide, ?_, ?_⟩
  · intro c _ a b; rfl
  · intro c _ a b; rfl

instance decBeside (i : Input Nat K) (l : Bool) (a b : LH) : Decidable (Beside i l a b) := by
  unfold Beside; infer_instance
instance decInGraph (i : Input Nat K) (a : LH) : Decidable (InGraph i a) := by
  unfold InGraph; infer_instance

/-- the hypotheses of the theorems hold in this map: a successor -/
example : ∃ g, build exInput = some g ∧ ⟨3, 0, Successor⟩ ∈ edgesOf g (.inl ⟨0, false⟩) (.inl ⟨2, false⟩) := by
  obtain ⟨g, hg, -⟩ := build_vertices exInput exInput_ok.1 exInput_ok.2
  exact ⟨g, hg, ((successor_iff exInput exInput_ok.1 exInput_ok.2 g hg _ _ _).mpr
    ⟨⟨0, false⟩, ⟨2, false⟩, rfl, rfl, by decide, by decide, by decide, by decide, 0, _, rfl, by decide, rfl⟩).1⟩

/-- a lane change: the second cost module has infinite costs -/
example : ∃ g, build exInput = some g ∧
    edgesOf g (.inl ⟨0, false⟩) (.inl ⟨1, false⟩) = [⟨2, 0, Right⟩, ⟨1, 1, AdjacentRight⟩] := by
  obtain ⟨g, hg, -⟩ := build_vertices exInput exInput_ok.1 exInput_ok.2
  obtain ⟨c, h1, h2, h3⟩ := neighbour_laneChange exInput exInput_ok.1 exInput_ok.2 (by decide) g hg false ⟨0, false⟩
    ⟨1, false⟩ (by decide) (by decide) ⟨by decide, by decide, by decide, by decide, by decide, by decide⟩ (by
      intro b' hb' hne hbs
      have hm := (mem_allLanelets exInput exInput_ok.1 b').mpr hb'
      have hall : allLanelets exInput = [⟨0, false⟩, ⟨1, false⟩, ⟨2, false⟩, ⟨3, false⟩, ⟨2, true⟩] := by decide
      rw [hall] at hm
      revert hbs hne
      have : ∀ b' ∈ ([⟨0, false⟩, ⟨1, false⟩, ⟨2, false⟩, ⟨3, false⟩, ⟨2, true⟩] : List LH),
        b' ≠ ⟨0, false⟩ → Beside exInput false ⟨0, false⟩ b' → b' = ⟨1, false⟩ := by decide
      exact this b' hm) (by decide)
  refine ⟨g, hg, ?_⟩
  rw [h3]
  simp [exInput, changeEdge]

/-- a neighbour without lane change, from 1 to 0 -/
example : ∃ g, build exInput = some g ∧
    edgesOf g (.inl ⟨1, false⟩) (.inl ⟨0, false⟩) = [⟨1, 0, AdjacentLeft⟩, ⟨1, 1, AdjacentLeft⟩] := by
  obtain ⟨g, hg, -⟩ := build_vertices exInput exInput_ok.1 exInput_ok.2
  exact ⟨g, hg, neighbour_adjacent exInput exInput_ok.1 exInput_ok.2 (by decide) g hg true ⟨1, false⟩ ⟨0, false⟩
    (by decide) (by decide) ⟨by decide, by decide, by decide, by decide, by decide, by decide⟩ (by decide)⟩

/-- conflicts: overlap, opposite direction; the area in one direction only; and an Area edge -/
example : ∃ g, build exInput = some g ∧ ⟨1, 0, Conflicting⟩ ∈ edgesOf g (.inl ⟨3, false⟩) (.inl ⟨1, false⟩) ∧
    ⟨1, 1, Conflicting⟩ ∈ edgesOf g (.inl ⟨2, true⟩) (.inl ⟨2, false⟩) ∧
    ⟨1, 1, Conflicting⟩ ∈ edgesOf g (.inl ⟨3, false⟩) (.inr 0) ∧
    ⟨5, 1, Area⟩ ∈ edgesOf g (.inl ⟨2, true⟩) (.inr 0) := by
  obtain ⟨g, hg, -, hl, ha, -⟩ := build_vertices exInput exInput_ok.1 exInput_ok.2
  refine ⟨g, hg, ?_, ?_, ?_, ?_⟩
  · exact ((conflicting_complete exInput exInput_ok.1 exInput_ok.2 (by decide) g hg ⟨1, false⟩ ⟨3, false⟩ (by decide)
      (by decide) rfl (by decide) rfl (by decide)).2 (by decide) (by decide) (by decide) 0 (by decide)).2
  · exact (conflicting_inverse exInput exInput_ok.1 exInput_ok.2 (by decide) g hg ⟨2, false⟩ (by decide) rfl (by decide)
      rfl 1 (by decide)).2
  · exact (conflicting_area_oneway exInput exInput_ok.1 exInput_ok.2 g hg 0 ⟨3, false⟩).2 (by decide) rfl
      ((ha 0).mpr (by decide)) rfl (by decide) (by rintro l (rfl | rfl) <;> decide) 1 (by decide)
  · refine ((area_iff exInput exInput_ok.1 exInput_ok.2 g hg ?_ (.inl ⟨2, true⟩) (.inr 0) _).mpr
      ⟨(hl _).mpr (by decide), (ha 0).mpr (by decide), by decide, 1, _, rfl, by decide, rfl⟩).1
    intro a b h
    rcases a with a | a <;> rcases b with b | b <;> first | rfl | (simp [canDrive] at h)

end Verif.Build
