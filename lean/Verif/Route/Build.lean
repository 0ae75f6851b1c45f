import Verif.Route.Search
import Verif.Graph.Props

/-!
Helper lemmas: the visitor that constructs the graph of the route copies the part of the routing graph that the search visits, and numbers the
lanes.
-/
set_option linter.unusedSectionVars false
namespace Verif.Route
open Verif.Graph Verif.Graph.RelationType
open Relation (EqvGen)
variable {P K : Type} [DecidableEq P]

/-! ### equivalences -/

theorem eqv_add {R : Nat → Nat → Prop} {u v a b : Nat} :
    EqvGen (fun x y => R x y ∨ (x = u ∧ y = v)) a b ↔
      EqvGen R a b ∨ (EqvGen R a u ∧ EqvGen R v b) ∨ (EqvGen R a v ∧ EqvGen R u b) := by
  constructor
  · intro h
    induction h with
    | rel x y h =>
      rcases h with h | ⟨rfl, rfl⟩
      · exact .inl (.rel _ _ h)
      · exact .inr (.inl ⟨.refl _, .refl _⟩)
    | refl x => exact .inl (.refl _)
    | symm x y _ ih =>
      rcases ih with h | ⟨h1, h2⟩ | ⟨h1, h2⟩
      · exact .inl h.symm
      · exact .inr (.inr ⟨h2.symm, h1.symm⟩)
      · exact .inr (.inl ⟨h2.symm, h1.symm⟩)
    | trans x y z _ _ ih1 ih2 =>
      rcases ih1 with h | ⟨h1, h2⟩ | ⟨h1, h2⟩ <;> rcases ih2 with k | ⟨k1, k2⟩ | ⟨k1, k2⟩
      · exact .inl (h.trans _ _ _ k)
      · exact .inr (.inl ⟨h.trans _ _ _ k1, k2⟩)
      · exact .inr (.inr ⟨h.trans _ _ _ k1, k2⟩)
      · exact .inr (.inl ⟨h1, h2.trans _ _ _ k⟩)
      · exact .inr (.inl ⟨h1, k2⟩)
      · exact .inl (h1.trans _ _ _ k2)
      · exact .inr (.inr ⟨h1, h2.trans _ _ _ k⟩)
      · exact .inl (h1.trans _ _ _ k2)
      · exact .inr (.inr ⟨h1, k2⟩)
  · have mono : ∀ {x y}, EqvGen R x y → EqvGen (fun x y => R x y ∨ (x = u ∧ y = v)) x y := by
      intro x y h
      exact h.mono fun _ _ h => .inl h
    have huv : EqvGen (fun x y => R x y ∨ (x = u ∧ y = v)) u v := .rel _ _ (.inr ⟨rfl, rfl⟩)
    rintro (h | ⟨h1, h2⟩ | ⟨h1, h2⟩)
    · exact mono h
    · exact ((mono h1).trans _ _ _ huv).trans _ _ _ (mono h2)
    · exact ((mono h1).trans _ _ _ huv.symm).trans _ _ _ (mono h2)

theorem eqv_isolated {R : Nat → Nat → Prop} {S : Nat → Prop} (hR : ∀ x y, R x y → S x ∧ S y) {a b : Nat} (h : EqvGen R a b) :
    (S a ↔ S b) ∧ (¬ S a → a = b) := by
  induction h with
  | rel x y h => exact ⟨⟨fun _ => (hR _ _ h).2, fun _ => (hR _ _ h).1⟩, fun k => absurd (hR _ _ h).1 k⟩
  | refl x => exact ⟨Iff.rfl, fun _ => rfl⟩
  | symm x y _ ih => exact ⟨ih.1.symm, fun k => (ih.2 (fun hx => k (ih.1.mp hx))).symm⟩
  | trans x y z _ _ ih1 ih2 => exact ⟨ih1.1.trans ih2.1, fun k => (ih1.2 k).trans (ih2.2 fun hy => k (ih1.1.mpr hy))⟩

/-! ### vertices -/

/-- the vertices of the route are those of the list -/
def Sees (g : RGraph P K) (seen : List Nat) (r : RGraph P K) : Prop := r.vertices.map some = seen.map (g.vertices[·]?)

theorem sees_get {g r : RGraph P K} {seen : List Nat} (h : Sees g seen r) (i : Nat) :
    (r.vertices[i]?).map some = (seen[i]?).map (g.vertices[·]?) := by
  have := congrArg (fun l => l[i]?) h
  simpa using this

theorem sees_length {g r : RGraph P K} {seen : List Nat} (h : Sees g seen r) : r.vertices.length = seen.length := by
  have := congrArg List.length h
  simpa using this

theorem vertex_inj {g : RGraph P K} (hn : g.vertices.Nodup) {v w : Nat} {p : P} (hv : g.vertices[v]? = some p) (hw : g.vertices[w]? = some p) :
    v = w := by
  have h1 := (getVertex_iff hn).mpr hv
  rw [(getVertex_iff hn).mpr hw] at h1
  exact (Option.some.inj h1).symm

theorem sees_nodup {g r : RGraph P K} (hn : g.vertices.Nodup) {seen : List Nat} (h : Sees g seen r) (hs : seen.Nodup) : r.vertices.Nodup := by
  rw [List.nodup_iff_getElem?_ne_getElem?]
  intro i j hij hj heq
  have h1 := sees_get h i
  have h2 := sees_get h j
  rw [List.getElem?_eq_getElem (by omega)] at heq h1
  rw [List.getElem?_eq_getElem hj] at heq h2
  have hl := sees_length h
  rw [List.getElem?_eq_getElem (by omega)] at h1 h2
  simp only [Option.map_some, Option.some.injEq] at h1 h2 heq
  rw [heq] at h1
  have := vertex_inj hn h1.symm h2.symm
  have := (List.Nodup.getElem_inj_iff hs).mp this
  omega

theorem sees_getVertex {g r : RGraph P K} (hn : g.vertices.Nodup) {seen : List Nat} (h : Sees g seen r) (hs : seen.Nodup) {v : Nat} {p : P}
    (hv : g.vertices[v]? = some p) : r.getVertex p = if v ∈ seen then some (seen.idxOf v) else none := by
  have hiff : ∀ i, r.getVertex p = some i ↔ seen[i]? = some v := by
    intro i
    rw [getVertex_iff (sees_nodup hn h hs)]
    have := sees_get h i
    constructor
    · intro hp
      rw [hp] at this
      cases hw : seen[i]? with
      | none => rw [hw] at this; simp at this
      | some w =>
        rw [hw] at this
        simp only [Option.map_some, Option.some.injEq] at this
        rw [vertex_inj hn hv this.symm]
    · intro hp
      rw [hp] at this
      simp only [Option.map_some, hv] at this
      cases hw : r.vertices[i]? with
      | none => rw [hw] at this; simp at this
      | some w => rw [hw] at this; simpa using this
  split
  · rename_i hm
    exact (hiff _).mpr (List.getElem?_idxOf hm)
  · rename_i hm
    cases hg : r.getVertex p with
    | none => rfl
    | some i => exact absurd (List.mem_of_getElem? ((hiff i).mp hg)) hm

theorem sees_append {g r : RGraph P K} {seen : List Nat} (h : Sees g seen r) {v : Nat} {p : P} (hv : g.vertices[v]? = some p) :
    Sees g (seen ++ [v]) (r.addVertex p) := by
  unfold Sees RGraph.addVertex at *
  rw [List.map_append, List.map_append, h]
  simp [hv]

/-! ### the state of the visitor -/

/-- the edge of the route for an edge of the routing graph -/
def routeEdge (seen : List Nat) (e : BaseEdge K) : BaseEdge K := ⟨seen.idxOf e.src, seen.idxOf e.dst, { e.info with costId := 0 }⟩

/-- two vertices are joined by an edge within a lane -/
def Same (outs ins : Nat → List (BaseEdge K)) (es : List (BaseEdge K)) (u v : Nat) : Prop :=
  ∃ e ∈ es, isDifferentLane outs ins e = false ∧ e.src = u ∧ e.dst = v

/-- the elements of the map that a vertex conflicts with -/
def conflicts (g : RGraph P K) (E : List (BaseEdge K)) (v : Nat) : List P :=
  ((outE E v).filter (hasRel Conflicting)).filterMap fun e => g.vertices[e.dst]?

/-- Helper of the proofs: invariant of building the route. -/
structure Inv (g : RGraph P K) (E : List (BaseEdge K)) (outs ins : Nat → List (BaseEdge K)) (es : List (BaseEdge K)) (done seen : List Nat)
    (s : Visitor P K) : Prop where
  costs : s.route.graph.numRoutingCosts = 1
  sees : Sees g seen s.route.graph
  nodup : seen.Nodup
  bound : ∀ v ∈ seen, v < g.vertices.length
  sub : ∀ v ∈ done, v ∈ seen
  ends : ∀ e ∈ es, e.src ∈ seen ∧ e.dst ∈ seen
  edges : s.route.graph.edges = es.map (routeEdge seen)
  lanes : seen.length ≤ laneIds → ∀ u ∈ seen, ∀ v ∈ seen,
    (s.route.laneId (seen.idxOf u) = s.route.laneId (seen.idxOf v) ↔ EqvGen (Same outs ins es) u v)
  counter : ∃ c, c < seen.length ∧ s.laneId = (1000 + c) % laneIds ∧
    ∀ u ∈ seen, ∃ k ≤ c, s.route.laneId (seen.idxOf u) = (1000 + k) % laneIds
  conf : ∀ i, s.route.conflicting i = ((seen[i]?).map fun v => if v ∈ done then conflicts g E v else []).getD []

theorem same_append {outs ins : Nat → List (BaseEdge K)} {es : List (BaseEdge K)} {e : BaseEdge K} :
    Same outs ins (es ++ [e]) = if isDifferentLane outs ins e = false then fun x y => Same outs ins es x y ∨ (x = e.src ∧ y = e.dst)
      else Same outs ins es := by
  funext x y
  unfold Same
  split
  · rename_i h
    apply propext
    constructor
    · rintro ⟨a, ha, h1, h2, h3⟩
      rcases List.mem_append.mp ha with ha | ha
      · exact .inl ⟨a, ha, h1, h2, h3⟩
      · simp only [List.mem_singleton] at ha
        subst ha
        exact .inr ⟨h2.symm, h3.symm⟩
    · rintro (⟨a, ha, h1, h2, h3⟩ | ⟨rfl, rfl⟩)
      · exact ⟨a, List.mem_append_left _ ha, h1, h2, h3⟩
      · exact ⟨e, by simp, h, rfl, rfl⟩
  · rename_i h
    apply propext
    constructor
    · rintro ⟨a, ha, h1, h2, h3⟩
      rcases List.mem_append.mp ha with ha | ha
      · exact ⟨a, ha, h1, h2, h3⟩
      · simp only [List.mem_singleton] at ha
        subst ha
        exact absurd h1 h
    · rintro ⟨a, ha, h1, h2, h3⟩
      exact ⟨a, List.mem_append_left _ ha, h1, h2, h3⟩

theorem idxOf_ne {seen : List Nat} {a b : Nat} (hn : seen.Nodup) (hb : b ∈ seen) (h : a ≠ b) (ha : a ∈ seen) :
    seen.idxOf a ≠ seen.idxOf b := by
  intro he
  exact h ((List.idxOf_inj ha).mp he)

variable {t : CostTests K} {g : RGraph P K} {E : List (BaseEdge K)} {outs ins : Nat → List (BaseEdge K)}

theorem examineEdge_inv (hn : g.vertices.Nodup) {es : List (BaseEdge K)} {done seen : List Nat} {s : Visitor P K}
    (hi : Inv g E outs ins es done seen s) {e : BaseEdge K} (hs : s.source = seen.idxOf e.src) (hsrc : e.src ∈ seen)
    (hdst : e.dst < g.vertices.length) (hfin : t.isFinite e.info.routingCost = true) (hneg : t.negative e.info.routingCost = false) :
    ∃ s', s.examineEdge t g outs ins e = .ok s' ∧
      Inv g E outs ins (es ++ [e]) done (if e.dst ∈ seen then seen else seen ++ [e.dst]) s' ∧
      s'.source = (if e.dst ∈ seen then seen else seen ++ [e.dst]).idxOf e.src := by
  obtain ⟨p, hp⟩ : ∃ p, g.vertices[e.dst]? = some p := ⟨_, List.getElem?_eq_getElem hdst⟩
  have hgv := sees_getVertex hn hi.sees hi.nodup hp
  have hR : ∀ x y, Same outs ins es x y → x ∈ seen ∧ y ∈ seen := by
    rintro x y ⟨a, ha, -, rfl, rfl⟩
    exact hi.ends a ha
  by_cases hd : e.dst ∈ seen
  · -- known vertex
    rw [if_pos hd] at hgv
    simp only [if_pos hd]
    by_cases hcase : (!isDifferentLane outs ins e && decide (e.info.relation = Successor) &&
        decide (s.route.laneId s.source ≠ s.route.laneId (seen.idxOf e.dst))) = true
    · -- the lanes are joined
      refine ⟨_, by
        simp only [Visitor.examineEdge, laneletOf, hp, hgv, hcase, RGraph.addEdgeV, hfin, hneg, bind, Except.bind, pure, Except.pure,
          if_true, Bool.true_eq_false, Bool.false_eq_true, if_false, RouteGraph.setLaneIdFromTo]
        rfl, ?_, ?_⟩
      swap
      · exact hs
      simp only [Bool.and_eq_true, Bool.not_eq_true', decide_eq_true_eq] at hcase
      obtain ⟨⟨h1, h2⟩, h3⟩ := hcase
      have hlen := sees_length hi.sees
      have hlt : ∀ u ∈ seen, seen.idxOf u < s.route.graph.vertices.length := fun u hu => by
        rw [hlen]; exact List.idxOf_lt_length_of_mem hu
      refine ⟨hi.costs, hi.sees, hi.nodup, hi.bound, hi.sub, ?_, ?_, ?_, ?_, hi.conf⟩
      · intro a ha
        rcases List.mem_append.mp ha with ha | ha
        · exact hi.ends a ha
        · simp only [List.mem_singleton] at ha
          subst ha
          exact ⟨hsrc, hd⟩
      · simp only [hi.edges, List.map_append, List.map_cons, List.map_nil, routeEdge, hs]
      · intro hL u hu v hv
        rw [same_append, if_pos h1, eqv_add]
        have hl := hi.lanes hL
        rw [← hl u hu v hv, ← hl u hu _ hsrc, ← hl _ hd v hv, ← hl u hu _ hd, ← hl _ hsrc v hv]
        simp only [hlt u hu, hlt v hv, true_and, hs]
        generalize s.route.laneId (seen.idxOf u) = A
        generalize s.route.laneId (seen.idxOf v) = B
        generalize s.route.laneId (seen.idxOf e.src) = C
        generalize s.route.laneId (seen.idxOf e.dst) = D
        split <;> split <;> omega
      · obtain ⟨c, c1, c2, c3⟩ := hi.counter
        refine ⟨c, c1, c2, ?_⟩
        intro u hu
        simp only [hs]
        split
        · exact c3 _ hsrc
        · exact c3 u hu
    · refine ⟨_, by
        simp only [Visitor.examineEdge, laneletOf, hp, hgv, hcase, RGraph.addEdgeV, hfin, hneg, bind, Except.bind, pure, Except.pure,
          Bool.true_eq_false, Bool.false_eq_true, if_false]
        rfl, ?_, ?_⟩
      swap
      · exact hs
      refine ⟨hi.costs, hi.sees, hi.nodup, hi.bound, hi.sub, ?_, ?_, ?_, hi.counter, hi.conf⟩
      · intro a ha
        rcases List.mem_append.mp ha with ha | ha
        · exact hi.ends a ha
        · simp only [List.mem_singleton] at ha
          subst ha
          exact ⟨hsrc, hd⟩
      · simp only [hi.edges, List.map_append, List.map_cons, List.map_nil, routeEdge, hs]
      · intro hL u hu v hv
        have hl := hi.lanes hL
        rw [same_append]
        split
        · rename_i h1
          have hrel : e.info.relation = Successor := by
            unfold isDifferentLane at h1
            by_contra hne
            rw [if_pos hne] at h1
            cases h1
          have heq : s.route.laneId s.source = s.route.laneId (seen.idxOf e.dst) := by
            simpa [h1, hrel] using hcase
          rw [eqv_add, ← hl u hu v hv, ← hl u hu _ hsrc, ← hl _ hd v hv, ← hl u hu _ hd, ← hl _ hsrc v hv]
          rw [hs] at heq
          simp only
          omega
        · exact hl u hu v hv
  · -- new vertex
    rw [if_neg hd] at hgv
    simp only [if_neg hd]
    have hlen := sees_length hi.sees
    have hidx : ∀ u ∈ seen, (seen ++ [e.dst]).idxOf u = seen.idxOf u := fun u hu => List.idxOf_append_of_mem hu
    have hidxd : (seen ++ [e.dst]).idxOf e.dst = seen.length := by
      rw [List.idxOf_append_of_notMem hd]; simp
    have hnd : (seen ++ [e.dst]).Nodup := by
      rw [List.nodup_append]
      refine ⟨hi.nodup, by simp, ?_⟩
      intro x hx y hy
      simp only [List.mem_singleton] at hy
      subst hy
      rintro rfl
      exact hd hx
    have hlt : ∀ u ∈ seen, seen.idxOf u ≠ seen.length := fun u hu => by
      have := List.idxOf_lt_length_of_mem hu
      omega
    obtain ⟨c, c1, c2, c3⟩ := hi.counter
    refine ⟨_, by
      simp only [Visitor.examineEdge, laneletOf, hp, hgv, RGraph.addEdgeV, hfin, hneg, bind, Except.bind, pure, Except.pure,
        Bool.true_eq_false, Bool.false_eq_true, if_false, RouteGraph.addVertex]
      rfl, ?_, ?_⟩
    swap
    · rw [hidx _ hsrc]; exact hs
    have hiso : ∀ b ∈ seen, ¬ EqvGen (Same outs ins es) e.dst b := by
      intro b hb h
      have := (eqv_isolated (S := (· ∈ seen)) hR h).1
      exact hd (this.mpr hb)
    have hiso' : ∀ b ∈ seen, ¬ EqvGen (Same outs ins es) b e.dst := fun b hb h => hiso b hb h.symm
    refine ⟨hi.costs, ?_, hnd, ?_, ?_, ?_, ?_, ?_, ?_, ?_⟩
    · exact sees_append hi.sees hp
    · intro v hv
      rcases List.mem_append.mp hv with hv | hv
      · exact hi.bound v hv
      · simp only [List.mem_singleton] at hv
        subst hv
        exact hdst
    · exact fun v hv => List.mem_append_left _ (hi.sub v hv)
    · intro a ha
      rcases List.mem_append.mp ha with ha | ha
      · exact ⟨List.mem_append_left _ (hi.ends a ha).1, List.mem_append_left _ (hi.ends a ha).2⟩
      · simp only [List.mem_singleton] at ha
        subst ha
        exact ⟨List.mem_append_left _ hsrc, by simp⟩
    · simp only [RGraph.addVertex, hi.edges, List.map_append, List.map_cons, List.map_nil]
      congr 1
      · apply List.map_congr_left
        intro a ha
        simp only [routeEdge, hidx _ (hi.ends a ha).1, hidx _ (hi.ends a ha).2]
      · simp only [routeEdge, hidx _ hsrc, hidxd, hs, hlen]
    · intro hL
      simp only [List.length_append, List.length_cons, List.length_nil] at hL
      have hl := hi.lanes (by omega)
      have hself : ∀ a ∈ seen ++ [e.dst], a ∈ seen ∨ a = e.dst := fun a ha => by simpa using ha
      cases hnl : isDifferentLane outs ins e with
      | false =>
        -- same lane
        intro u hu v hv
        rw [same_append, if_pos hnl, eqv_add]
        simp only [Bool.false_eq_true, if_false, hlen]
        rcases hself u hu with hu | rfl <;> rcases hself v hv with hv | rfl
        · rw [hidx u hu, hidx v hv, Function.update_of_ne (hlt u hu), Function.update_of_ne (hlt v hv), hl u hu v hv]
          constructor
          · exact .inl
          · rintro (h | ⟨-, h⟩ | ⟨h, -⟩)
            · exact h
            · exact absurd h (hiso v hv)
            · exact absurd h (hiso' u hu)
        · rw [hidx u hu, hidxd, Function.update_of_ne (hlt u hu), Function.update_self, hs, hl u hu _ hsrc]
          constructor
          · exact fun h => .inr (.inl ⟨h, .refl _⟩)
          · rintro (h | ⟨h, -⟩ | ⟨h, -⟩)
            · exact absurd h (hiso' u hu)
            · exact h
            · exact absurd h (hiso' u hu)
        · rw [hidx v hv, hidxd, Function.update_of_ne (hlt v hv), Function.update_self, hs, hl _ hsrc v hv]
          constructor
          · exact fun h => .inr (.inr ⟨.refl _, h⟩)
          · rintro (h | ⟨-, h⟩ | ⟨-, h⟩)
            · exact absurd h (hiso v hv)
            · exact absurd h (hiso v hv)
            · exact h
        · constructor
          · exact fun _ => .inl (.refl _)
          · exact fun _ => rfl
      | true =>
        intro u hu v hv
        rw [same_append, if_neg (c := isDifferentLane outs ins e = false) (by simp [hnl])]
        simp only [if_true, hlen]
        have hfresh : ∀ a ∈ seen, s.route.laneId (seen.idxOf a) ≠ (s.laneId + 1) % laneIds := by
          intro a ha
          obtain ⟨k, hk, hk2⟩ := c3 a ha
          rw [hk2, c2]
          unfold laneIds at hL ⊢
          omega
        rcases hself u hu with hu | rfl <;> rcases hself v hv with hv | rfl
        · rw [hidx u hu, hidx v hv, Function.update_of_ne (hlt u hu), Function.update_of_ne (hlt v hv), hl u hu v hv]
        · rw [hidx u hu, hidxd, Function.update_of_ne (hlt u hu), Function.update_self]
          exact ⟨fun h => absurd h (hfresh u hu), fun h => absurd h (hiso' u hu)⟩
        · rw [hidx v hv, hidxd, Function.update_of_ne (hlt v hv), Function.update_self]
          exact ⟨fun h => absurd h.symm (hfresh v hv), fun h => absurd h (hiso v hv)⟩
        · exact ⟨fun _ => .refl _, fun _ => rfl⟩
    · cases hnl : isDifferentLane outs ins e with
      | false =>
        refine ⟨c, by simp; omega, by simpa using c2, ?_⟩
        intro u hu
        simp only [Bool.false_eq_true, if_false, hlen]
        rcases List.mem_append.mp hu with hu | hu
        · rw [hidx u hu, Function.update_of_ne (hlt u hu)]
          exact c3 u hu
        · simp only [List.mem_singleton] at hu
          subst hu
          rw [hidxd, Function.update_self, hs]
          exact c3 _ hsrc
      | true =>
        refine ⟨c + 1, by simp; omega, by simp only [if_true, c2, laneIds]; omega, ?_⟩
        intro u hu
        simp only [if_true, hlen]
        rcases List.mem_append.mp hu with hu | hu
        · rw [hidx u hu, Function.update_of_ne (hlt u hu)]
          obtain ⟨k, hk, hk2⟩ := c3 u hu
          exact ⟨k, by omega, hk2⟩
        · simp only [List.mem_singleton] at hu
          subst hu
          rw [hidxd, Function.update_self]
          exact ⟨c + 1, le_refl _, by simp only [c2, laneIds]; omega⟩
    · intro i
      simp only
      rw [hi.conf i]
      by_cases h : i < seen.length
      · rw [List.getElem?_append_left h]
      · rw [List.getElem?_eq_none (by omega)]
        by_cases h2 : i = seen.length
        · subst h2
          have : e.dst ∉ done := fun h => hd (hi.sub _ h)
          simp [this]
        · rw [List.getElem?_eq_none (by simp; omega)]

/-- the edges of one vertex -/
theorem edges_inv (hn : g.vertices.Nodup) (u : Nat) : ∀ (l : List (BaseEdge K)) {es : List (BaseEdge K)} {done seen q : List Nat} {s : Visitor P K},
    Inv g E outs ins es done seen s → s.source = seen.idxOf u → u ∈ seen →
    (∀ e ∈ l, e.src = u ∧ e.dst < g.vertices.length ∧ t.isFinite e.info.routingCost = true ∧ t.negative e.info.routingCost = false) →
    ∃ s', l.foldlM (Visitor.examineEdge t g outs ins) s = .ok s' ∧ Inv g E outs ins (es ++ l) done (discover (l.map (·.dst)) q seen).2 s' ∧
      s'.source = (discover (l.map (·.dst)) q seen).2.idxOf u ∧ u ∈ (discover (l.map (·.dst)) q seen).2 := by
  intro l
  induction l with
  | nil => intro es done seen q s hi hs hu _; exact ⟨s, rfl, by simpa [discover] using hi, by simpa [discover] using hs, by simpa [discover] using hu⟩
  | cons e l ih =>
    intro es done seen q s hi hs hu hl
    obtain ⟨h1, h2, h3, h4⟩ := hl e (by simp)
    subst h1
    obtain ⟨s', k1, k2, k3⟩ := examineEdge_inv (t := t) hn hi hs hu h2 h3 h4
    have hd : discover ((e :: l).map (·.dst)) q seen =
        discover (l.map (·.dst)) (if e.dst ∈ seen then q else q ++ [e.dst]) (if e.dst ∈ seen then seen else seen ++ [e.dst]) := by
      unfold discover
      rw [List.map_cons, List.foldl_cons]
      split <;> rfl
    obtain ⟨s'', m1, m2, m3, m4⟩ := ih (q := if e.dst ∈ seen then q else q ++ [e.dst]) k2 k3 (by split <;> simp [hu])
      fun x hx => hl x (by simp [hx])
    refine ⟨s'', ?_, ?_, ?_, ?_⟩
    · rw [List.foldlM_cons, k1]; exact m1
    · rw [hd]; simpa using m2
    · rw [hd]; exact m3
    · rw [hd]; exact m4

/-- the last call for a vertex -/
theorem finish_inv {es : List (BaseEdge K)} {done seen : List Nat} {s : Visitor P K} (hi : Inv g E outs ins es done seen s) {u : Nat}
    (hs : s.source = seen.idxOf u) (hu : u ∈ seen) (hd : u ∉ done) (hE : ∀ e ∈ E, e.dst < g.vertices.length) :
    ∃ s', s.finishVertex g E u = .ok s' ∧ Inv g E outs ins es (done ++ [u]) seen s' := by
  have hmap : ∀ l : List (BaseEdge K), (∀ e ∈ l, e.dst < g.vertices.length) →
      l.mapM (fun e => laneletOf g e.dst) = Except.ok (l.filterMap fun e => g.vertices[e.dst]?) := by
    intro l
    induction l with
    | nil => intro _; rfl
    | cons a l ih =>
      intro h
      have ha : g.vertices[a.dst]? = some (g.vertices[a.dst]'(h a (by simp))) := List.getElem?_eq_getElem _
      rw [List.mapM_cons, List.filterMap_cons, ha, ih fun e he => h e (by simp [he])]
      simp only [laneletOf, ha]
      rfl
  have hm := hmap ((outE E u).filter (hasRel Conflicting)) fun e he =>
    hE e (List.mem_of_mem_filter (List.mem_of_mem_filter he))
  refine ⟨_, by simp only [Visitor.finishVertex, hm, bind, Except.bind, pure, Except.pure]; rfl, ?_⟩
  refine ⟨hi.costs, hi.sees, hi.nodup, hi.bound, ?_, hi.ends, hi.edges, hi.lanes, hi.counter, ?_⟩
  · intro v hv
    rcases List.mem_append.mp hv with hv | hv
    · exact hi.sub v hv
    · simp only [List.mem_singleton] at hv
      subst hv
      exact hu
  · intro i
    simp only [hs]
    by_cases h : i = seen.idxOf u
    · subst h
      rw [Function.update_self, hi.conf, List.getElem?_idxOf hu]
      simp [hd, conflicts]
    · rw [Function.update_of_ne h, hi.conf i]
      cases hv : seen[i]? with
      | none => rfl
      | some v =>
        have hvu : v ≠ u := by
          rintro rfl
          apply h
          obtain ⟨h1, h2⟩ := List.getElem?_eq_some_iff.mp hv
          rw [← h2, List.Nodup.idxOf_getElem hi.nodup]
        simp [hvu]

/-- what is known about the edges -/
structure EOk (t : CostTests K) (g : RGraph P K) (outs : Nat → List (BaseEdge K)) (E : List (BaseEdge K)) : Prop where
  dst : ∀ e ∈ E, e.dst < g.vertices.length
  fin : ∀ e ∈ E, t.isFinite e.info.routingCost = true
  nonneg : ∀ e ∈ E, t.negative e.info.routingCost = false
  outs : ∀ u, ∀ e ∈ outs u, e ∈ E ∧ e.src = u

theorem vertex_rest (hn : g.vertices.Nodup) (hE : EOk t g outs E) {es : List (BaseEdge K)} {done q : List Nat} {u : Nat} {s : Visitor P K}
    (hi : Inv g E outs ins es done (done ++ u :: q) s) (hs : s.source = (done ++ u :: q).idxOf u) :
    ∃ s', ((outs u).foldlM (Visitor.examineEdge t g outs ins) s >>= fun s => s.finishVertex g E u) = .ok s' ∧
      Inv g E outs ins (es ++ outs u) (done ++ [u]) (discover ((outs u).map (·.dst)) q (done ++ u :: q)).2 s' := by
  have hd : u ∉ done := by
    have := hi.nodup
    rw [List.nodup_append] at this
    intro h
    exact this.2.2 u h u (by simp) rfl
  obtain ⟨s1, h1, h2, h3, h4⟩ := edges_inv (t := t) (q := q) hn u (outs u) hi hs (by simp) fun e he =>
    ⟨(hE.outs u e he).2, hE.dst e (hE.outs u e he).1, hE.fin e (hE.outs u e he).1, hE.nonneg e (hE.outs u e he).1⟩
  obtain ⟨s2, k1, k2⟩ := finish_inv h2 h3 h4 hd hE.dst
  exact ⟨s2, by rw [h1]; exact k1, k2⟩

/-- the rest of the search -/
theorem loop_inv (hn : g.vertices.Nodup) (hE : EOk t g outs E) : ∀ (l : List Nat) {q done : List Nat} {es : List (BaseEdge K)} {s : Visitor P K},
    bfsLoop (fun v => (outs v).map (·.dst)) q (done ++ q) = some l → done ++ q ≠ [] → Inv g E outs ins es done (done ++ q) s →
    ∃ s', l.foldlM (Visitor.vertex t g E outs ins) s = .ok s' ∧ Inv g E outs ins (es ++ l.flatMap outs) (done ++ l) (done ++ l) s' := by
  intro l
  induction l with
  | nil =>
    intro q done es s h _ hi
    rw [bfsLoop.eq_def] at h
    cases q with
    | nil => exact ⟨s, rfl, by simpa using hi⟩
    | cons u q =>
      simp only [bind, Option.bind_eq_some_iff, pure, Option.some.injEq] at h
      obtain ⟨l', -, h2⟩ := h
      cases h2
  | cons a l ih =>
    intro q done es s h hne hi
    rw [bfsLoop.eq_def] at h
    cases q with
    | nil => cases h
    | cons u q =>
      simp only [bind, Option.bind_eq_some_iff, pure, Option.some.injEq] at h
      obtain ⟨l', h1, h2⟩ := h
      cases h2
      obtain ⟨p, hp⟩ : ∃ p, g.vertices[a]? = some p := ⟨_, List.getElem?_eq_getElem (hi.bound a (by simp))⟩
      have hgv := sees_getVertex hn hi.sees hi.nodup hp
      rw [if_pos (by simp)] at hgv
      have hne' : s.route.graph.vertices.isEmpty = false := by
        have := sees_length hi.sees
        cases hv : s.route.graph.vertices with
        | nil => rw [hv] at this; simp at this
        | cons => rfl
      have hev : s.examineVertex g a = .ok { s with source := (done ++ a :: q).idxOf a } := by
        simp only [Visitor.examineVertex, laneletOf, hp, hne', hgv, bind, Except.bind, Bool.false_eq_true, if_false, pure, Except.pure]
      have hi' : Inv g E outs ins es done (done ++ a :: q) { s with source := (done ++ a :: q).idxOf a } :=
        ⟨hi.costs, hi.sees, hi.nodup, hi.bound, hi.sub, hi.ends, hi.edges, hi.lanes, hi.counter, hi.conf⟩
      obtain ⟨s', k1, k2⟩ := vertex_rest (t := t) hn hE hi' rfl
      obtain ⟨fresh, d1, -, -⟩ := discover_spec ((outs a).map (·.dst)) q (done ++ a :: q)
      rw [d1] at h1 k2
      have e1 : done ++ a :: q ++ fresh = (done ++ [a]) ++ (q ++ fresh) := by simp
      rw [e1] at h1 k2
      obtain ⟨s'', m1, m2⟩ := ih h1 (by simp) k2
      refine ⟨s'', ?_, by simpa using m2⟩
      rw [List.foldlM_cons]
      have : Visitor.vertex t g E outs ins s a = .ok s' := by
        unfold Visitor.vertex
        rw [hev]
        exact k1
      rw [this]
      exact m1

/-- the whole search: the state at the end -/
theorem construct_inv (hn : g.vertices.Nodup) (hE : EOk t g outs E) {start : Nat} (hst : start < g.vertices.length) {order : List Nat}
    (h : bfs (fun v => (outs v).map (·.dst)) start = some order) :
    ∃ s', order.foldlM (Visitor.vertex t g E outs ins) { route := { graph := .empty 1 } } = .ok s' ∧
      Inv g E outs ins (order.flatMap outs) order order s' := by
  unfold bfs at h
  rw [bfsLoop] at h
  simp only [bind, Option.bind_eq_some_iff, pure, Option.some.injEq] at h
  obtain ⟨l, h1, rfl⟩ := h
  obtain ⟨p, hp⟩ : ∃ p, g.vertices[start]? = some p := ⟨_, List.getElem?_eq_getElem hst⟩
  have hi : Inv g E outs ins [] [] ([] ++ [start])
      ({ route := { graph := { numRoutingCosts := 1, vertices := [p], edges := [] }, laneId := Function.update (fun _ => 0) 0 1000 },
         laneId := 1000, source := 0 } : Visitor P K) := by
    refine ⟨rfl, ?_, by simp, by simpa using hst, by simp, by simp, rfl, ?_, ?_, ?_⟩
    · simp [Sees, hp]
    · intro _ u hu v hv
      simp only [List.nil_append, List.mem_singleton] at hu hv
      subst hu hv
      exact ⟨fun _ => .refl _, fun _ => rfl⟩
    · refine ⟨0, by simp, by simp [laneIds], ?_⟩
      intro u hu
      simp only [List.nil_append, List.mem_singleton] at hu
      subst hu
      exact ⟨0, le_refl _, by simp [laneIds]⟩
    · intro i
      cases h : ([] ++ [start] : List Nat)[i]? <;> rfl
  have hev : ({ route := { graph := .empty 1 } } : Visitor P K).examineVertex g start = .ok
      { route := { graph := { numRoutingCosts := 1, vertices := [p], edges := [] }, laneId := Function.update (fun _ => 0) 0 1000 },
        laneId := 1000, source := 0 } := by
    simp [Visitor.examineVertex, laneletOf, hp, RGraph.empty, RouteGraph.addVertex, RGraph.addVertex, bind, Except.bind, pure, Except.pure]
  obtain ⟨s', k1, k2⟩ := vertex_rest (t := t) hn hE hi (by simp)
  obtain ⟨fresh, d1, -, -⟩ := discover_spec ((outs start).map (·.dst)) [] [start]
  simp only [List.nil_append] at k2
  rw [d1] at h1 k2
  have e1 : [start] ++ fresh = [start] ++ ([] ++ fresh) := by simp
  rw [e1] at h1 k2
  obtain ⟨s'', m1, m2⟩ := loop_inv hn hE l h1 (by simp) k2
  refine ⟨s'', ?_, by simpa using m2⟩
  rw [List.foldlM_cons]
  have : Visitor.vertex t g E outs ins { route := { graph := .empty 1 } } start = .ok s' := by
    unfold Visitor.vertex
    rw [hev]
    exact k1
  rw [this]
  exact m1

end Verif.Route
