import Verif.Route.Props
import Verif.Route.Eval

/-!
Property C58: the lanelets that are added to a route are attached to it.
-/
set_option linter.unusedSectionVars false
namespace Verif.Route
open Verif.Graph Verif.Graph.RelationType
open Relation (ReflTransGen)
variable {P K : Type} [DecidableEq P]

/-! ### specification -/

/-- a lanelet of the path, or one that has a relation to an attached one and from which one can drive on -/
inductive Attached (g : RGraph P K) (lc : Bool) (costId : Nat) (path : List P) : P → Prop where
  | path {p : P} : p ∈ path → Attached g lc costId path p
  | next {p q q' : P} {rel rel' : RelationType} {c c' : K} : rel ∈ routeRelations lc → HasEdge g p q costId rel c → Attached g lc costId path q →
      rel' ∈ followRelations lc → HasEdge g p q' costId rel' c' → Attached g lc costId path p

/-! ### lemmas -/

/-- the entries of the map are visited vertices, and those that are no leafs have an edge to drive on -/
def Sound (out : Nat → List (BaseEdge K)) (vis : Visited) : Prop :=
  ∀ u c, vis u = some c → c.isLeaf = false → ∃ e ∈ out u, e.info.relation = Left ∨ e.info.relation = Right ∨ e.info.relation = Successor

theorem leaf_iff {c : Count} : c.isLeaf = false ↔ 0 < c.followers + c.laneChanges := by
  unfold Count.isLeaf
  simp
  omega

theorem sound_update {out : Nat → List (BaseEdge K)} {vis : Visited} (h : Sound out vis) {v : Nat} {c c' : Count} (hv : vis v = some c)
    (hle : c'.followers + c'.laneChanges ≤ c.followers + c.laneChanges) : Sound out (Function.update vis v (some c')) := by
  intro u d hu hd
  by_cases huv : u = v
  · subst huv
    rw [Function.update_self] at hu
    cases hu
    rw [leaf_iff] at hd
    exact h u c hv (leaf_iff.mpr (by omega))
  · rw [Function.update_of_ne huv] at hu
    exact h u d hu hd

theorem sound_remove {out : Nat → List (BaseEdge K)} {vis : Visited} (h : Sound out vis) (ins : Nat → List (BaseEdge K)) (v : Nat) :
    Sound out (vis.remove ins v) := by
  unfold Visited.remove
  have h0 : Sound out (Function.update vis v none) := by
    intro u c hu hc
    by_cases huv : u = v
    · subst huv; rw [Function.update_self] at hu; cases hu
    · rw [Function.update_of_ne huv] at hu; exact h u c hu hc
  generalize Function.update vis v none = w at h0
  induction ins v generalizing w with
  | nil => exact h0
  | cons e es ih =>
    rw [List.foldl_cons]
    apply ih
    split
    · exact h0
    · cases hc : w e.src with
      | none => exact h0
      | some c =>
        simp only
        split
        · exact sound_update h0 hc (by simp only; omega)
        · split
          · exact sound_update h0 hc (by simp only; omega)
          · exact h0

theorem sound_prune {out : Nat → List (BaseEdge K)} {ins : Nat → List (BaseEdge K)} {n llt : Nat} {vis r : Visited} (h : Sound out vis)
    (hr : vis.prune ins n llt = some r) : Sound out r := by
  have hpass : ∀ vis : Visited, Sound out vis → Sound out (vis.prunePass ins n llt).2 := by
    intro vis h
    unfold Visited.prunePass
    have key : ∀ (l : List Nat) (s : Bool × Visited), Sound out s.2 → Sound out (l.foldl (fun (s : Bool × Visited) v =>
        match s.2 v with
        | none => s
        | some c => if v = llt ∨ c.isLeaf = false then s else (true, s.2.remove ins v)) s).2 := by
      intro l
      induction l with
      | nil => intro s hs; exact hs
      | cons a l ih =>
        intro s hs
        rw [List.foldl_cons]
        apply ih
        split
        · exact hs
        · split
          · exact hs
          · exact sound_remove hs ins a
    exact key _ (false, vis) h
  refine Visited.prune.partial_correctness ins n llt (fun vis r => Sound out vis → Sound out r) ?_ vis r hr h
  intro rec ih vis r hr h
  simp only at hr
  split at hr
  · exact ih _ _ hr (hpass vis h)
  · cases hr; exact hpass vis h

theorem visit_spec {R : List Nat} {out : Nat → List (BaseEdge K)} {v : Nat} : ∀ (l : List (BaseEdge K)) (vis : Visited) (c : Count), vis v = some c →
    (∀ u, u ≠ v → (l.foldl (Visited.add R v) vis) u = vis u) ∧
    ∃ c', (l.foldl (Visited.add R v) vis) v = some c' ∧
      (c.followers + c.laneChanges < c'.followers + c'.laneChanges →
        ∃ e ∈ l, e.info.relation = Left ∨ e.info.relation = Right ∨ e.info.relation = Successor) := by
  intro l
  induction l with
  | nil => intro vis c hc; exact ⟨fun _ _ => rfl, c, hc, fun h => absurd h (Nat.lt_irrefl _)⟩
  | cons e l ih =>
    intro vis c hc
    rw [List.foldl_cons]
    unfold Visited.add
    by_cases h1 : e.info.relation = Left ∨ e.info.relation = Right
    · rw [if_pos h1]
      have he : e.info.relation = Left ∨ e.info.relation = Right ∨ e.info.relation = Successor := by
        rcases h1 with h | h
        · exact .inl h
        · exact .inr (.inl h)
      by_cases h2 : e.dst ∈ R
      · rw [if_pos h2, hc]
        obtain ⟨k1, c', k2, k3⟩ := ih (Function.update vis v (some { c with laneChanges := c.laneChanges + 1 }))
          { c with laneChanges := c.laneChanges + 1 } (by simp)
        refine ⟨?_, c', k2, fun _ => ⟨e, by simp, he⟩⟩
        intro u hu
        exact (k1 u hu).trans (Function.update_of_ne hu _ _)
      · rw [if_neg h2]
        obtain ⟨k1, c', k2, k3⟩ := ih vis c hc
        exact ⟨k1, c', k2, fun _ => ⟨e, by simp, he⟩⟩
    · rw [if_neg h1]
      by_cases h2 : e.info.relation = Successor
      · rw [if_pos h2, hc]
        obtain ⟨k1, c', k2, k3⟩ := ih (Function.update vis v (some { c with followers := c.followers + 1 }))
          { c with followers := c.followers + 1 } (by simp)
        refine ⟨?_, c', k2, fun _ => ⟨e, by simp, .inr (.inr h2)⟩⟩
        intro u hu
        exact (k1 u hu).trans (Function.update_of_ne hu _ _)
      · rw [if_neg h2]
        obtain ⟨k1, c', k2, k3⟩ := ih vis c hc
        refine ⟨k1, c', k2, fun h => ?_⟩
        obtain ⟨e', he', h'⟩ := k3 h
        exact ⟨e', by simp [he'], h'⟩

theorem sound_visit {R : List Nat} {out : Nat → List (BaseEdge K)} {vis : Visited} (h : Sound out vis) (v : Nat) :
    Sound out (vis.visit R out v) := by
  unfold Visited.visit
  obtain ⟨h1, c', h2, h3⟩ := visit_spec (R := R) (out := out) (v := v) (out v) (Function.update vis v (some {})) {} (by simp)
  intro u c hu hc
  by_cases huv : u = v
  · subst huv
    rw [h2] at hu
    cases hu
    exact h3 (by simpa using leaf_iff.mp hc)
  · rw [h1 u huv, Function.update_of_ne huv] at hu
    exact h u c hu hc

/-- what is in the map was visited -/
theorem visited_order {R : List Nat} {out : Nat → List (BaseEdge K)} : ∀ (l : List Nat) (vis : Visited) (u : Nat),
    ((l.foldl (Visited.visit R out) vis) u).isSome = true → u ∈ l ∨ (vis u).isSome = true := by
  intro l
  induction l with
  | nil => intro vis u h; exact .inr h
  | cons v l ih =>
    intro vis u h
    rw [List.foldl_cons] at h
    rcases ih _ u h with h | h
    · exact .inl (by simp [h])
    · by_cases huv : u = v
      · subst huv; exact .inl (by simp)
      · unfold Visited.visit at h
        obtain ⟨h1, -⟩ := visit_spec (R := R) (out := out) (v := v) (out v) (Function.update vis v (some {})) {} (by simp)
        rw [h1 u huv, Function.update_of_ne huv] at h
        exact .inr h

theorem remove_sub (ins : Nat → List (BaseEdge K)) (vis : Visited) (v u : Nat) (h : (vis.remove ins v u).isSome = true) : (vis u).isSome = true := by
  unfold Visited.remove at h
  have key : ∀ (l : List (BaseEdge K)) (w : Visited), ((l.foldl (fun vis e =>
    if (e.info.relation &&& (Successor ||| Left ||| Right)) = 0 then vis
    else
      match vis e.src with
      | none => vis
      | some c =>
        if e.info.relation = Successor ∧ c.followers > 0 then Function.update vis e.src (some { c with followers := c.followers - 1 })
        else if c.laneChanges > 0 then Function.update vis e.src (some { c with laneChanges := c.laneChanges - 1 })
        else vis) w) u).isSome = true → (w u).isSome = true := by
    intro l
    induction l with
    | nil => intro w h; exact h
    | cons e l ih =>
      intro w h
      rw [List.foldl_cons] at h
      have := ih _ h
      split at this
      · exact this
      · cases hc : w e.src with
        | none => rw [hc] at this; exact this
        | some c =>
          rw [hc] at this
          simp only at this
          by_cases hu : u = e.src
          · subst hu; simp [hc]
          · split at this
            · rw [Function.update_of_ne hu] at this; exact this
            · split at this
              · rw [Function.update_of_ne hu] at this; exact this
              · exact this
  have := key _ _ h
  by_cases huv : u = v
  · subst huv; simp at this
  · rw [Function.update_of_ne huv] at this; exact this

theorem prune_sub {ins : Nat → List (BaseEdge K)} {n llt : Nat} {vis r : Visited} (hr : vis.prune ins n llt = some r) (u : Nat)
    (h : (r u).isSome = true) : (vis u).isSome = true := by
  have hpass : ∀ vis : Visited, ((vis.prunePass ins n llt).2 u).isSome = true → (vis u).isSome = true := by
    intro vis h
    unfold Visited.prunePass at h
    have key : ∀ (l : List Nat) (s : Bool × Visited), ((l.foldl (fun (s : Bool × Visited) v =>
        match s.2 v with
        | none => s
        | some c => if v = llt ∨ c.isLeaf = false then s else (true, s.2.remove ins v)) s).2 u).isSome = true → (s.2 u).isSome = true := by
      intro l
      induction l with
      | nil => intro s hs; exact hs
      | cons a l ih =>
        intro s hs
        rw [List.foldl_cons] at hs
        have := ih _ hs
        split at this
        · exact this
        · split at this
          · exact this
          · exact remove_sub ins _ _ _ this
    exact key _ (false, vis) h
  refine Visited.prune.partial_correctness ins n llt (fun vis r => (r u).isSome = true → (vis u).isSome = true) ?_ vis r hr h
  intro rec ih vis r hr h
  simp only at hr
  split at hr
  · exact hpass vis (ih _ _ hr h)
  · cases hr; exact hpass vis h

/-- the lanelets that are added in one step -/
theorem addAdjacent_attached {E : List (BaseEdge K)} {n start finish : Nat} {within R R' : List Nat} {b : Bool} (hs : start ∈ R)
    (h : addAdjacent E n start finish within R = some (.ok (b, R'))) : ∃ new, R' = R ++ new ∧ ∀ v ∈ new,
      (∃ e ∈ E, e.src = v ∧ e.dst ∈ R) ∧ ∃ e ∈ E, e.src = v ∧ (e.info.relation = Left ∨ e.info.relation = Right ∨ e.info.relation = Successor) := by
  unfold addAdjacent at h
  simp only [bind, Option.bind_eq_some_iff] at h
  obtain ⟨order, hord, vis, hvis, o, -, h⟩ := h
  cases o with
  | error f => cases h
  | ok rem =>
    have h := Except.ok.inj (Option.some.inj h)
    refine ⟨_, (congrArg Prod.snd h).symm, ?_⟩
    intro v hv
    obtain ⟨hv1, hv2⟩ := List.mem_filter.mp hv
    simp only [decide_eq_true_eq] at hv2
    unfold Visited.valid at hv1
    have hv3 := (List.mem_filter.mp hv1).2
    obtain ⟨-, -, hreach⟩ := bfs_spec hord
    -- the map before and after the removal
    have hs0 : Sound (fun v => (outE E v).filter fun e => drivableWithin within e && nextToRoute E R e.dst)
        (order.foldl (Visited.visit R fun v => (outE E v).filter fun e => drivableWithin within e && nextToRoute E R e.dst) fun _ => none) := by
      have key : ∀ (l : List Nat) (vis : Visited), Sound (fun v => (outE E v).filter fun e => drivableWithin within e && nextToRoute E R e.dst) vis →
          Sound (fun v => (outE E v).filter fun e => drivableWithin within e && nextToRoute E R e.dst)
            (l.foldl (Visited.visit R fun v => (outE E v).filter fun e => drivableWithin within e && nextToRoute E R e.dst) vis) := by
        intro l
        induction l with
        | nil => intro vis h; exact h
        | cons a l ih => intro vis h; rw [List.foldl_cons]; exact ih _ (sound_visit h a)
      exact key order _ (by intro u c hu; cases hu)
    have hs1 := sound_prune hs0 hvis
    have hs2 : ∀ (l : List Nat) (vis : Visited), Sound (fun v => (outE E v).filter fun e => drivableWithin within e && nextToRoute E R e.dst) vis →
        Sound (fun v => (outE E v).filter fun e => drivableWithin within e && nextToRoute E R e.dst)
          (l.foldl (Visited.remove fun v => (inE E v).filter fun e => drivableWithin within e && nextToRoute E R e.src) vis) := by
      intro l
      induction l with
      | nil => intro vis h; exact h
      | cons a l ih => intro vis h; rw [List.foldl_cons]; exact ih _ (sound_remove h _ a)
    have hsub : ∀ (l : List Nat) (vis : Visited),
        ((l.foldl (Visited.remove fun v => (inE E v).filter fun e => drivableWithin within e && nextToRoute E R e.src) vis) v).isSome = true →
        (vis v).isSome = true := by
      intro l
      induction l with
      | nil => intro vis h; exact h
      | cons a l ih => intro vis h; rw [List.foldl_cons] at h; exact remove_sub _ _ _ _ (ih _ h)
    split at hv3
    · cases hv3
    · rename_i c hc
      have hleaf : c.isLeaf = false := by simpa using hv3
      constructor
      · -- next to the route
        have hin := prune_sub hvis v (hsub rem vis (by rw [hc]; rfl))
        rcases visited_order order _ v hin with ho | ho
        · rcases (hreach v).mp ho with _ | ⟨_, hstep⟩
          · exact absurd hs hv2
          · obtain ⟨e, he, rfl⟩ := List.mem_map.mp hstep
            have hn := (List.mem_filter.mp he).2
            simp only [Bool.and_eq_true, nextToRoute, Bool.or_eq_true, decide_eq_true_eq, List.any_eq_true] at hn
            rcases hn.2 with hn | ⟨e', he', hn⟩
            · exact absurd hn hv2
            · have hE := List.mem_filter.mp he'
              simp only [beq_iff_eq] at hE
              rcases hn with hn | hn
              · exact ⟨e', hE.1, hE.2, hn⟩
              · rw [hE.2] at hn; exact absurd hn hv2
        · cases ho
      · obtain ⟨e, he, hr⟩ := hs2 rem vis hs1 v c hc hleaf
        have he' := List.mem_filter.mp (List.mem_of_mem_filter he)
        simp only [beq_iff_eq] at he'
        exact ⟨e, he'.1, he'.2, hr⟩

theorem drive_table : ∀ lc : Bool, ∀ r ∈ routeRelations lc, (r = Left ∨ r = Right ∨ r = Successor) → r ∈ followRelations lc := by decide

section
variable {t : CostTests K} {g : RGraph P K} {path : List P} {lc : Bool} {costId : Nat}

/-- C58, the part that holds: every lanelet of a route is on the shortest path, or it has a relation to a lanelet that is attached in the same way,
and there is some lanelet in the map to drive on to. Missing: that it leads to the goal (`dead_end_counterexample`) and that all adjacent lanelets that
lead to the goal are on the route (`skipped_lane_counterexample`). -/
theorem route_attached_partial (hb : Built t g) {r : Route P K} (h : IsRoute t g path lc costId r) {p : P} (hp : p ∈ r.members) :
    Attached g lc costId path p := by
  have wf := built_wf hb
  obtain ⟨vs, R, order, s, f, hr, -⟩ := h.facts wf
  obtain ⟨start, fin, within, hstart, -, -, hext⟩ := f.ext
  have hpath : ∀ v ∈ vs.dedup, ∀ q, g.vertices[v]? = some q → Attached g lc costId path q := by
    intro v hv q hq
    have h1 : g.vertices[v]? ∈ vs.map (g.vertices[·]?) := List.mem_map_of_mem (f := (g.vertices[·]?)) (List.mem_dedup.mp hv)
    rw [f.mapped] at h1
    obtain ⟨p', hp', h2⟩ := List.mem_map.mp h1
    rw [hq] at h2
    cases h2
    exact .path hp'
  have key := extend.partial_correctness (original g lc costId) g.vertices.length start fin within
    (fun R o => start ∈ R → (∀ v ∈ R, ∀ q, g.vertices[v]? = some q → Attached g lc costId path q) →
      ∀ R', o = .ok R' → ∀ v ∈ R', ∀ q, g.vertices[v]? = some q → Attached g lc costId path q) (by
      intro rec ih R o h hsR hR R' ho
      simp only [bind, Option.bind_eq_some_iff] at h
      obtain ⟨a, ha, h⟩ := h
      cases a with
      | error f => subst ho; cases h
      | ok st =>
        obtain ⟨b, R1⟩ := st
        obtain ⟨new, h1, h2⟩ := addAdjacent_attached hsR ha
        have hR1 : ∀ v ∈ R1, ∀ q, g.vertices[v]? = some q → Attached g lc costId path q := by
          intro v hv q hq
          rw [h1] at hv
          rcases List.mem_append.mp hv with hv | hv
          · exact hR v hv q hq
          · obtain ⟨⟨e, e1, e2, e3⟩, e', d1, d2, d3⟩ := h2 v hv
            obtain ⟨m1, m2, m3⟩ := (mem_original wf).mp e1
            obtain ⟨n1, n2, n3⟩ := (mem_original wf).mp d1
            have t1 := List.getElem?_eq_getElem (wf.dst e m1)
            have t2 := List.getElem?_eq_getElem (wf.dst e' n1)
            exact .next m3 ⟨e, m1, by rw [e2]; exact hq, t1, m2, rfl, rfl⟩ (hR _ e3 _ t1) (drive_table lc _ n3 d3)
              ⟨e', n1, by rw [d2]; exact hq, t2, n2, rfl, rfl⟩
        cases b with
        | true =>
          simp only [if_true] at h
          exact ih R1 o h (by rw [h1]; exact List.mem_append_left _ hsR) hR1 R' ho
        | false =>
          simp only [Bool.false_eq_true, if_false, pure, Option.some.injEq] at h
          rw [← h] at ho
          cases ho
          exact hR1) vs.dedup (.ok R) hext (List.mem_dedup.mpr (List.mem_of_head? hstart)) hpath R rfl
  unfold Route.members at hp
  rw [hr] at hp
  obtain ⟨v, hv, h2⟩ := f.mem.mp hp
  exact key v (f.order_sub hv) p h2

end

/-- the hypotheses are met: 3 and 4 are not on the path, but on the route -/
example : Attached exTwoLanes true 0 [1, 2] 3 ∧ Attached exTwoLanes true 0 [1, 2] 4 := by
  obtain ⟨r, h, hm, -⟩ := exTwoLanes_route
  exact ⟨route_attached_partial exTwoLanes_built h (by rw [hm]; decide), route_attached_partial exTwoLanes_built h (by rw [hm]; decide)⟩

end Verif.Route
