import Verif.Route.Attach

/-!
Properties C30 and C58: without lane changes the construction of routes has no undefined behaviour.

The undefined behaviour comes from a path that is permitted although its lanelets were pruned. Without lane changes only those paths are permitted that
lead back to the route. The counters of the map of visited lanelets are exact then (`Exact`), and nothing is pruned that leads to the destination or on
forever (`Keeps`); this holds for the lanelets of the route in all passes.
-/
set_option linter.unusedSectionVars false
namespace Verif.Route
open Verif.Graph Verif.Graph.RelationType
open Relation (ReflTransGen)
variable {P K : Type} [DecidableEq P]

/-- Helper of the proofs. The relations of the graph without lane changes. -/
def Straight (E : List (BaseEdge K)) : Prop := ∀ e ∈ E, e.info.relation = Successor ∨ e.info.relation = Conflicting

/-- Helper of the proofs. The out edges in the graph next to the route, RouteBuilder.cpp 384-386. -/
def outN (E : List (BaseEdge K)) (within R : List Nat) (v : Nat) : List (BaseEdge K) :=
  (outE E v).filter fun e => drivableWithin within e && nextToRoute E R e.dst

/-- Helper of the proofs. The in edges in the graph next to the route, RouteBuilder.cpp 384-386. -/
def insN (E : List (BaseEdge K)) (within R : List Nat) (v : Nat) : List (BaseEdge K) :=
  (inE E v).filter fun e => drivableWithin within e && nextToRoute E R e.src

/-- Helper of the proofs. The counters are the numbers of edges to vertices that are in the map. -/
def Exact (out : Nat → List (BaseEdge K)) (vis : Visited) : Prop :=
  ∀ u c, vis u = some c → c.laneChanges = 0 ∧ c.followers = ((out u).filter fun e => (vis e.dst).isSome).length

/-- Helper of the proofs. A set of vertices each of which leads to another one of the set, or is the destination. -/
def Keeps (out : Nat → List (BaseEdge K)) (finish : Nat) (X : Nat → Prop) : Prop := ∀ v, X v → v = finish ∨ ∃ e ∈ out v, X e.dst

section
variable {E : List (BaseEdge K)} {within R : List Nat}

theorem straight_drivable (hE : Straight E) {e : BaseEdge K} (he : e ∈ E) : drivable e = true ↔ e.info.relation = Successor := by
  rcases hE e he with h | h <;> simp [drivable, hasRel, h] <;> decide

theorem mem_outN {v : Nat} {e : BaseEdge K} : e ∈ outN E within R v ↔ e ∈ E ∧ e.src = v ∧ drivableWithin within e = true ∧ nextToRoute E R e.dst = true := by
  simp only [outN, outE, List.mem_filter, beq_iff_eq, Bool.and_eq_true, and_assoc]

theorem outN_succ (hE : Straight E) {v : Nat} {e : BaseEdge K} (he : e ∈ outN E within R v) : e.info.relation = Successor := by
  obtain ⟨h1, -, h3, -⟩ := mem_outN.mp he
  unfold drivableWithin at h3
  rw [Bool.and_eq_true] at h3
  exact (straight_drivable hE h1).mp h3.1

theorem insN_succ (hE : Straight E) {v : Nat} {e : BaseEdge K} (he : e ∈ insN E within R v) : e.info.relation = Successor := by
  simp only [insN, inE, List.mem_filter, beq_iff_eq, Bool.and_eq_true, drivableWithin] at he
  exact (straight_drivable hE he.1.1).mp he.2.1.1

/-- edges between two vertices of the graph next to the route are the same from both ends -/
theorem between {u v : Nat} (hu : nextToRoute E R u = true) (hv : nextToRoute E R v = true) :
    ((outN E within R u).filter fun e => e.dst == v).length = ((insN E within R v).filter fun e => e.src == u).length := by
  unfold outN insN outE inE
  simp only [List.filter_filter]
  congr 1
  apply List.filter_congr
  intro e _
  by_cases h1 : e.src = u
  · by_cases h2 : e.dst = v
    · simp only [h1, h2, hu, hv, beq_self_eq_true, Bool.true_and, Bool.and_true]
    · have : (e.dst == v) = false := by simpa using h2
      simp only [this, Bool.false_and, Bool.and_false]
  · have : (e.src == u) = false := by simpa using h1
    simp only [this, Bool.false_and, Bool.and_false]

/-! ### the counters -/

theorem remove_fold {a : Nat → Nat} : ∀ (l : List (BaseEdge K)) (w : Visited), (∀ e ∈ l, e.info.relation = Successor) →
    (∀ u c, w u = some c → c.laneChanges = 0 ∧ c.followers = a u + (l.filter fun e => e.src == u).length) →
    ∀ u c, (l.foldl (fun vis e =>
      if (e.info.relation &&& (Successor ||| Left ||| Right)) = 0 then vis
      else
        match vis e.src with
        | none => vis
        | some c =>
          if e.info.relation = Successor ∧ c.followers > 0 then Function.update vis e.src (some { c with followers := c.followers - 1 })
          else if c.laneChanges > 0 then Function.update vis e.src (some { c with laneChanges := c.laneChanges - 1 })
          else vis) w) u = some c → c.laneChanges = 0 ∧ c.followers = a u := by
  intro l
  induction l with
  | nil => intro w _ h u c hc; simpa using h u c hc
  | cons e l ih =>
    intro w hl h u c hc
    rw [List.foldl_cons] at hc
    have he := hl e (by simp)
    have hne : ¬ (e.info.relation &&& (Successor ||| Left ||| Right)) = 0 := by rw [he]; decide
    rw [if_neg hne] at hc
    refine ih _ (fun e' he' => hl e' (by simp [he'])) ?_ u c hc
    intro u' c' hc'
    cases hs : w e.src with
    | none =>
      rw [hs] at hc'
      have hne' : e.src ≠ u' := by rintro rfl; exact absurd (hs.symm.trans hc') (by simp)
      have := h u' c' hc'
      rw [List.filter_cons_of_neg (by simpa using hne')] at this
      exact this
    | some d =>
      rw [hs] at hc'
      obtain ⟨k1, k2⟩ := h e.src d hs
      rw [List.filter_cons_of_pos (by simp), List.length_cons] at k2
      have hpos : e.info.relation = Successor ∧ d.followers > 0 := ⟨he, by omega⟩
      simp only [if_pos hpos] at hc'
      by_cases hu : u' = e.src
      · subst hu
        rw [Function.update_self] at hc'
        cases hc'
        exact ⟨k1, by simp only; omega⟩
      · rw [Function.update_of_ne hu] at hc'
        have := h u' c' hc'
        rw [List.filter_cons_of_neg (by simpa using Ne.symm hu)] at this
        exact this

theorem exact_remove (hE : Straight E) {vis : Visited} (h : Exact (outN E within R) vis) (hd : ∀ u, (vis u).isSome → nextToRoute E R u = true)
    {v : Nat} (hv : (vis v).isSome) : Exact (outN E within R) (vis.remove (insN E within R) v) := by
  intro u c hc
  unfold Visited.remove at hc
  have hr : ∀ x, ((vis.remove (insN E within R) v) x).isSome = ((vis x).isSome && decide (x ≠ v)) := fun x => remove_dom _ _ _ _
  simp only [hr]
  refine remove_fold (a := fun u => ((outN E within R u).filter fun e => (vis e.dst).isSome && decide (e.dst ≠ v)).length) (insN E within R v) _
    (fun e he => insN_succ hE he) ?_ u c hc
  intro u' c' hc'
  by_cases hu : u' = v
  · subst hu; rw [Function.update_self] at hc'; cases hc'
  · rw [Function.update_of_ne hu] at hc'
    obtain ⟨k1, k2⟩ := h u' c' hc'
    refine ⟨k1, ?_⟩
    rw [k2, ← between (hd u' (by rw [hc']; rfl)) (hd v hv)]
    generalize outN E within R u' = l
    clear hc hc' k2 hr
    induction l with
    | nil => rfl
    | cons e l ih =>
      by_cases h1 : e.dst = v
      · have hp : (vis e.dst).isSome = true := by rw [h1]; exact hv
        rw [List.filter_cons_of_pos (by simpa using hp), List.filter_cons_of_neg (by simp [h1]), List.filter_cons_of_pos (by simpa using h1)]
        simp only [List.length_cons]
        omega
      · by_cases h2 : (vis e.dst).isSome = true
        · rw [List.filter_cons_of_pos (by simpa using h2), List.filter_cons_of_pos (by simp [h1, h2]), List.filter_cons_of_neg (by simpa using h1)]
          simp only [List.length_cons]
          omega
        · rw [List.filter_cons_of_neg (by simpa using h2), List.filter_cons_of_neg (by simp [h2]), List.filter_cons_of_neg (by simpa using h1)]
          exact ih

theorem exact_visit (hE : Straight E) (v : Nat) (vis : Visited) :
    (∀ u, u ≠ v → (vis.visit R (outN E within R) v) u = vis u) ∧
    (vis.visit R (outN E within R) v) v = some { followers := (outN E within R v).length, laneChanges := 0 } := by
  have key : ∀ (l : List (BaseEdge K)) (vis : Visited) (c : Count), (∀ e ∈ l, e.info.relation = Successor) → vis v = some c →
      (∀ u, u ≠ v → (l.foldl (Visited.add R v) vis) u = vis u) ∧
      (l.foldl (Visited.add R v) vis) v = some { c with followers := c.followers + l.length } := by
    intro l
    induction l with
    | nil => intro vis c _ hc; exact ⟨fun _ _ => rfl, by simpa using hc⟩
    | cons e l ih =>
      intro vis c hl hc
      rw [List.foldl_cons]
      have he := hl e (by simp)
      have hadd : Visited.add R v vis e = Function.update vis v (some { c with followers := c.followers + 1 }) := by
        unfold Visited.add
        rw [he, if_neg (by decide), if_pos rfl, hc]
        rfl
      rw [hadd]
      obtain ⟨h1, h2⟩ := ih (Function.update vis v (some { c with followers := c.followers + 1 })) { c with followers := c.followers + 1 }
        (fun e' he' => hl e' (by simp [he'])) (by simp)
      refine ⟨fun u hu => (h1 u hu).trans (Function.update_of_ne hu _ _), ?_⟩
      rw [h2]
      simp only [List.length_cons]
      congr 2
      omega
  obtain ⟨h1, h2⟩ := key (outN E within R v) (Function.update vis v (some {})) {} (fun e he => outN_succ hE he) (by simp)
  refine ⟨fun u hu => (h1 u hu).trans (Function.update_of_ne hu _ _), ?_⟩
  unfold Visited.visit
  rw [h2]
  simp

theorem visits (hE : Straight E) : ∀ (l : List Nat) (vis : Visited) (u : Nat),
    (l.foldl (Visited.visit R (outN E within R)) vis) u =
      if u ∈ l then some { followers := (outN E within R u).length, laneChanges := 0 } else vis u := by
  intro l
  induction l with
  | nil => intro vis u; simp
  | cons v l ih =>
    intro vis u
    rw [List.foldl_cons, ih]
    obtain ⟨h1, h2⟩ := exact_visit (R := R) (within := within) hE v vis
    by_cases hl : u ∈ l
    · simp [hl]
    · rw [if_neg hl]
      by_cases huv : u = v
      · subst huv; simp [h2]
      · rw [h1 u huv, if_neg (by simp [hl, huv])]

/-- what is in the map at first: all vertices of the search, with exact counters -/
theorem visits_exact (hE : Straight E) {order : List Nat} (hclosed : ∀ u ∈ order, ∀ e ∈ outN E within R u, e.dst ∈ order) :
    Exact (outN E within R) (order.foldl (Visited.visit R (outN E within R)) fun _ => none) := by
  intro u c hc
  simp only [visits hE] at hc ⊢
  split at hc
  · rename_i hu
    cases hc
    refine ⟨rfl, ?_⟩
    rw [List.filter_eq_self.mpr]
    intro e he
    rw [if_pos (hclosed u hu e he)]
    rfl
  · cases hc

/-! ### pruning -/

theorem prunePass_spec (hE : Straight E) (n finish : Nat) (vis : Visited) (h : Exact (outN E within R) vis)
    (hd : ∀ u, (vis u).isSome → nextToRoute E R u = true) :
    let r := vis.prunePass (insN E within R) n finish
    Exact (outN E within R) r.2 ∧ (∀ u, (r.2 u).isSome → (vis u).isSome) ∧
    (∀ X, Keeps (outN E within R) finish X → (∀ u, X u → (vis u).isSome) → ∀ u, X u → (r.2 u).isSome) ∧
    (r.1 = false → ∀ v < n, ∀ c, r.2 v = some c → v = finish ∨ c.isLeaf = false) := by
  have key : ∀ (l : List Nat) (s : Bool × Visited), Exact (outN E within R) s.2 → (∀ u, (s.2 u).isSome → nextToRoute E R u = true) →
      let r := l.foldl (fun (s : Bool × Visited) v =>
        match s.2 v with
        | none => s
        | some c => if v = finish ∨ c.isLeaf = false then s else (true, s.2.remove (insN E within R) v)) s
      Exact (outN E within R) r.2 ∧ (∀ u, (r.2 u).isSome → (s.2 u).isSome) ∧
      (∀ X, Keeps (outN E within R) finish X → (∀ u, X u → (s.2 u).isSome) → ∀ u, X u → (r.2 u).isSome) ∧
      (r.1 = false → s.1 = false ∧ r.2 = s.2 ∧ ∀ v ∈ l, ∀ c, s.2 v = some c → v = finish ∨ c.isLeaf = false) := by
    intro l
    induction l with
    | nil => intro s h _; exact ⟨h, fun _ h => h, fun _ _ h => h, fun h => ⟨h, rfl, by simp⟩⟩
    | cons a l ih =>
      intro s hs hds
      simp only [List.foldl_cons]
      split
      · rename_i hn
        obtain ⟨h1, h2, h3, h4⟩ := ih s hs hds
        refine ⟨h1, h2, h3, fun hr => ?_⟩
        obtain ⟨k1, k2, k3⟩ := h4 hr
        refine ⟨k1, k2, ?_⟩
        intro v hv c hc
        rcases List.mem_cons.mp hv with rfl | hv
        · rw [hn] at hc; cases hc
        · exact k3 v hv c hc
      · rename_i c hc
        split
        · rename_i hcond
          obtain ⟨h1, h2, h3, h4⟩ := ih s hs hds
          refine ⟨h1, h2, h3, fun hr => ?_⟩
          obtain ⟨k1, k2, k3⟩ := h4 hr
          refine ⟨k1, k2, ?_⟩
          intro v hv c' hc'
          rcases List.mem_cons.mp hv with rfl | hv
          · rw [hc] at hc'; cases hc'; exact hcond
          · exact k3 v hv c' hc'
        · rename_i hcond
          have hex := exact_remove hE hs hds (v := a) (by rw [hc]; rfl)
          have hsub : ∀ u, ((s.2.remove (insN E within R) a) u).isSome → (s.2 u).isSome := by
            intro u hu
            rw [remove_dom] at hu
            simp only [Bool.and_eq_true] at hu
            exact hu.1
          obtain ⟨h1, h2, h3, h4⟩ := ih (true, s.2.remove (insN E within R) a) hex (fun u hu => hds u (hsub u hu))
          refine ⟨h1, fun u hu => hsub u (h2 u hu), ?_, fun hr => ?_⟩
          · intro X hX hin
            refine h3 X hX ?_
            intro u hu
            show ((s.2.remove (insN E within R) a) u).isSome = true
            rw [remove_dom]
            have : u ≠ a := by
              rintro rfl
              rcases hX u hu with h | ⟨e, he, hXe⟩
              · exact hcond (.inl h)
              · refine hcond (.inr ?_)
                obtain ⟨q1, q2⟩ := hs u c hc
                have hmem : e ∈ (outN E within R u).filter fun e => (s.2 e.dst).isSome := by
                  rw [List.mem_filter]; exact ⟨he, hin _ hXe⟩
                have := List.length_pos_of_mem hmem
                rw [leaf_iff]
                omega
            simp [hin u hu, this]
          · have := (h4 hr).1
            cases this
  obtain ⟨h1, h2, h3, h4⟩ := key (List.range n) (false, vis) h hd
  refine ⟨h1, h2, h3, fun hr => ?_⟩
  obtain ⟨-, k2, k3⟩ := h4 hr
  intro v hv c hc
  have hc' : vis v = some c := by rw [← hc]; exact (congrFun k2 v).symm
  exact k3 v (List.mem_range.mpr hv) c hc'

theorem prune_spec (hE : Straight E) {n finish : Nat} {vis r : Visited} (hr : vis.prune (insN E within R) n finish = some r)
    (h : Exact (outN E within R) vis) (hd : ∀ u, (vis u).isSome → nextToRoute E R u = true) :
    Exact (outN E within R) r ∧ (∀ u, (r u).isSome → (vis u).isSome) ∧
    (∀ X, Keeps (outN E within R) finish X → (∀ u, X u → (vis u).isSome) → ∀ u, X u → (r u).isSome) ∧
    ∀ v < n, ∀ c, r v = some c → v = finish ∨ c.isLeaf = false := by
  refine Visited.prune.partial_correctness (insN E within R) n finish (fun vis r => Exact (outN E within R) vis →
    (∀ u, (vis u).isSome → nextToRoute E R u = true) → Exact (outN E within R) r ∧ (∀ u, (r u).isSome → (vis u).isSome) ∧
    (∀ X, Keeps (outN E within R) finish X → (∀ u, X u → (vis u).isSome) → ∀ u, X u → (r u).isSome) ∧
    ∀ v < n, ∀ c, r v = some c → v = finish ∨ c.isLeaf = false) ?_ vis r hr h hd
  intro rec ih vis r hr h hd
  obtain ⟨h1, h2, h3, h4⟩ := prunePass_spec hE n finish vis h hd
  simp only at hr
  split at hr
  · obtain ⟨k1, k2, k3, k4⟩ := ih _ _ hr h1 (fun u hu => hd u (h2 u hu))
    exact ⟨k1, fun u hu => h2 u (k2 u hu), fun X hX hin => k3 X hX (h3 X hX hin), k4⟩
  · rename_i hf
    cases hr
    exact ⟨h1, h2, h3, h4 (by simpa using hf)⟩

/-! ### paths -/

theorem dfsLoop_chain {f : Nat → List Nat} (start : Nat) : ∀ (stack : List (Nat × List Nat)) (seen : List Nat) (fwd : Bool) (ps : List (List Nat)),
    dfsLoop (fun u => some (f u)) stack seen fwd = some ps →
    ((stack.map Prod.fst).reverse.IsChain (fun a b => b ∈ f a) ∧ (stack ≠ [] → (stack.map Prod.fst).getLast? = some start) ∧
      ∀ s ∈ stack, ∀ x ∈ s.2, x ∈ f s.1) →
    ∀ p ∈ ps, p.head? = some start ∧ p.IsChain (fun a b => b ∈ f a) := by
  refine dfsLoop.partial_correctness (fun u => some (f u)) (fun stack _ _ ps =>
    ((stack.map Prod.fst).reverse.IsChain (fun a b => b ∈ f a) ∧ (stack ≠ [] → (stack.map Prod.fst).getLast? = some start) ∧
      ∀ s ∈ stack, ∀ x ∈ s.2, x ∈ f s.1) →
    ∀ p ∈ ps, p.head? = some start ∧ p.IsChain (fun a b => b ∈ f a)) ?_
  intro rec ih stack seen fwd ps hps ⟨h1, h2, h3⟩
  match stack with
  | [] => cases hps; simp
  | (v, []) :: st =>
    simp only [bind, Option.bind_eq_some_iff] at hps
    obtain ⟨rest, hrest, hps⟩ := hps
    have hpre : (st.map Prod.fst).reverse.IsChain (fun a b => b ∈ f a) := by
      rw [List.map_cons, List.reverse_cons, List.isChain_append] at h1
      exact h1.1
    have hi := ih st seen false rest hrest ⟨hpre, fun hne => by
      have := h2 (by simp)
      rw [List.map_cons, List.getLast?_cons] at this
      cases hl : (st.map Prod.fst).getLast? with
      | none =>
        rw [List.getLast?_eq_none_iff, List.map_eq_nil_iff] at hl
        exact absurd hl hne
      | some y => rw [hl] at this; simpa using this, fun s hs => h3 s (by simp [hs])⟩
    have hps := Option.some.inj hps
    subst hps
    split
    · intro p hp
      rcases List.mem_cons.mp hp with rfl | hp
      · refine ⟨?_, h1⟩
        rw [List.head?_reverse]
        exact h2 (by simp)
      · exact hi p hp
    · exact hi
  | (v, w :: ws) :: st =>
    simp only at hps
    split at hps
    · refine ih _ _ _ _ hps ⟨h1, fun _ => h2 (by simp), ?_⟩
      intro s hs x hx
      rcases List.mem_cons.mp hs with rfl | hs
      · exact h3 (v, w :: ws) (by simp) x (by simp [hx])
      · exact h3 s (by simp [hs]) x hx
    · simp only [bind, Option.bind_some] at hps
      refine ih _ _ _ _ hps ⟨?_, fun _ => ?_, ?_⟩
      · simp only [List.map_cons, List.reverse_cons] at h1 ⊢
        rw [List.isChain_append]
        refine ⟨h1, .singleton _, ?_⟩
        intro x hx y hy
        simp only [List.getLast?_concat, Option.mem_def, Option.some.injEq, List.head?_cons] at hx hy
        subst hx hy
        exact h3 (v, w :: ws) (by simp) w (by simp)
      · have := h2 (by simp)
        simp only [List.map_cons] at this ⊢
        rw [List.getLast?_cons, this]
        rfl
      · intro s hs x hx
        simp only [List.mem_cons] at hs
        rcases hs with rfl | rfl | hs
        · exact hx
        · exact h3 (v, w :: ws) (by simp) x (by simp [hx])
        · exact h3 s (by simp [hs]) x hx

theorem paths_chain {f : Nat → List Nat} {v : Nat} {ps : List (List Nat)} (h : paths (fun u => some (f u)) v = some ps) :
    ∀ p ∈ ps, p.head? = some v ∧ p.IsChain (fun a b => b ∈ f a) := by
  unfold paths at h
  simp only [bind, Option.bind_some] at h
  refine dfsLoop_chain v _ _ _ _ h ⟨.singleton _, fun _ => rfl, ?_⟩
  intro s hs x hx
  simp only [List.mem_singleton] at hs
  subst hs
  exact hx

/-- without lane changes only those paths are permitted that lead back to the route -/
theorem permitted_back (hE : Straight E) {path l : List Nat} (hne : path ≠ []) (h : permitted E R path = some l) :
    l = [] ∨ l = path ∧ ∃ b e, path.getLast? = some b ∧ e ∈ outE E b ∧ drivable e = true ∧ e.dst ∈ R := by
  have hadj : ∀ e ∈ E, hasRel (Left ||| Right ||| AdjacentLeft ||| AdjacentRight) e = false := by
    intro e he
    rcases hE e he with h | h <;> simp only [hasRel, h] <;> decide
  have hnever : neverConflicts E R path = false := by
    unfold neverConflicts
    cases path with
    | nil => exact absurd rfl hne
    | cons v vs =>
      simp only [List.all_cons, Bool.and_eq_false_iff]
      left
      rw [Bool.or_eq_false_iff]
      constructor
      · rw [List.any_eq_false]
        intro e he
        have := hadj e (List.mem_of_mem_filter he)
        simp [this]
      · rw [List.any_eq_false]
        intro e he
        have := hadj e (List.mem_of_mem_filter he)
        simp [this]
  unfold permitted at h
  rw [hnever] at h
  simp only [Bool.false_eq_true, if_false, bind, Option.bind_eq_some_iff] at h
  obtain ⟨b, hb, h⟩ := h
  cases b with
  | false => left; exact (Option.some.inj h).symm
  | true =>
    right
    refine ⟨(Option.some.inj h).symm, ?_⟩
    unfold alwaysConflicts at hb
    split at hb
    · rename_i a b ha hb'
      split at hb
      · rename_i f t hf ht
        have h1 := List.find?_some ht
        have h2 := List.mem_filter.mp (List.mem_of_find?_eq_some ht)
        exact ⟨b, t, hb', h2.1, h2.2, by simpa using h1⟩
      · cases hb
    · cases hb

/-! ### one pass and all passes -/

theorem nextToRoute_mono {R' : List Nat} (h : ∀ v ∈ R, v ∈ R') {v : Nat} (hv : nextToRoute E R v = true) : nextToRoute E R' v = true := by
  simp only [nextToRoute, Bool.or_eq_true, decide_eq_true_eq, List.any_eq_true] at hv ⊢
  rcases hv with hv | ⟨e, he, hv⟩
  · exact .inl (h v hv)
  · refine .inr ⟨e, he, ?_⟩
    rcases hv with hv | hv
    · exact .inl (h _ hv)
    · exact .inr (h _ hv)

theorem mem_mapM {α β : Type} {f : α → Option β} : ∀ {l : List α} {r : List β}, l.mapM f = some r → ∀ b ∈ r, ∃ a ∈ l, f a = some b := by
  intro l
  induction l with
  | nil => intro r h b hb; simp [pure] at h; subst h; simp at hb
  | cons a l ih =>
    intro r h b hb
    rw [List.mapM_cons] at h
    simp only [bind, Option.bind_eq_some_iff, pure, Option.some.injEq] at h
    obtain ⟨x, hx, xs, hxs, rfl⟩ := h
    rcases List.mem_cons.mp hb with rfl | hb
    · exact ⟨a, by simp, hx⟩
    · obtain ⟨a', h1, h2⟩ := ih hxs b hb
      exact ⟨a', by simp [h1], h2⟩

/-- in a chain to a vertex with an edge into a set, all vertices lead on -/
theorem chain_keeps {f : Nat → List Nat} {p : List Nat} (hc : p.IsChain (fun a b => b ∈ f a)) {b : Nat} (hb : p.getLast? = some b) :
    ∀ v ∈ p, v = b ∨ ∃ w ∈ p, w ∈ f v := by
  induction p with
  | nil => simp
  | cons a p ih =>
    intro v hv
    cases p with
    | nil =>
      simp only [List.getLast?_singleton, Option.some.injEq] at hb
      simp only [List.mem_singleton] at hv
      left; rw [hv, hb]
    | cons a' p =>
      rw [List.isChain_cons_cons] at hc
      rcases List.mem_cons.mp hv with rfl | hv
      · exact .inr ⟨a', by simp, hc.1⟩
      · rw [List.getLast?_cons_cons] at hb
        rcases ih hc.2 hb v hv with h | ⟨w, h1, h2⟩
        · exact .inl h
        · exact .inr ⟨w, by simp [h1], h2⟩

theorem chain_reach {f : Nat → List Nat} {p : List Nat} (hc : p.IsChain (fun a b => b ∈ f a)) {v : Nat} (hv : p.head? = some v) {S : Nat → Prop}
    (h0 : S v) (hS : ∀ a b, S a → b ∈ f a → S b) : ∀ w ∈ p, S w := by
  induction p generalizing v with
  | nil => simp
  | cons a p ih =>
    simp only [List.head?_cons, Option.some.injEq] at hv
    subst hv
    intro w hw
    rcases List.mem_cons.mp hw with rfl | hw
    · exact h0
    · cases p with
      | nil => cases hw
      | cons a' p =>
        rw [List.isChain_cons_cons] at hc
        exact ih hc.2 rfl (hS _ _ h0 hc.1) w hw

/-- Helper of the proofs. A lanelet leads to the destination along followers that are on the route. -/
def Leads (E : List (BaseEdge K)) (finish : Nat) (R : List Nat) (v : Nat) : Prop :=
  ReflTransGen (fun a b => ∃ e ∈ E, e.src = a ∧ e.dst = b ∧ e.info.relation = Successor ∧ b ∈ R) v finish

theorem leads_mono {finish : Nat} {R' : List Nat} (h : ∀ v ∈ R, v ∈ R') {v : Nat} (hv : Leads E finish R v) : Leads E finish R' v :=
  hv.lift id fun _ _ ⟨e, h1, h2, h3, h4, h5⟩ => ⟨e, h1, h2, h3, h4, h _ h5⟩

theorem leads_keeps (hE : Straight E) {finish : Nat} (hwithin : ∀ v ∈ within, v = finish) (h : ∀ v ∈ R, Leads E finish R v) :
    Keeps (outN E within R) finish (· ∈ R) := by
  intro v hv
  by_cases hf : v = finish
  · exact .inl hf
  · right
    rcases (h v hv).cases_head with h | ⟨b, ⟨e, h1, h2, h3, h4, h5⟩, -⟩
    · exact absurd h hf
    · refine ⟨e, mem_outN.mpr ⟨h1, h2, ?_, ?_⟩, by rw [h3]; exact h5⟩
      · unfold drivableWithin
        rw [(straight_drivable hE h1).mpr h4, h2]
        have : v ∉ within := fun h => hf (hwithin v h)
        simp [this]
      · rw [h3]; simp [nextToRoute, h5]

theorem section_iff (hE : Straight E) {v : Nat} :
    conflictingSection E R v = true ↔ v ∉ R ∧ ∃ e ∈ outE E v, e.dst ∈ R ∧ e.info.relation = Conflicting := by
  have hz : ∀ (l : List (BaseEdge K)) (b : Bool), (∀ e ∈ l, e ∈ E) → l.foldl (fun (s : Bool × Bool) e =>
      if e.dst ∉ R then s
      else
        let s := if hasRel (Left ||| Right) e then
            let n := s.1 || (outE E e.dst).any fun o => o.dst == e.src && hasRel (Left ||| Right) o
            (n, s.2 || !n)
          else s
        (s.1, s.2 || hasRel (Conflicting ||| AdjacentLeft ||| AdjacentRight) e)) (false, b) =
      (false, b || l.any fun e => decide (e.dst ∈ R ∧ e.info.relation = Conflicting)) := by
    intro l
    induction l with
    | nil => intro b _; simp
    | cons e l ih =>
      intro b h
      rw [List.foldl_cons, List.any_cons]
      by_cases hd : e.dst ∈ R
      · rw [if_neg (by simpa using hd)]
        have h1 : hasRel (Left ||| Right) e = false := by
          rcases hE e (h e (by simp)) with h | h <;> simp only [hasRel, h] <;> decide
        have h2 : hasRel (Conflicting ||| AdjacentLeft ||| AdjacentRight) e = decide (e.dst ∈ R ∧ e.info.relation = Conflicting) := by
          rcases hE e (h e (by simp)) with h | h <;> simp only [hasRel, h, hd, true_and] <;> decide
        rw [h1, h2]
        simp only [Bool.false_eq_true, if_false]
        rw [ih _ (fun e' he' => h e' (by simp [he'])), Bool.or_assoc]
      · rw [if_pos hd, ih _ (fun e' he' => h e' (by simp [he']))]
        simp [hd]
  unfold conflictingSection
  by_cases hv : v ∈ R
  · simp [hv]
  · rw [if_neg hv]
    simp only
    rw [hz (outE E v) false (fun e he => List.mem_of_mem_filter he)]
    simp [hv]

theorem exact_removes (hE : Straight E) : ∀ (l : List Nat) (vis : Visited), l.Nodup → (∀ v ∈ l, (vis v).isSome) → Exact (outN E within R) vis →
    (∀ u, (vis u).isSome → nextToRoute E R u = true) →
    Exact (outN E within R) (l.foldl (Visited.remove (insN E within R)) vis) ∧
    ∀ u, ((l.foldl (Visited.remove (insN E within R)) vis) u).isSome = ((vis u).isSome && decide (u ∉ l)) := by
  intro l
  induction l with
  | nil => intro vis _ _ h _; exact ⟨h, by simp⟩
  | cons a l ih =>
    intro vis hn hin h hd
    rw [List.foldl_cons]
    rw [List.nodup_cons] at hn
    obtain ⟨h1, h2⟩ := ih (vis.remove (insN E within R) a) hn.2 (by
      intro v hv
      rw [remove_dom]
      have : v ≠ a := by rintro rfl; exact hn.1 hv
      simp [hin v (by simp [hv]), this]) (exact_remove hE h hd (hin a (by simp))) (by
      intro u hu
      exact hd u (remove_sub _ _ _ _ hu))
    refine ⟨h1, fun u => ?_⟩
    rw [h2, remove_dom]
    by_cases hua : u = a <;> simp [hua]

/-- one pass: no undefined behaviour, and what is on the route then still leads to the destination -/
theorem addAdjacent_straight (hE : Straight E) {n : Nat} (hw : Within E n) {start finish : Nat} (hs : start < n) (hsR : start ∈ R) (hfin : finish ∈ R)
    (hwithin : ∀ v ∈ within, v = finish) (hR : ∀ v ∈ R, Leads E finish R v) {o : Except Fault (Bool × List Nat)}
    (h : addAdjacent E n start finish within R = some o) :
    ∃ b R', o = .ok (b, R') ∧ (∀ v ∈ R, v ∈ R') ∧ ∀ v ∈ R', Leads E finish R' v := by
  have hRk := leads_keeps hE hwithin hR
  unfold addAdjacent at h
  simp only [bind, Option.bind_eq_some_iff] at h
  obtain ⟨order, hord, vis, hvis, o', ho', h⟩ := h
  change bfs (fun v => (outN E within R v).map (·.dst)) start = some order at hord
  change (order.foldl (Visited.visit R (outN E within R)) fun _ => none).prune (insN E within R) n finish = some vis at hvis
  obtain ⟨-, -, hreach⟩ := bfs_spec hord
  have hclosed : ∀ u ∈ order, ∀ e ∈ outN E within R u, e.dst ∈ order := by
    intro u hu e he
    exact (hreach _).mpr (((hreach u).mp hu).tail (List.mem_map_of_mem he))
  have hnext : ∀ u ∈ order, nextToRoute E R u = true := by
    intro u hu
    rcases (hreach u).mp hu with _ | ⟨_, hstep⟩
    · simp [nextToRoute, hsR]
    · obtain ⟨e, he, rfl⟩ := List.mem_map.mp hstep
      exact (mem_outN.mp he).2.2.2
  have hdom0 : ∀ u, ((order.foldl (Visited.visit R (outN E within R)) fun _ => none) u).isSome ↔ u ∈ order := by
    intro u
    rw [visits hE]
    by_cases hu : u ∈ order
    · rw [if_pos hu]; exact ⟨fun _ => hu, fun _ => rfl⟩
    · rw [if_neg hu]; exact ⟨fun h => (by cases h), fun h => absurd h hu⟩
  have hlt : ∀ u ∈ order, u < n := by
    intro u hu
    rcases (hreach u).mp hu with _ | ⟨_, hstep⟩
    · exact hs
    · obtain ⟨e, he, rfl⟩ := List.mem_map.mp hstep
      exact (hw e (mem_outN.mp he).1).2
  obtain ⟨p1, p2, p3, p4⟩ := prune_spec hE hvis (visits_exact hE hclosed) (fun u hu => hnext u ((hdom0 u).mp hu))
  have hvo : ∀ u, (vis u).isSome → u ∈ order := fun u hu => (hdom0 u).mp (p2 u hu)
  -- vertices of the route are kept
  have hRv : ∀ u ∈ R, u ∈ order → (vis u).isSome := by
    intro u hu huo
    refine p3 (fun w => w ∈ R ∧ w ∈ order) ?_ (fun w hw => (hdom0 w).mpr hw.2) u ⟨hu, huo⟩
    intro w ⟨hw1, hw2⟩
    rcases hRk w hw1 with h | ⟨e, he, hz⟩
    · exact .inl h
    · exact .inr ⟨e, he, hz, hclosed w hw2 e he⟩
  -- a vertex of the map that is in a conflicting section is among those that are checked
  have hvalid : ∀ v, (vis v).isSome → v ∉ R → v ∈ vis.valid n := by
    intro v hv hvR
    obtain ⟨c, hc⟩ := Option.isSome_iff_exists.mp hv
    refine List.mem_filter.mpr ⟨List.mem_range.mpr (hlt v (hvo v hv)), ?_⟩
    rcases p4 v (hlt v (hvo v hv)) c hc with h | h
    · exact absurd (h ▸ hfin) hvR
    · rw [hc]; simp [h]
  have hstep : ∀ a, conflictingSection E R a = true → ∀ e ∈ outE E a, drivable e = true → nextToRoute E R e.dst = true → e ∈ outN E within R a := by
    intro a ha e he hdr hnx
    obtain ⟨he1, he2⟩ := List.mem_filter.mp he
    have he2 : e.src = a := by simpa using he2
    refine mem_outN.mpr ⟨he1, he2, ?_, hnx⟩
    unfold drivableWithin
    rw [hdr, he2]
    have : a ∉ within := fun h => ((section_iff hE).mp ha).1 (hwithin a h ▸ hfin)
    simp [this]
  have hsn : ∀ w, conflictingSection E R w = true → nextToRoute E R w = true := by
    intro w hw
    obtain ⟨-, e, he, hd, -⟩ := (section_iff hE).mp hw
    simp only [nextToRoute, Bool.or_eq_true, decide_eq_true_eq, List.any_eq_true]
    exact .inr ⟨e, he, .inl hd⟩
  unfold outOfRoute at ho'
  simp only [bind, Option.bind_eq_some_iff] at ho'
  obtain ⟨marked, hm, ho'⟩ := ho'
  -- the marked vertices are those of paths back to the route
  have hmarked : ∀ v ∈ marked.flatten, ∃ l : List Nat, v ∈ l ∧ (∀ w ∈ l, w ∈ marked.flatten ∧ conflictingSection E R w = true ∧ (vis w).isSome) ∧
      ∃ b t, l.getLast? = some b ∧ l.IsChain (fun a b => ∃ e ∈ outN E within R a, e.dst = b) ∧ t ∈ outN E within R b ∧ t.dst ∈ R ∧
        (vis t.dst).isSome := by
    intro v hv
    obtain ⟨ml, hml, hvml⟩ := List.mem_flatten.mp hv
    obtain ⟨v0, hv0, hp⟩ := mem_mapM hm ml hml
    simp only [Option.bind_eq_some_iff] at hp
    obtain ⟨ps, hps, res, hres, hp⟩ := hp
    have hp := Option.some.inj hp
    subst hp
    obtain ⟨l, hl, hvl⟩ := List.mem_flatten.mp hvml
    obtain ⟨p, hpp, hperm⟩ := mem_mapM hres l hl
    obtain ⟨hhead, hchain⟩ := paths_chain hps p hpp
    have hpne : p ≠ [] := by rintro rfl; cases hhead
    rcases permitted_back hE hpne hperm with rfl | ⟨rfl, b, t, hb, ht, htd, htR⟩
    · cases hvl
    · obtain ⟨hv0n, -⟩ := List.mem_filter.mp hv0
      obtain ⟨hv0v, hv0c⟩ := List.mem_filter.mp hv0n
      have hv0o : v0 ∈ order := by
        have h1 := (List.mem_filter.mp hv0v).2
        split at h1
        · cases h1
        · rename_i c hc
          exact hvo v0 (by rw [hc]; rfl)
      have hedge : ∀ a c, conflictingSection E R a = true → c ∈ conflictOrAdjacent E R a →
          conflictingSection E R c = true ∧ ∃ e ∈ outN E within R a, e.dst = c := by
        intro a c ha hc
        unfold conflictOrAdjacent at hc
        obtain ⟨hc1, hc2⟩ := List.mem_filter.mp hc
        obtain ⟨e, he, rfl⟩ := List.mem_map.mp hc1
        obtain ⟨he1, he2⟩ := List.mem_filter.mp he
        exact ⟨hc2, e, hstep a ha e he1 he2 (hsn _ hc2), rfl⟩
      have hall := chain_reach (S := fun w => conflictingSection E R w = true ∧ w ∈ order) hchain hhead ⟨hv0c, hv0o⟩ (by
        intro a c ⟨ha1, ha2⟩ hc
        obtain ⟨h1, e, h2, rfl⟩ := hedge a c ha1 hc
        exact ⟨h1, hclosed a ha2 e h2⟩)
      have hbl := List.mem_of_getLast? hb
      have hte : t ∈ outN E within R b := hstep b (hall b hbl).1 t ht htd (by simp [nextToRoute, htR])
      have hkeep := p3 (fun w => (w ∈ R ∨ w ∈ l) ∧ w ∈ order) (by
        intro w ⟨hw, hwo⟩
        rcases hw with hw | hw
        · rcases hRk w hw with h | ⟨e, he, hz⟩
          · exact .inl h
          · exact .inr ⟨e, he, .inl hz, hclosed w hwo e he⟩
        · right
          rcases chain_keeps hchain hb w hw with rfl | ⟨w', hw', hf⟩
          · exact ⟨t, hte, .inl htR, hclosed w hwo t hte⟩
          · obtain ⟨h1, e, h2, rfl⟩ := hedge w w' (hall w hw).1 hf
            exact ⟨e, h2, .inr hw', (hall _ hw').2⟩)
        (fun w hw => (hdom0 w).mpr hw.2)
      refine ⟨l, hvl, fun w hw => ⟨?_, (hall w hw).1, hkeep w ⟨.inr hw, (hall w hw).2⟩⟩, b, t, hb, ?_, hte, htR,
        hkeep _ ⟨.inl htR, hclosed b (hall b hbl).2 t hte⟩⟩
      · exact List.mem_flatten.mpr ⟨_, hml, List.mem_flatten.mpr ⟨_, hl, hw⟩⟩
      · have hsub : ∀ w ∈ l, conflictingSection E R w = true := fun w hw => (hall w hw).1
        clear hvl hall hb hbl hte hkeep hl hpp hperm hhead hpne
        induction l with
        | nil => exact .nil
        | cons a l ih =>
          cases l with
          | nil => exact .singleton _
          | cons c l =>
            rw [List.isChain_cons_cons] at hchain ⊢
            exact ⟨(hedge a c (hsub a (by simp)) hchain.1).2, ih hchain.2 (fun w hw => hsub w (by simp [hw]))⟩
  split at ho'
  · rename_i hany
    exfalso
    rw [List.any_eq_true] at hany
    obtain ⟨v, hv, hvn⟩ := hany
    simp only [decide_eq_true_eq] at hvn
    obtain ⟨l, hvl, hl, -⟩ := hmarked v hv
    obtain ⟨-, hc, hs'⟩ := hl v hvl
    exact hvn (List.mem_filter.mpr ⟨hvalid v hs' ((section_iff hE).mp hc).1, hc⟩)
  · have ho' := Option.some.inj ho'
    subst ho'
    have h := (Option.some.inj h).symm
    refine ⟨_, _, h, fun v hv => List.mem_append_left _ hv, ?_⟩
    obtain ⟨rem, hrem⟩ : ∃ rem, rem = ((vis.valid n).filter (conflictingSection E R)).filter fun v => decide (v ∉ marked.flatten) := ⟨_, rfl⟩
    rw [← hrem]
    have hremv : ∀ v ∈ rem, (vis v).isSome := by
      intro v hv
      rw [hrem] at hv
      have h1 := (List.mem_filter.mp (List.mem_of_mem_filter (List.mem_of_mem_filter hv))).2
      split at h1
      · cases h1
      · rename_i c hc; rw [hc]; rfl
    have hremn : rem.Nodup := by
      rw [hrem]
      exact ((List.nodup_range.filter _).filter _).filter _
    obtain ⟨q1, q2⟩ := exact_removes hE rem vis hremn hremv p1 (fun u hu => hnext u (hvo u hu))
    change ∀ v ∈ R ++ ((rem.foldl (Visited.remove (insN E within R)) vis).valid n).filter fun v => decide (v ∉ R), Leads E finish
      (R ++ ((rem.foldl (Visited.remove (insN E within R)) vis).valid n).filter fun v => decide (v ∉ R)) v
    obtain ⟨vis', hvis'⟩ : ∃ vis', vis' = rem.foldl (Visited.remove (insN E within R)) vis := ⟨_, rfl⟩
    rw [← hvis'] at q1 q2 ⊢
    obtain ⟨R', hR'⟩ : ∃ R', R' = R ++ (vis'.valid n).filter fun v => decide (v ∉ R) := ⟨_, rfl⟩
    rw [← hR']
    have hRR' : ∀ v ∈ R, v ∈ R' := fun v hv => by rw [hR']; exact List.mem_append_left _ hv
    have hdirect : ∀ v, ∀ e ∈ E, e.src = v → e.info.relation = Successor → e.dst ∈ R → Leads E finish R' v := by
      intro v e he hsrc hrel hd
      exact .head ⟨e, he, hsrc, rfl, hrel, hRR' _ hd⟩ (leads_mono hRR' (hR _ hd))
    intro v hv
    by_cases hvR : v ∈ R
    · exact leads_mono hRR' (hR v hvR)
    · have hvn : v ∈ vis'.valid n := by
        rw [hR'] at hv
        rcases List.mem_append.mp hv with hv | hv
        · exact absurd hv hvR
        · exact List.mem_of_mem_filter hv
      have hv' : (vis' v).isSome := by
        have h1 := (List.mem_filter.mp hvn).2
        split at h1
        · cases h1
        · rename_i c hc; rw [hc]; rfl
      rw [q2, Bool.and_eq_true] at hv'
      obtain ⟨hv1, hv2⟩ := hv'
      have hv2 : v ∉ rem := by simpa using hv2
      have hvx := hnext v (hvo v hv1)
      simp only [nextToRoute, Bool.or_eq_true, decide_eq_true_eq, List.any_eq_true, hvR, false_or] at hvx
      obtain ⟨e, he, hd⟩ := hvx
      obtain ⟨he1, he2⟩ := List.mem_filter.mp he
      have he2 : e.src = v := by simpa using he2
      have hd : e.dst ∈ R := by
        rcases hd with hd | hd
        · exact hd
        · rw [he2] at hd; exact absurd hd hvR
      rcases hE e he1 with hrel | hrel
      · exact hdirect v e he1 he2 hrel hd
      · have hcs : conflictingSection E R v = true := (section_iff hE).mpr ⟨hvR, e, he, hd, hrel⟩
        have hvm : v ∈ marked.flatten := by
          by_contra hcon
          apply hv2
          rw [hrem]
          exact List.mem_filter.mpr ⟨List.mem_filter.mpr ⟨hvalid v hv1 hvR, hcs⟩, by simpa using hcon⟩
        obtain ⟨l, hvl, hl, b, t, hb, hch, ht, htR, htv⟩ := hmarked v hvm
        have hkept : ∀ w ∈ l, (vis' w).isSome := by
          intro w hw
          obtain ⟨h1, -, h3⟩ := hl w hw
          rw [q2, h3, Bool.true_and, decide_eq_true_eq, hrem]
          intro hcon
          have := (List.mem_filter.mp hcon).2
          rw [decide_eq_true_eq] at this
          exact this h1
        have htk : (vis' t.dst).isSome := by
          rw [q2, htv, Bool.true_and, decide_eq_true_eq, hrem]
          intro hcon
          have := (List.mem_filter.mp (List.mem_of_mem_filter hcon)).2
          exact ((section_iff hE).mp this).1 htR
        have hmem : ∀ w ∈ l, (∃ e ∈ outN E within R w, (vis' e.dst).isSome) → w ∈ R' := by
          intro w hw ⟨e, he, hsome⟩
          obtain ⟨c, hc⟩ := Option.isSome_iff_exists.mp (hkept w hw)
          obtain ⟨-, hcs, hvw⟩ := hl w hw
          rw [hR']
          refine List.mem_append_right _ (List.mem_filter.mpr ⟨List.mem_filter.mpr ⟨List.mem_range.mpr (hlt w (hvo w hvw)), ?_⟩,
            by simpa using ((section_iff hE).mp hcs).1⟩)
          rw [hc]
          simp only [Bool.not_eq_true']
          rw [leaf_iff]
          have := (q1 w c hc).2
          have hpos := List.length_pos_of_mem (List.mem_filter.mpr ⟨he, hsome⟩ : e ∈ (outN E within R w).filter fun e => (vis' e.dst).isSome)
          omega
        have hgo : ∀ (l' : List Nat), (∀ w ∈ l', w ∈ l) → l'.IsChain (fun a b => ∃ e ∈ outN E within R a, e.dst = b) → l'.getLast? = some b →
            ∀ w ∈ l', Leads E finish R' w ∧ w ∈ R' := by
          intro l'
          induction l' with
          | nil => simp
          | cons a l' ih =>
            intro hsub hch hb w hw
            cases l' with
            | nil =>
              simp only [List.getLast?_singleton, Option.some.injEq] at hb
              simp only [List.mem_singleton] at hw
              subst hw hb
              exact ⟨hdirect w t (mem_outN.mp ht).1 (mem_outN.mp ht).2.1 (outN_succ hE ht) htR, hmem w (hsub w (by simp)) ⟨t, ht, htk⟩⟩
            | cons a' l' =>
              rw [List.isChain_cons_cons] at hch
              rw [List.getLast?_cons_cons] at hb
              have hi := ih (fun w hw => hsub w (by simp [hw])) hch.2 hb
              rcases List.mem_cons.mp hw with rfl | hw
              · obtain ⟨e, he, hd⟩ := hch.1
                obtain ⟨k1, k2⟩ := hi a' (by simp)
                refine ⟨.head ⟨e, (mem_outN.mp he).1, (mem_outN.mp he).2.1, hd, outN_succ hE he, k2⟩ k1, ?_⟩
                exact hmem w (hsub w (by simp)) ⟨e, he, by rw [hd]; exact hkept a' (hsub a' (by simp))⟩
              · exact hi w hw
        exact (hgo l (fun _ h => h) hch hb v hvl).1

theorem extend_straight (hE : Straight E) {n : Nat} (hw : Within E n) {start finish : Nat} (hs : start < n) (hsR : start ∈ R) (hfin : finish ∈ R)
    (hwithin : ∀ v ∈ within, v = finish) (hR : ∀ v ∈ R, Leads E finish R v) {o : Except Fault (List Nat)}
    (h : extend E n start finish within R = some o) : ∃ R', o = .ok R' ∧ ∀ v ∈ R', Leads E finish R' v := by
  refine extend.partial_correctness E n start finish within (fun R o => start ∈ R → finish ∈ R → (∀ v ∈ R, Leads E finish R v) →
    ∃ R', o = .ok R' ∧ ∀ v ∈ R', Leads E finish R' v) ?_ R o h hsR hfin hR
  intro rec ih R o h hsR hfin hR
  simp only [bind, Option.bind_eq_some_iff] at h
  obtain ⟨a, ha, h⟩ := h
  obtain ⟨b, R1, rfl, hsub, hl⟩ := addAdjacent_straight hE hw hs hsR hfin hwithin hR ha
  simp only at h
  cases b with
  | true => exact ih R1 o (by simpa using h) (hsub _ hsR) (hsub _ hfin) hl
  | false =>
    simp only [Bool.false_eq_true, if_false, pure, Option.some.injEq] at h
    exact ⟨R1, h.symm, hl⟩

end

/-! ### the theorems -/

section
variable {t : CostTests K} {g : RGraph P K} {costId : Nat} {path : List P}

theorem straight_original (wf : WF t g) : Straight (original g false costId) := by
  intro e he
  unfold original at he
  obtain ⟨h1, h2⟩ := List.mem_filter.mp he
  simp only [Bool.false_eq_true, if_false, Bool.and_eq_true, hasRel] at h2
  have key : ∀ r ∈ edgeRelations, r &&& (Successor ||| Conflicting) ≠ 0 → r = Successor ∨ r = Conflicting := by decide
  exact key _ (wf.rel e h1) (by simpa using h2.2)

/-- what the construction of a route without lane changes computes -/
theorem straight_facts (hb : Built t g) (hc : Connected g false costId path) {vs within : List Nat} {start finish : Nat}
    (hmap : vs.map (g.vertices[·]?) = path.map some) (hh : vs.head? = some start) (hl : vs.getLast? = some finish)
    (hwi : lastLanelets (original g false costId) vs = some within) {o : Except Fault (List Nat)}
    (ho : extend (original g false costId) g.vertices.length start finish within vs.dedup = some o) :
    ∃ R, o = .ok R ∧ ∀ v ∈ R, Leads (original g false costId) finish R v := by
  have wf := built_wf hb
  have hE := straight_original (costId := costId) wf
  have hw := within_original wf false costId
  have hlt : ∀ v ∈ vs, v < g.vertices.length := by
    intro v hv
    have : g.vertices[v]? ∈ path.map some := by rw [← hmap]; exact List.mem_map_of_mem hv
    obtain ⟨p, -, hp⟩ := List.mem_map.mp this
    exact (List.getElem?_eq_some_iff.mp hp.symm).1
  refine extend_straight hE hw (hlt start (List.mem_of_head? hh)) (List.mem_dedup.mpr (List.mem_of_head? hh))
    (List.mem_dedup.mpr (List.mem_of_getLast? hl)) ?_ ?_ ho
  · -- without lane changes there is nothing beside the destination
    unfold lastLanelets at hwi
    rw [hh, hl] at hwi
    simp only at hwi
    split at hwi
    · cases hwi; simp
    · obtain ⟨-, -, hr⟩ := bfs_spec hwi
      intro v hv
      rcases ((hr v).mp hv).cases_head with h | ⟨w, hs, -⟩
      · exact h.symm
      · obtain ⟨e, he, -⟩ := List.mem_map.mp hs
        obtain ⟨h1, h2⟩ := List.mem_filter.mp he
        exfalso
        rcases hE e (List.mem_of_mem_filter h1) with h | h <;> simp only [hasRel, h] at h2 <;> exact absurd h2 (by decide)
  · -- the path leads to the destination
    have key : ∀ (vs' : List Nat) (path' : List P), (∀ v ∈ vs', v ∈ vs) → vs'.map (g.vertices[·]?) = path'.map some → Connected g false costId path' →
        vs'.getLast? = some finish → ∀ v ∈ vs', Leads (original g false costId) finish vs.dedup v := by
      intro vs'
      induction vs' with
      | nil => simp
      | cons u vs' ih =>
        intro path' hsub hm hc hl v hv
        cases vs' with
        | nil =>
          simp only [List.getLast?_singleton, Option.some.injEq] at hl
          simp only [List.mem_singleton] at hv
          subst hv hl
          exact .refl
        | cons w vs' =>
          match path', hm, hc with
          | [_], hm, _ => simp at hm
          | p :: q :: path', hm, hc =>
            simp only [List.map_cons, List.cons.injEq] at hm
            unfold Connected at hc
            rw [List.isChain_cons_cons] at hc
            rw [List.getLast?_cons_cons] at hl
            have hi := ih (q :: path') (fun v hv => hsub v (by simp [hv])) (by simp [hm.2.1, hm.2.2]) hc.2 hl
            rcases List.mem_cons.mp hv with rfl | hv
            · obtain ⟨rel, hrel, c, e, h1, h2, h3, h4, h5, h6⟩ := hc.1
              have hrel : rel = Successor := by simpa [followRelations] using hrel
              subst hrel
              have e1 : e.src = v := vertex_inj wf.nodup h2 hm.1
              have e2 : e.dst = w := vertex_inj wf.nodup h3 hm.2.1
              refine .head ⟨e, (mem_original wf).mpr ⟨h1, h4, by rw [h5]; simp [routeRelations]⟩, e1, e2, h5, ?_⟩ (hi w (by simp))
              exact List.mem_dedup.mpr (hsub w (by simp))
            · exact hi v hv
    intro v hv
    exact key vs path (fun _ h => h) hmap hc hl v (List.mem_dedup.mp hv)

/-- C30: without lane changes there is always a route along a path, and no undefined behaviour. -/
theorem route_straight (hb : Built t g) (hne : path ≠ []) (hm : ∀ p ∈ path, p ∈ g.vertices) (hc : Connected g false costId path) :
    ∃ r, buildRoute t g path false costId = some (.ok (some r)) := by
  obtain ⟨x, hx⟩ := route_terminates hb path false (costId := costId) (fun h => by cases h)
  cases x with
  | ok o =>
    have := route_exists hb hc hx
    obtain ⟨r, rfl⟩ := Option.isSome_iff_exists.mp this
    exact ⟨r, hx⟩
  | error f =>
    exfalso
    have hx' := hx
    unfold buildRoute at hx'
    split at hx'
    · rename_i hn
      obtain ⟨vs, hvs⟩ := mapM_some (f := g.getVertex) (l := path) (fun p hp => getVertex_isSome (hm p hp))
      rw [hvs] at hn
      cases hn
    · rename_i vs hvs
      have hmap := mapM_getVertex hvs
      simp only at hx'
      split at hx'
      · rename_i start fin hstart hfin
        simp only [bind, Option.bind_eq_some_iff] at hx'
        obtain ⟨within, hwi, o, ho, h⟩ := hx'
        obtain ⟨R, rfl, -⟩ := straight_facts hb hc hmap hstart hfin hwi ho
        have wf := built_wf hb
        simp only [finalize, bind, Option.bind_eq_some_iff, pure, Option.some.injEq] at h
        obtain ⟨order, hord, h⟩ := h
        have hE : EOk t g (routeOut (original g false costId) R) (original g false costId) :=
          ⟨fun e he => wf.dst e (original_sub he), fun e he => wf.fin e (original_sub he), fun e he => wf.nonneg e (original_sub he),
            fun u e he => ⟨(mem_routeOut.mp he).1, (mem_routeOut.mp he).2.1⟩⟩
        have hsb : start < g.vertices.length := by
          have h1 : g.vertices[start]? ∈ vs.map (g.vertices[·]?) := List.mem_map_of_mem (f := (g.vertices[·]?)) (List.mem_of_head? hstart)
          rw [hmap] at h1
          obtain ⟨p, -, hp⟩ := List.mem_map.mp h1
          exact (List.getElem?_eq_some_iff.mp hp.symm).1
        obtain ⟨s, hs, -⟩ := construct_inv (ins := routeIn (original g false costId) R) wf.nodup hE hsb hord
        rw [hs] at h
        simp only [Except.bind] at h
        cases hl : path.getLast? with
        | none => exact hne (List.getLast?_eq_none_iff.mp hl)
        | some last =>
          rw [hl] at h
          simp only at h
          split at h <;> cases h
      · rename_i hno
        have hvne : vs ≠ [] := by
          rintro rfl
          exact hne (List.map_eq_nil_iff.mp hmap.symm)
        exact hno _ _ (List.head?_eq_some_head hvne) (List.getLast?_eq_some_getLast hvne)

/-- C58: on a route without lane changes every lanelet leads to the destination along lanelets of the route. With lane changes it does not, see
`dead_end_counterexample`. -/
theorem route_leads (hb : Built t g) (hc : Connected g false costId path) {r : Route P K} (h : IsRoute t g path false costId r) {last : P}
    (hlast : path.getLast? = some last) {p : P} (hp : p ∈ r.members) : ReflTransGen (fun a b => b ∈ r.following a) p last := by
  have wf := built_wf hb
  have h0 := h
  obtain ⟨vs, R, order, s, f, hr, -⟩ := h.facts wf
  obtain ⟨start, fin, within, hstart, hfin, hwi, hext⟩ := f.ext
  obtain ⟨R', hR', hlead⟩ := straight_facts hb hc f.mapped hstart hfin hwi hext
  cases hR'
  have hmem : ∀ q, q ∈ r.members ↔ ∃ v ∈ order, g.vertices[v]? = some q := by
    intro q
    unfold Route.members
    rw [hr]
    exact f.mem
  have hfinp : g.vertices[fin]? = some last := by
    have h1 : (vs.map (g.vertices[·]?)).getLast? = some (some last) := by
      rw [f.mapped, List.getLast?_map, hlast]; rfl
    rw [List.getLast?_map, hfin] at h1
    exact Option.some.inj h1
  obtain ⟨v, hv, hvp⟩ := (hmem p).mp hp
  have hgo := hlead v (f.order_sub hv)
  unfold Leads at hgo
  clear hp
  induction hgo using Relation.ReflTransGen.head_induction_on generalizing p with
  | refl => rw [hfinp] at hvp; cases hvp; exact .refl
  | head hab _ ih =>
    obtain ⟨e, he, rfl, rfl, hrel, hR⟩ := hab
    have hd : e.dst ∈ order := f.step he hv hR
    obtain ⟨q, hq⟩ : ∃ q, g.vertices[e.dst]? = some q := ⟨_, List.getElem?_eq_getElem (wf.dst e (original_sub he))⟩
    refine .head ?_ (ih hd hq)
    rw [route_following hb h0 ((hmem p).mpr ⟨_, hv, hvp⟩), List.mem_filter]
    refine ⟨?_, by simpa using (hmem q).mpr ⟨_, hd, hq⟩⟩
    unfold succs
    obtain ⟨e1, e2, -⟩ := (mem_original wf).mp he
    rw [getAllEdges_iff hb (w := (withoutLaneChanges, [Successor])) (by simp [views])]
    exact ⟨Successor, by simp, e.info.routingCost, e, e1, hvp, hq, e2, hrel, rfl⟩

end
end Verif.Route
