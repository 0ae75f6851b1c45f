import Verif.Search.Props

/-!
Properties C24, C25 and the backward versions of C22 - C24.
-/
namespace Verif.Search
variable {σ K : Type} [Cost K]

/-! ### C24 possiblePaths -/

/-- the way a path is returned: in driving direction, so reversed if the search ran backwards -/
def render (backw : Bool) (p : List Nat) : List (Option Nat) :=
  (if backw then p.reverse else p).map some

/-- The result in terms of the finished search. -/
theorem possiblePaths_core {g : Graph K} {n start : Nat} (hg : GraphOk g n) (hs : start < n)
    {pick : Nat → (Nat → K) → List Nat → Nat} (hpick : PickMin pick) (backw keepShorter : Bool)
    (f : VisitInfo K → Bool) :
    ∃ (s : State Unit K) (paths : List (List Nat)),
      Inv g g start s ∧ s.queue = [] ∧
      (∀ v sv, s.map v = some sv →
        sv.predicate = f ⟨v, sv.predecessor, sv.cost, sv.length, sv.numLaneChanges⟩) ∧
      (∀ v, (s.map v).isSome → v < n) ∧
      possiblePathsImpl g n pick backw keepShorter start f = some (paths.map (render backw)) ∧
      (∀ p, p ∈ paths ↔ ∃ v sv, s.map v = some sv ∧ sv.isLeaf = true ∧
        (keepShorter = true ∨ sv.predicate = false) ∧ TreePath s.map v p) ∧
      paths.Pairwise (fun p q => p.getLast? ≠ q.getLast?) := by
  obtain ⟨s, h1, h, hq, hp, hn⟩ := query_pure hg hs hpick f
  have hex : ∀ v, ∃ p, (s.map v).isSome → TreePath s.map v p := by
    intro v
    cases hm : s.map v with
    | none => exact ⟨[], by simp⟩
    | some sv =>
      obtain ⟨p, hp, -, -⟩ := h.treePath _ hm rfl
      exact ⟨p, fun _ => hp⟩
  obtain ⟨P, hP⟩ := Classical.skolem.mp hex
  let keep : Nat → Bool := fun v =>
      match s.map v with
      | some st => st.isLeaf && (keepShorter || !st.predicate)
      | none => false
  have hkeep : ∀ v, keep v = true → ∃ sv, s.map v = some sv ∧ sv.isLeaf = true ∧
      (keepShorter = true ∨ sv.predicate = false) := by
    intro v hv
    simp only [keep] at hv
    cases hm : s.map v with
    | none => rw [hm] at hv; simp at hv
    | some sv =>
      rw [hm] at hv
      simp only [Bool.and_eq_true, Bool.or_eq_true, Bool.not_eq_true'] at hv
      exact ⟨sv, rfl, hv⟩
  refine ⟨s, ((List.range n).filter keep).map P, h, hq, hp, hn, ?_, ?_, ?_⟩
  · simp only [possiblePathsImpl, h1]
    have : ((List.range n).filter keep).map (buildPath s.map backw) =
        ((List.range n).filter keep).map (fun v => some (render backw (P v))) := by
      apply List.map_congr_left
      intro v hv
      obtain ⟨sv, hm, -⟩ := hkeep v (List.mem_filter.mp hv).2
      exact buildPath_eq (hP v (by rw [hm]; rfl)) backw
    show allSome (((List.range n).filter keep).map (buildPath s.map backw)) = _
    rw [this, allSome_map_some, List.map_map]
    rfl
  · intro p
    simp only [List.mem_map, List.mem_filter, List.mem_range]
    constructor
    · rintro ⟨v, ⟨-, hv⟩, rfl⟩
      obtain ⟨sv, hm, hl, hk⟩ := hkeep v hv
      exact ⟨v, sv, hm, hl, hk, hP v (by rw [hm]; rfl)⟩
    · rintro ⟨v, sv, hm, hl, hk, ht⟩
      refine ⟨v, ⟨hn v (by rw [hm]; rfl), ?_⟩, (hP v (by rw [hm]; rfl)).unique ht⟩
      simp only [keep, hm, hl, Bool.true_and, Bool.or_eq_true, Bool.not_eq_true']
      exact hk
  · rw [List.pairwise_map]
    have hnd : ((List.range n).filter keep).Nodup := List.Pairwise.filter _ List.nodup_range
    refine List.Pairwise.imp_of_mem ?_ hnd
    intro a b ha hb hab heq
    obtain ⟨sa, hma, -⟩ := hkeep a (List.mem_filter.mp ha).2
    obtain ⟨sb, hmb, -⟩ := hkeep b (List.mem_filter.mp hb).2
    rw [(hP a (by rw [hma]; rfl)).last, (hP b (by rw [hmb]; rfl)).last] at heq
    exact hab (Option.some.inj heq)

theorem map_inj {α β : Type} {f : α → β} (hf : ∀ a b, f a = f b → a = b) {l m : List α}
    (h : l.map f = m.map f) : l = m := by
  induction l generalizing m with
  | nil => cases m <;> simp_all
  | cons a l ih =>
    cases m with
    | nil => simp at h
    | cons b m =>
      simp only [List.map_cons, List.cons.injEq] at h
      rw [hf _ _ h.1, ih h.2]

theorem render_injective (backw : Bool) {p q : List Nat} (h : render backw p = render backw q) : p = q := by
  have := map_inj (fun a b h => Option.some.inj h) h
  cases backw with
  | false => simpa using this
  | true => exact List.reverse_inj.mp (by simpa using this)

theorem map_render_injective (backw : Bool) {p q : List (List Nat)}
    (h : p.map (render backw) = q.map (render backw)) : p = q :=
  map_inj (fun _ _ h => render_injective backw h) h

/-- C24, for every stop criterion: the query succeeds. Every returned path is a path of the graph from the
start without repeated vertices; different paths have different ends; no path is a prefix of another one.
With `backw`, `g` is the reversed graph, so that paths lead to the start. -/
theorem possiblePaths_general {g : Graph K} {n start : Nat} (hg : GraphOk g n) (hs : start < n)
    {pick : Nat → (Nat → K) → List Nat → Nat} (hpick : PickMin pick) (backw keepShorter : Bool)
    (f : VisitInfo K → Bool) :
    ∃ paths : List (List Nat),
      possiblePathsImpl g n pick backw keepShorter start f = some (paths.map (render backw)) ∧
      (∀ p ∈ paths, (∃ c, PathCost g p c) ∧ p.head? = some start ∧ p.Nodup) ∧
      paths.Pairwise (fun p q => p.getLast? ≠ q.getLast?) ∧
      (∀ p ∈ paths, ∀ q ∈ paths, p <+: q → p = q) := by
  obtain ⟨s, paths, h, hq, -, -, h1, h2, h3⟩ :=
    possiblePaths_core hg hs hpick backw keepShorter f
  refine ⟨paths, h1, ?_, h3, ?_⟩
  · intro p hp
    obtain ⟨v, sv, hv, -, -, ht⟩ := (h2 p).mp hp
    obtain ⟨p', ht', hc, hh⟩ := h.treePath _ hv rfl
    rw [← ht.unique ht'] at hc hh
    exact ⟨⟨_, hc⟩, hh, ht.bound.1⟩
  · intro p hp q hq' hpre
    obtain ⟨v, sv, hv, hl, -, ht⟩ := (h2 p).mp hp
    obtain ⟨w, sw, hw, -, -, ht'⟩ := (h2 q).mp hq'
    by_cases hvw : v = w
    · subst hvw; exact ht.unique ht'
    · exfalso
      have hvq : v ∈ q := hpre.subset (List.mem_of_getLast? ht.last)
      obtain ⟨x, sx, k1, k2, k3⟩ := ht'.next hvq hvw
      have := (h.leaf v sv hv).mp hl _ (h.visit_of_map hq k1) k2
      exact k3 this

/-- `u` can be reached with a cost below the limit -/
def Below (g : Graph K) (start : Nat) (limit : K) (u : Nat) : Prop :=
  ∃ c, AnyWalk g start c u ∧ Cost.lt c limit

theorem Cost.lt_of_le_of_lt {a b c : K} (h : Cost.le a b) (h' : Cost.lt b c) : Cost.lt a c :=
  fun hca => h' (Cost.le_trans hca h)

/-- prefix costs: the inner vertices of a tree path are accepted -/
theorem TreePath.inner {g : Graph K} {start : Nat} {s : State σ K} (h : Inv g g start s) {v : Nat}
    {p : List Nat} (ht : TreePath s.map v p) {u : Nat} (hu : u ∈ p) (hne : u ≠ v) :
    ∃ su, s.map u = some su ∧ su.predicate = true := by
  obtain ⟨x, sx, k1, k2, k3⟩ := ht.next hu hne
  rcases h.tree x sx k1 with ⟨a, b, -⟩ | ⟨-, -, -, su, e, c1, c2, -⟩
  · rw [k2, ← a] at b; exact absurd b.symm k3
  · rw [k2] at c1; exact ⟨su, c1, c2⟩

/-- C24 with a cost limit. Every returned path is a cheapest one among the walks that do not continue after
the limit was reached; all its proper prefixes are cheapest paths with a cost below the limit. Without
`includeShorterPaths`, the cost of every returned path reaches the limit, and every vertex whose cheapest
such cost reaches the limit is the end of a returned path. With `includeShorterPaths`, every vertex
reachable by such a walk is on a returned path. -/
theorem possiblePaths_cost {g : Graph K} {n start : Nat} (hg : GraphOk g n) (hs : start < n)
    {pick : Nat → (Nat → K) → List Nat → Nat} (hpick : PickMin pick) (backw keepShorter : Bool)
    (limit : K) {paths : List (List Nat)}
    (hr : possiblePathsImpl g n pick backw keepShorter start (stopIfCostMoreThan false limit) =
      some (paths.map (render backw))) :
    (∀ p ∈ paths, ∀ v, p.getLast? = some v → ∃ c, PathCost g p c ∧
      (∀ c', Walk g (Below g start limit) start c' v → Cost.le c c') ∧
      (keepShorter = false → Cost.le limit c)) ∧
    (∀ p ∈ paths, ∀ q, q <+: p → q ≠ p → ∀ u, q.getLast? = some u → ∃ c, PathCost g q c ∧
      Cost.lt c limit ∧ ∀ c', AnyWalk g start c' u → Cost.le c c') ∧
    (∀ v c, Walk g (Below g start limit) start c v →
      (∀ c', Walk g (Below g start limit) start c' v → Cost.le limit c') →
      ∃ p ∈ paths, p.getLast? = some v) ∧
    (keepShorter = true → ∀ v c, Walk g (Below g start limit) start c v → ∃ p ∈ paths, v ∈ p) := by
  obtain ⟨s, paths', h, hq, hp, hn, h1, h2, h3⟩ :=
    possiblePaths_core hg hs hpick backw keepShorter (stopIfCostMoreThan false limit)
  rw [hr] at h1
  have := map_render_injective backw (Option.some.inj h1)
  subst this
  have hD : ∀ a b : K, Cost.le a b → Cost.lt b limit → Cost.lt a limit :=
    fun a b => Cost.lt_of_le_of_lt
  have hpD : ∀ v sv, s.map v = some sv → (sv.predicate = true ↔ Cost.lt sv.cost limit) := by
    intro v sv hv; rw [hp v sv hv]; simp [stopIfCostMoreThan]
  have hbelow : ∀ u, Below g start limit u → Accepted s.visits u := by
    rintro u ⟨c, hw, hc⟩
    exact (accepted_of_down hg.cost h hq hD hpD hw hc).1
  have hacc : ∀ u, Accepted s.visits u → Below g start limit u := by
    intro u hu
    obtain ⟨-, su, k1, k2⟩ := (h.accepted_iff u).mp hu
    exact ⟨su.cost, (h.exists_walk _ k1 rfl).mono (fun _ _ => trivial), (hpD u su k1).mp k2⟩
  have hcost : ∀ {v sv p}, s.map v = some sv → TreePath s.map v p → PathCost g p sv.cost := by
    intro v sv p hv ht
    obtain ⟨p', ht', hc, -⟩ := h.treePath _ hv rfl
    rw [ht.unique ht']; exact hc
  refine ⟨?_, ?_, ?_, ?_⟩
  · intro p hpp v hpv
    obtain ⟨v', sv, hv, -, hk, ht⟩ := (h2 p).mp hpp
    rw [ht.last] at hpv
    have := Option.some.inj hpv
    subst this
    refine ⟨sv.cost, hcost hv ht, ?_, ?_⟩
    · intro c' hw
      obtain ⟨sv', k1, k2⟩ := h.walk_le hq (hw.mono hbelow)
      rw [hv] at k1
      have := Option.some.inj k1
      subst this
      exact k2
    · intro hks
      rw [hks] at hk
      have hk : sv.predicate = false := by simpa using hk
      have : ¬ Cost.lt sv.cost limit := by
        rw [← hpD _ sv hv, hk]; simp
      exact Classical.not_not.mp this
  · intro p hpp q hqp hne u hqu
    obtain ⟨v, sv, hv, -, hk, ht⟩ := (h2 p).mp hpp
    have htu := ht.prefix hqp hqu
    have huv : u ≠ v := by
      intro huv
      subst huv
      exact hne (htu.unique ht)
    obtain ⟨su, k1, k2⟩ := ht.inner h (hqp.subset (List.mem_of_getLast? hqu)) huv
    have hlt := (hpD u su k1).mp k2
    refine ⟨su.cost, hcost k1 htu, hlt, ?_⟩
    intro c' hw
    rcases Cost.le_total su.cost c' with hle | hle
    · exact hle
    · obtain ⟨-, su', r1, r2⟩ := accepted_of_down hg.cost h hq hD hpD hw (hD _ _ hle hlt)
      rw [k1] at r1
      have := Option.some.inj r1
      subst this
      exact r2
  · intro v c hw hmin
    obtain ⟨sv, k1, k2⟩ := h.walk_le hq (hw.mono hbelow)
    obtain ⟨p, ht, -, -⟩ := h.treePath _ k1 rfl
    have hle : Cost.le limit sv.cost := hmin _ ((h.exists_walk _ k1 rfl).mono hacc)
    have hpf : sv.predicate = false := by
      cases hb : sv.predicate with
      | false => rfl
      | true => exact absurd hle ((hpD v sv k1).mp hb)
    refine ⟨p, (h2 p).mpr ⟨v, sv, k1, ?_, Or.inr hpf, ht⟩, ht.last⟩
    rw [h.leaf v sv k1]
    intro i hi hiv
    obtain ⟨st, q1, q2, -⟩ := h.vis i hi
    rcases h.tree _ _ q1 with ⟨a, b, -⟩ | ⟨-, -, -, su, e, c1, c2, -⟩
    · rw [← hiv, ← q2, b, a]
    · rw [q2, hiv, k1] at c1
      have := Option.some.inj c1
      subst this
      rw [hpf] at c2; simp at c2
  · intro hks v c hw
    obtain ⟨sv, k1, k2⟩ := h.walk_le hq (hw.mono hbelow)
    obtain ⟨p0, ht0, -, -⟩ := h.treePath _ k1 rfl
    have hb := ht0.bound
    have hlen := nodup_length_le n hb.1 (by
      intro u hu
      obtain ⟨su, hsu, -⟩ := hb.2 u hu
      exact hn u (by rw [hsu]; rfl))
    obtain ⟨sv', r1, r2⟩ := ht0.length
    rw [k1] at r1
    have := Option.some.inj r1
    subst this
    obtain ⟨w, sw, p, l1, l2, l3, l4⟩ := h.leaf_above hq hn (n - sv.length) k1 (by omega)
    exact ⟨p, (h2 p).mpr ⟨w, sw, l1, l2, Or.inl hks, l3⟩, l4⟩

/-- C24 with an element limit: without shorter paths all paths have exactly the requested number of
elements (but at least one), with shorter paths at most that number. -/
theorem possiblePaths_elements {g : Graph K} {n start : Nat} (hg : GraphOk g n) (hs : start < n)
    {pick : Nat → (Nat → K) → List Nat → Nat} (hpick : PickMin pick) (backw keepShorter : Bool)
    (limit : Nat) {paths : List (List Nat)}
    (hr : possiblePathsImpl g n pick backw keepShorter start (stopIfLaneletsMoreThan false limit) =
      some (paths.map (render backw))) :
    (∀ p ∈ paths, p.length ≤ max limit 1 ∧ (keepShorter = false → p.length = max limit 1)) ∧
    (keepShorter = true → ∀ e ∈ g start, 2 ≤ limit → ∃ p ∈ paths, e.dst ∈ p) := by
  obtain ⟨s, paths', h, hq, hp, hn, h1, h2, h3⟩ :=
    possiblePaths_core hg hs hpick backw keepShorter (stopIfLaneletsMoreThan false limit)
  rw [hr] at h1
  have := map_render_injective backw (Option.some.inj h1)
  subst this
  have hpD : ∀ v sv, s.map v = some sv → (sv.predicate = true ↔ sv.length < limit) := by
    intro v sv hv; rw [hp v sv hv]; simp [stopIfLaneletsMoreThan]
  have hlen : ∀ {v sv p}, s.map v = some sv → TreePath s.map v p → p.length = sv.length := by
    intro v sv p hv ht
    obtain ⟨sv', r1, r2⟩ := ht.length
    rw [hv] at r1
    have := Option.some.inj r1
    subst this
    exact r2.symm
  have hub : ∀ v sv, s.map v = some sv → sv.length ≤ max limit 1 := by
    intro v sv hv
    rcases h.tree v sv hv with ⟨-, -, -, t4, -⟩ | ⟨-, -, -, su, e, c1, c2, -, -, -, c6, -⟩
    · omega
    · have := (hpD _ su c1).mp c2
      omega
  constructor
  · intro p hpp
    obtain ⟨v, sv, hv, hl, hk, ht⟩ := (h2 p).mp hpp
    rw [hlen hv ht]
    refine ⟨hub v sv hv, ?_⟩
    intro hks
    rw [hks] at hk
    have hk : sv.predicate = false := by simpa using hk
    have h4 : ¬ sv.length < limit := by rw [← hpD v sv hv, hk]; simp
    have h5 := hub v sv hv
    have h6 : 1 ≤ sv.length := by
      rw [← hlen hv ht]
      exact List.length_pos_iff.mpr ht.ne_nil
    omega
  · intro hks e he h2l
    obtain ⟨st, r1, -⟩ := h.start_state
    have hst1 : st.length = 1 := by
      rcases h.tree _ _ r1 with ⟨-, -, -, t4, -⟩ | ⟨t1, -⟩
      · exact t4
      · exact absurd rfl t1
    have hw : Walk g (Accepted s.visits) start (Cost.add Cost.zero e.cost) e.dst := by
      refine .snoc .nil ?_ he
      refine (h.accepted_iff _).mpr ⟨mem_seen.mpr ⟨_, h.visit_of_map hq r1, rfl⟩, st, r1, ?_⟩
      rw [hpD _ _ r1]; omega
    obtain ⟨sv, k1, -⟩ := h.walk_le hq hw
    obtain ⟨p0, ht0, -, -⟩ := h.treePath _ k1 rfl
    have hb := ht0.bound
    have hlen' := nodup_length_le n hb.1 (by
      intro u hu
      obtain ⟨su, hsu, -⟩ := hb.2 u hu
      exact hn u (by rw [hsu]; rfl))
    rw [hlen k1 ht0] at hlen'
    obtain ⟨w, sw, p, l1, l2, l3, l4⟩ := h.leaf_above hq hn (n - sv.length) k1 (by omega)
    exact ⟨p, (h2 p).mpr ⟨w, sw, l1, l2, Or.inl hks, l3⟩, l4⟩

/-- C24: the query is rejected exactly if neither limit is given. -/
theorem possiblePaths_invalid_iff (g : Graph K) (n : Nat) (pick : Nat → (Nat → K) → List Nat → Nat)
    (backw : Bool) (start : Nat) (p : PossiblePathsParams K) :
    (∃ e, possiblePaths g n pick backw start p = .error e) ↔
      p.routingCostLimit = none ∧ p.elementLimit = none := by
  obtain ⟨c, l, s⟩ := p
  cases c <;> cases l <;> simp [possiblePaths, stopCriterion, bind, Except.bind, pure, Except.pure]

/-- Case: paths with a cost of at least 2 from vertex 0 of the example graph exist; vertex 1 costs 2. -/
example : ∃ paths : List (List Nat), possiblePathsImpl exG 6 exPick false false 0 (stopIfCostMoreThan false 2) =
    some (paths.map (render false)) ∧ ∃ p ∈ paths, p.getLast? = some 1 := by
  obtain ⟨paths, h1, -⟩ := possiblePaths_general exG_ok (start := 0) (by decide) exPick_min false false
    (stopIfCostMoreThan false 2)
  refine ⟨paths, h1, ?_⟩
  obtain ⟨-, -, h, -⟩ := possiblePaths_cost exG_ok (start := 0) (by decide) exPick_min false false 2 h1
  refine h 1 2 (.snoc (c := 0) (u := 0) (e := ⟨1, 2, .successor⟩) .nil ⟨0, .nil, by decide⟩
    (by simp [exG])) ?_
  have key : ∀ c v, Walk exG (Below exG 0 2) 0 c v → (v = 1 → (2 : Nat) ≤ c) ∧ (v = 2 → (1 : Nat) ≤ c) := by
    intro c v hw
    induction hw with
    | nil => decide
    | snoc hw ha he ih =>
      rename_i c u e
      have h4 : ∀ u < 4, ∀ e ∈ exG u, e.dst < 4 := by decide
      have hu : ∀ c v, Walk exG (Below exG 0 2) 0 c v → v < 4 := by
        intro c v hw
        induction hw with
        | nil => decide
        | snoc hw ha he ih => exact h4 _ ih _ he
      have hu := hu _ _ hw
      have he' : (u = 0 ∧ e.dst = 1 ∧ e.cost = 2) ∨ (u = 0 ∧ e.dst = 2 ∧ e.cost = 1) ∨
          (u = 2 ∧ e.dst = 1 ∧ e.cost = 1) ∨ (e.dst ≠ 1 ∧ e.dst ≠ 2) := by
        have : ∀ u < 4, ∀ e ∈ exG u, (u = 0 ∧ e.dst = 1 ∧ e.cost = 2) ∨
          (u = 0 ∧ e.dst = 2 ∧ e.cost = 1) ∨
          (u = 2 ∧ e.dst = 1 ∧ e.cost = 1) ∨ (e.dst ≠ 1 ∧ e.dst ≠ 2) := by decide
        exact this u hu e he
      show (_ → 2 ≤ c + e.cost) ∧ (_ → 1 ≤ c + e.cost)
      rcases he' with ⟨-, h2, h3⟩ | ⟨-, h2, h3⟩ | ⟨h1, h2, h3⟩ | ⟨h1, h2⟩
      · exact ⟨fun _ => by omega, fun h => by omega⟩
      · exact ⟨fun h => by omega, fun h => by omega⟩
      · have := ih.2 h1
        exact ⟨fun _ => by omega, fun h => by omega⟩
      · exact ⟨fun h => absurd h h1, fun h => absurd h h2⟩
  intro c' hw
  exact (key c' 1 hw).1 rfl

/-! ### backward queries -/

theorem mem_reverse {g : Graph K} {n v : Nat} {e : Edge K} :
    e ∈ reverse g n v ↔ e.dst < n ∧ ⟨v, e.cost, e.rel⟩ ∈ g e.dst := by
  simp only [reverse, List.mem_flatMap, List.mem_range, List.mem_filterMap]
  constructor
  · rintro ⟨u, hu, e', he', h⟩
    split at h
    · rename_i hd
      have := Option.some.inj h
      subst this
      subst hd
      exact ⟨hu, he'⟩
    · simp at h
  · rintro ⟨h1, h2⟩
    exact ⟨e.dst, h1, _, h2, by simp⟩

theorem reverse_ok {g : Graph K} {n : Nat} (hg : GraphOk g n) : GraphOk (reverse g n) n := by
  constructor
  · intro v hv e he; exact (mem_reverse.mp he).1
  · intro v e he; exact hg.cost _ ⟨v, e.cost, e.rel⟩ (mem_reverse.mp he).2

/-- A path `p` of `g`, with costs accumulated from its end to its beginning. -/
inductive PathCostTo (g : Graph K) : List Nat → K → Prop where
  | single (v : Nat) : PathCostTo g [v] Cost.zero
  | cons {p : List Nat} {c : K} {u v : Nat} {e : Edge K} : PathCostTo g p c → p.head? = some v →
      e ∈ g u → e.dst = v → PathCostTo g (u :: p) (Cost.add c e.cost)

/-- Paths of the reversed graph are the reversed paths of the graph. -/
theorem pathCost_reverse {g : Graph K} {n : Nat} {p : List Nat} {c : K}
    (h : PathCost (reverse g n) p c) : PathCostTo g p.reverse c := by
  induction h with
  | single v => exact .single v
  | snoc hp hl he ih =>
    rename_i p c u e
    obtain ⟨-, he⟩ := mem_reverse.mp he
    rw [List.reverse_append]
    exact PathCostTo.cons (e := ⟨u, e.cost, e.rel⟩) ih (by simpa using hl) he rfl

theorem pathCost_of_reverse {g : Graph K} {n : Nat} {p : List Nat} {c : K}
    (h : PathCostTo g p c) (hn : ∀ v ∈ p, v < n) : PathCost (reverse g n) p.reverse c := by
  induction h with
  | single v => exact .single v
  | cons hp hl he hd ih =>
    rename_i p c u v e
    have ih := ih (fun w hw => hn w (List.mem_cons_of_mem _ hw))
    rw [List.reverse_cons]
    have : (⟨u, e.cost, e.rel⟩ : Edge K) ∈ reverse g n v := by
      rw [mem_reverse]
      refine ⟨hn u (by simp), ?_⟩
      subst hd
      exact he
    exact PathCost.snoc (e := ⟨u, e.cost, e.rel⟩) ih (by simpa using hl) this

/-- C22 backwards: `reachableSetTowards` lists exactly the vertices from which the target can be reached
with a cost of at most the limit (costs summed up from the target backwards). -/
theorem reachableSetTowards_spec {g : Graph K} {n target : Nat} (hg : GraphOk g n) (hs : target < n)
    {pick : Nat → (Nat → K) → List Nat → Nat} (hpick : PickMin pick) (limit : K) :
    ∃ r, reachableSetImpl (reverse g n) n pick target (stopIfCostMoreThan true limit) = some r ∧
      r.Nodup ∧ ∀ v, v ∈ r ↔ ∃ p c, PathCostTo g p c ∧ (∀ u ∈ p, u < n) ∧ p.head? = some v ∧
        p.getLast? = some target ∧ Cost.le c limit := by
  obtain ⟨r, h1, h2, h3⟩ := reachableSet_spec (reverse_ok hg) hs hpick limit
  refine ⟨r, h1, h2, ?_⟩
  intro v
  rw [h3]
  constructor
  · rintro ⟨c, hw, hc⟩
    obtain ⟨p, k1, k2, k3⟩ := hw.path
    refine ⟨p.reverse, c, pathCost_reverse k1, ?_, by simpa using k3, by simpa using k2, hc⟩
    have : ∀ {p : List Nat} {c : K}, PathCost (reverse g n) p c → p.head? = some target → ∀ u ∈ p, u < n := by
      intro p c hp
      induction hp with
      | single v =>
        intro ht u hu
        simp only [List.head?_cons, Option.some.injEq] at ht
        simp only [List.mem_singleton] at hu
        omega
      | snoc hp hl he ih =>
        rename_i p c u e
        intro ht w hw
        simp only [List.mem_append, List.mem_singleton] at hw
        rcases hw with hw | hw
        · refine ih ?_ w hw
          cases p with
          | nil => simp at hl
          | cons a p => simpa using ht
        · rw [hw]; exact (mem_reverse.mp he).1
    intro u hu
    exact this k1 k2 u (by simpa using hu)
  · rintro ⟨p, c, k1, k2, k3, k4, hc⟩
    exact ⟨c, (pathCost_of_reverse k1 k2).walk (by simpa using k4) (by simpa using k3), hc⟩

/-- C24 backwards: the returned paths lead to the target and are given in driving direction. -/
theorem possiblePathsTowards_general {g : Graph K} {n target : Nat} (hg : GraphOk g n)
    (hs : target < n) {pick : Nat → (Nat → K) → List Nat → Nat} (hpick : PickMin pick)
    (keepShorter : Bool) (f : VisitInfo K → Bool) :
    ∃ paths : List (List Nat),
      possiblePathsImpl (reverse g n) n pick true keepShorter target f =
        some (paths.map fun p => p.map some) ∧
      (∀ p ∈ paths, (∃ c, PathCostTo g p c) ∧ p.getLast? = some target ∧ p.Nodup) ∧
      paths.Pairwise (fun p q => p.head? ≠ q.head?) ∧
      (∀ p ∈ paths, ∀ q ∈ paths, p <:+ q → p = q) := by
  obtain ⟨paths, h1, h2, h3, h4⟩ :=
    possiblePaths_general (reverse_ok hg) hs hpick true keepShorter f
  refine ⟨paths.map List.reverse, ?_, ?_, ?_, ?_⟩
  · rw [h1, List.map_map]; rfl
  · intro p hp
    obtain ⟨q, hq, rfl⟩ := List.mem_map.mp hp
    obtain ⟨⟨c, k1⟩, k2, k3⟩ := h2 q hq
    exact ⟨⟨c, pathCost_reverse k1⟩, by simpa using k2, (List.reverse_perm q).nodup_iff.mpr k3⟩
  · rw [List.pairwise_map]
    refine h3.imp ?_
    intro a b hab
    simpa using hab
  · intro p hp q hq hpq
    obtain ⟨p', hp', rfl⟩ := List.mem_map.mp hp
    obtain ⟨q', hq', rfl⟩ := List.mem_map.mp hq
    rw [h4 p' hp' q' hq' (by simpa using hpq)]

/-! ### C25 shortestPathVia -/

/-- A chain of legs: `legs` are the shortest paths between successive points. -/
def Legs (sp : Nat → Nat → Option (List Nat)) : List Nat → List (List Nat) → Prop
  | a :: b :: rest, leg :: legs => sp a b = some leg ∧ Legs sp (b :: rest) legs
  | [_], [] => True
  | _, _ => False

/-- the legs joined at their common points -/
def joined : List (List Nat) → List Nat
  | [] => []
  | leg :: legs => leg ++ legs.flatMap (List.drop 1)

theorem viaLoop_acc (sp : Nat → Nat → Option (List Nat)) (pts path : List Nat) (hp : path ≠ [])
    (hne : pts ≠ []) (r : List Nat) :
    viaLoop sp pts path = some r ↔
      ∃ legs, Legs sp pts legs ∧ r = path ++ legs.flatMap (List.drop 1) := by
  induction pts generalizing path with
  | nil => exact absurd rfl hne
  | cons a rest ih =>
    cases rest with
    | nil =>
      simp only [viaLoop, Option.some.injEq]
      constructor
      · rintro rfl; exact ⟨[], trivial, by simp⟩
      · rintro ⟨legs, hl, rfl⟩
        cases legs with
        | nil => simp
        | cons => simp [Legs] at hl
    | cons b rest =>
      rw [viaLoop]
      cases hsp : sp a b with
      | none =>
        simp only [reduceCtorEq, false_iff]
        rintro ⟨legs, hl, -⟩
        cases legs with
        | nil => simp [Legs] at hl
        | cons leg legs => simp [Legs, hsp] at hl
      | some leg =>
        simp only
        rw [if_neg (by simp [hp]), ih _ (by simp [hp]) (by simp)]
        constructor
        · rintro ⟨legs, hl, rfl⟩
          exact ⟨leg :: legs, ⟨hsp, hl⟩, by simp⟩
        · rintro ⟨legs, hl, rfl⟩
          cases legs with
          | nil => simp [Legs] at hl
          | cons leg' legs =>
            simp only [Legs, hsp, Option.some.injEq] at hl
            obtain ⟨rfl, hl⟩ := hl
            exact ⟨legs, hl, by simp⟩

/-- C25: a path is returned exactly if all legs start → via₁ → … → target exist, and it consists of the
shortest paths of the legs, joined at the via points. (`hsp`: paths found by `shortestPath` are not empty.) -/
theorem shortestPathVia_spec (sp : Nat → Nat → Option (List Nat)) (hsp : ∀ a b p, sp a b = some p → p ≠ [])
    (start target : Nat) (via r : List Nat) :
    shortestPathVia sp start via target = some r ↔
      ∃ legs, Legs sp (start :: via ++ [target]) legs ∧ r = joined legs := by
  have hpts : ∃ b rest, via ++ [target] = b :: rest := by
    cases via with
    | nil => exact ⟨target, [], rfl⟩
    | cons b via => exact ⟨b, via ++ [target], rfl⟩
  obtain ⟨b, rest, hb⟩ := hpts
  have hpts' : [start] ++ via ++ [target] = start :: b :: rest := by simp [hb]
  have hpts'' : start :: via ++ [target] = start :: b :: rest := by simp [hb]
  rw [shortestPathVia, hpts', hpts'', viaLoop]
  cases hab : sp start b with
  | none =>
    simp only [reduceCtorEq, false_iff]
    rintro ⟨legs, hl, -⟩
    cases legs with
    | nil => simp [Legs] at hl
    | cons leg legs => simp [Legs, hab] at hl
  | some leg =>
    have hne := hsp _ _ _ hab
    simp only
    rw [if_pos ⟨hne, trivial⟩]
    obtain ⟨x, leg', rfl⟩ : ∃ x l, leg = x :: l := by
      cases leg with
      | nil => exact absurd rfl hne
      | cons x l => exact ⟨x, l, rfl⟩
    rw [viaLoop_acc _ _ _ (by simp) (by simp)]
    constructor
    · rintro ⟨legs, hl, rfl⟩
      exact ⟨(x :: leg') :: legs, ⟨hab, hl⟩, by simp [joined]⟩
    · rintro ⟨legs, hl, rfl⟩
      cases legs with
      | nil => simp [Legs] at hl
      | cons l legs =>
        simp only [Legs, hab, Option.some.injEq] at hl
        obtain ⟨rfl, hl⟩ := hl
        exact ⟨legs, hl, by simp [joined]⟩

/-- the shortest path query as a function to lists of vertices -/
def spOf (g : Graph K) (pick : Nat → (Nat → K) → List Nat → Nat) (a b : Nat) : Option (List Nat) :=
  match shortestPathImpl g pick a b with
  | some (some p) => allSome p
  | _ => none

theorem allSome_some {α : Type} (p : List α) : allSome (p.map some) = some p := by
  have := allSome_map_some p id
  simpa using this

theorem spOf_spec {g : Graph K} {n a b : Nat} (hg : GraphOk g n) (ha : a < n)
    {pick : Nat → (Nat → K) → List Nat → Nat} (hpick : PickMin pick) :
    (spOf g pick a b = none ∧ ∀ c, ¬ AnyWalk g a c b) ∨
    (∃ p c, spOf g pick a b = some p ∧ PathCost g p c ∧ p.head? = some a ∧ p.getLast? = some b ∧
      ∀ c', AnyWalk g a c' b → Cost.le c c') := by
  rcases shortestPath_spec (target := b) hg ha hpick with ⟨h1, h2⟩ | ⟨p, c, h1, h2, h3, h4, -, h5⟩
  · exact Or.inl ⟨by simp [spOf, h1], h2⟩
  · exact Or.inr ⟨p, c, by simp [spOf, h1, allSome_some], h2, h3, h4, h5⟩

/-- legs exist iff all successive points are connected -/
theorem legs_exist_iff {g : Graph K} {n : Nat} (hg : GraphOk g n)
    {pick : Nat → (Nat → K) → List Nat → Nat} (hpick : PickMin pick) (pts : List Nat)
    (hpts : ∀ v ∈ pts, v < n) (hne : pts ≠ []) :
    (∃ legs, Legs (spOf g pick) pts legs) ↔
      ∀ pre a b post, pts = pre ++ a :: b :: post → ∃ c, AnyWalk g a c b := by
  induction pts with
  | nil => exact absurd rfl hne
  | cons a rest ih =>
    cases rest with
    | nil =>
      constructor
      · intro _ pre x y post h
        have := congrArg List.length h
        simp at this
        omega
      · intro _; exact ⟨[], trivial⟩
    | cons b rest =>
      have ih := ih (fun v hv => hpts v (List.mem_cons_of_mem _ hv)) (by simp)
      constructor
      · rintro ⟨legs, hl⟩ pre x y post h
        cases legs with
        | nil => simp [Legs] at hl
        | cons leg legs =>
          cases pre with
          | nil =>
            simp only [List.nil_append, List.cons.injEq] at h
            obtain ⟨rfl, rfl, rfl⟩ := h
            rcases spOf_spec (b := b) hg (hpts a (by simp)) hpick with ⟨h1, -⟩ | ⟨p, c, -, h2, h3, h4, -⟩
            · rw [hl.1] at h1; simp at h1
            · exact ⟨c, h2.walk h3 h4⟩
          | cons z pre =>
            simp only [List.cons_append, List.cons.injEq] at h
            exact ih.mp ⟨legs, hl.2⟩ pre x y post h.2
      · intro h
        obtain ⟨legs, hl⟩ := ih.mpr (fun pre x y post heq => h (a :: pre) x y post (by rw [heq]; rfl))
        obtain ⟨c, hw⟩ := h [] a b rest rfl
        rcases spOf_spec (b := b) hg (hpts a (by simp)) hpick with ⟨-, h2⟩ | ⟨p, c, h1, -⟩
        · exact absurd hw (h2 c)
        · exact ⟨p :: legs, h1, hl⟩

theorem PathCost.single_iff {g : Graph K} {p : List Nat} {c : K} (h : PathCost g p c) : p ≠ [] := by
  cases h <;> simp

/-- C25: `shortestPathVia` returns a path exactly if every leg is connected. -/
theorem shortestPathVia_exists_iff {g : Graph K} {n : Nat} (hg : GraphOk g n)
    {pick : Nat → (Nat → K) → List Nat → Nat} (hpick : PickMin pick) (start target : Nat)
    (via : List Nat) (hn : ∀ v ∈ start :: via ++ [target], v < n) :
    (∃ r, shortestPathVia (spOf g pick) start via target = some r) ↔
      ∀ pre a b post, start :: via ++ [target] = pre ++ a :: b :: post → ∃ c, AnyWalk g a c b := by
  rw [← legs_exist_iff hg hpick _ hn (by simp)]
  constructor
  · rintro ⟨r, hr⟩
    by_cases hsp : ∀ a b p, spOf g pick a b = some p → p ≠ []
    · obtain ⟨legs, hl, -⟩ := (shortestPathVia_spec _ hsp start target via r).mp hr
      exact ⟨legs, hl⟩
    · -- vertices outside of the graph do not occur
      obtain ⟨legs, hl⟩ : ∃ legs, Legs (spOf g pick) (start :: via ++ [target]) legs := by
        have : ∀ pts path r, pts ≠ [] → viaLoop (spOf g pick) pts path = some r →
            ∃ legs, Legs (spOf g pick) pts legs := by
          intro pts
          induction pts with
          | nil => intro _ _ h; exact absurd rfl h
          | cons a rest ih =>
            intro path r _ h
            cases rest with
            | nil => exact ⟨[], trivial⟩
            | cons b rest =>
              rw [viaLoop] at h
              cases hab : spOf g pick a b with
              | none => rw [hab] at h; simp at h
              | some leg =>
                rw [hab] at h
                simp only at h
                obtain ⟨legs, hl⟩ := ih _ _ (by simp) h
                exact ⟨leg :: legs, hab, hl⟩
        exact this _ [] r (by simp) (by simpa [shortestPathVia] using hr)
      exact ⟨legs, hl⟩
  · rintro ⟨legs, hl⟩
    have : ∀ pts path legs, Legs (spOf g pick) pts legs →
        ∃ r, viaLoop (spOf g pick) pts path = some r := by
      intro pts
      induction pts with
      | nil => intro path legs h; cases legs <;> simp [Legs] at h
      | cons a rest ih =>
        intro path legs h
        cases rest with
        | nil => exact ⟨path, by simp [viaLoop]⟩
        | cons b rest =>
          cases legs with
          | nil => simp [Legs] at h
          | cons leg legs =>
            rw [viaLoop, h.1]
            exact ih _ legs h.2
    obtain ⟨r, hr⟩ := this _ [] legs hl
    exact ⟨r, by simpa [shortestPathVia] using hr⟩

/-- C25: each leg of the returned path is optimal and the legs join at the via points. -/
theorem shortestPathVia_legs {g : Graph K} {n : Nat} (hg : GraphOk g n)
    {pick : Nat → (Nat → K) → List Nat → Nat} (hpick : PickMin pick) (start target : Nat)
    (via r : List Nat) (hn : ∀ v ∈ start :: via ++ [target], v < n)
    (hr : shortestPathVia (spOf g pick) start via target = some r) :
    ∃ legs : List (List Nat), legs.length = via.length + 1 ∧ r = joined legs ∧
      ∀ i (hi : i < legs.length), ∃ a b c, (start :: via ++ [target])[i]? = some a ∧
        (start :: via ++ [target])[i + 1]? = some b ∧ PathCost g legs[i] c ∧
        legs[i].head? = some a ∧ legs[i].getLast? = some b ∧
        ∀ c', AnyWalk g a c' b → Cost.le c c' := by
  -- restrict the query to vertices of the graph, for which paths are never empty
  let sp : Nat → Nat → Option (List Nat) := fun a b => if a < n then spOf g pick a b else none
  have hsp : ∀ a b p, sp a b = some p → p ≠ [] := by
    intro a b p h
    simp only [sp] at h
    split at h
    · rename_i ha
      rcases spOf_spec (b := b) hg ha hpick with ⟨h1, -⟩ | ⟨p', c, h1, h2, -⟩
      · rw [h] at h1; simp at h1
      · rw [h] at h1
        have := Option.some.inj h1
        subst this
        exact h2.single_iff
    · simp at h
  have hsame : ∀ pts path, (∀ v ∈ pts, v < n) →
      viaLoop (spOf g pick) pts path = viaLoop sp pts path := by
    intro pts
    induction pts with
    | nil => intro _ _; simp [viaLoop]
    | cons a rest ih =>
      intro path h
      cases rest with
      | nil => simp [viaLoop]
      | cons b rest =>
        rw [viaLoop, viaLoop]
        have : sp a b = spOf g pick a b := by simp [sp, h a (by simp)]
        rw [this]
        cases spOf g pick a b with
        | none => rfl
        | some leg => exact ih _ (fun v hv => h v (List.mem_cons_of_mem _ hv))
  have hr' : shortestPathVia sp start via target = some r := by
    rw [← hr]
    exact (hsame _ _ (by simpa using hn)).symm
  obtain ⟨legs, hl, hrj⟩ := (shortestPathVia_spec sp hsp start target via r).mp hr'
  have key : ∀ (pts : List Nat) (legs : List (List Nat)), Legs sp pts legs →
      legs.length + 1 = pts.length ∧
      ∀ i (hi : i < legs.length), ∃ a b c, pts[i]? = some a ∧
        pts[i + 1]? = some b ∧ PathCost g legs[i] c ∧
        legs[i].head? = some a ∧ legs[i].getLast? = some b ∧
        ∀ c', AnyWalk g a c' b → Cost.le c c' := by
    intro pts
    induction pts with
    | nil => intro legs h; cases legs <;> simp [Legs] at h
    | cons a rest ih =>
      intro legs h
      cases rest with
      | nil =>
        cases legs with
        | nil => simp
        | cons => simp [Legs] at h
      | cons b rest =>
        cases legs with
        | nil => simp [Legs] at h
        | cons leg legs =>
          obtain ⟨h1, h2⟩ := h
          obtain ⟨k1, k2⟩ := ih legs h2
          refine ⟨by simp only [List.length_cons] at k1 ⊢; omega, ?_⟩
          intro i hi
          cases i with
          | zero =>
            simp only [sp] at h1
            split at h1
            · rename_i ha
              rcases spOf_spec (b := b) hg ha hpick with ⟨h3, -⟩ | ⟨p', c, h3, h4, h5, h6, h7⟩
              · rw [h1] at h3; simp at h3
              · rw [h1] at h3
                have := Option.some.inj h3
                subst this
                exact ⟨a, b, c, rfl, rfl, h4, h5, h6, h7⟩
            · simp at h1
          | succ i =>
            obtain ⟨x, y, c, q⟩ := k2 i (by simpa using hi)
            exact ⟨x, y, c, by simpa using q⟩
  obtain ⟨k1, k2⟩ := key _ legs hl
  exact ⟨legs, by simp at k1; omega, hrj, k2⟩

/-- Case: via point 2 on the way from 0 to 3. -/
example : ∃ r, shortestPathVia (spOf exG exPick) 0 [2] 3 = some r := by
  rw [shortestPathVia_exists_iff exG_ok exPick_min 0 3 [2] (by decide)]
  intro pre a b post h
  have w02 : AnyWalk exG 0 1 2 :=
    .snoc (c := 0) (u := 0) (e := ⟨2, 1, .left⟩) .nil trivial (by simp [exG])
  have w23 : AnyWalk exG 2 1 3 :=
    .snoc (c := 1) (u := 1) (e := ⟨3, 0, .successor⟩)
      (.snoc (c := 0) (u := 2) (e := ⟨1, 1, .right⟩) .nil trivial (by simp [exG]))
      trivial (by simp [exG])
  match pre, h with
  | [], h =>
    simp at h; obtain ⟨rfl, rfl, -⟩ := h; exact ⟨1, w02⟩
  | [_], h =>
    simp at h; obtain ⟨-, rfl, rfl, -⟩ := h; exact ⟨1, w23⟩
  | _ :: _ :: pre, h =>
    have := congrArg List.length h
    simp at this
    omega

end Verif.Search
