import Verif.Graph.Props
import Mathlib.Tactic.ByContra

/-!
C55: RoutingGraph::checkValidity.
-/
namespace Verif.Graph
open RelationType

variable {P K : Type} [DecidableEq P]

/-! ### model -/

/-- kinds of messages of checkValidity; `kind` is the relation the message is about; RoutingGraph.cpp 855-920 -/
inductive VErr (P : Type) where
  | moreThanOne (kind : RelationType) (p : P)
  | both (kind : RelationType) (p : P)
  | noBack (kind : RelationType) (p q : P)
  | notClosest (kind : RelationType) (p q : P)

/-- neighboringLaneletImpl with throwOnError, RoutingGraph.cpp 106-130 -/
def RGraph.neighbourChecked (g : RGraph P K) (isLanelet : P → Bool) (rel : RelationType) (p : P) : Except Unit (Option P) :=
  match g.getVertex p with
  | none => .ok none
  | some v => if 1 < (g.outEdges 0 rel v).length then .error () else .ok (g.neighbour isLanelet 0 rel p)

/-- the try block of checkValidity, RoutingGraph.cpp 863-875, 903-914: messages and the neighbour -/
def RGraph.tryNeighbour (g : RGraph P K) (isLanelet : P → Bool) (rel : RelationType) (p : P) : List (VErr P) × Option P :=
  match g.neighbourChecked isLanelet rel p with
  | .error _ => ([.moreThanOne rel p], none)
  | .ok n => ([], n)

/-- RoutingGraph.cpp 880-890, 891-901, 919-929, 930-940. `none` is a call that does not return. -/
def mirrorErr (isLanelet : P → Bool) (back : P → Option (List (P × RelationType))) (kind : RelationType) (p : P) :
    Option P → Option (List (VErr P))
  | none => some []
  | some q =>
    match back q with
    | none => none
    | some [] => some [.noBack kind p q]
    | some (r :: _) => if isLanelet p = true ∧ r.1 = p then some [] else some [.notClosest kind p q]

/-- one side of checkValidity, RoutingGraph.cpp 862-901 or 902-940 -/
def RGraph.checkSide (g : RGraph P K) (isLanelet : P → Bool) (a b : RelationType) (back : P → Option (List (P × RelationType))) (p : P) :
    Option (List (VErr P)) := do
  let na := g.tryNeighbour isLanelet a p
  let nb := g.tryNeighbour isLanelet b p
  let ma ← mirrorErr isLanelet back a p na.2
  let mb ← mirrorErr isLanelet back b p nb.2
  return na.1 ++ nb.1 ++ (if na.2.isSome && nb.2.isSome then [.both a p] else []) ++ ma ++ mb

/-- one pass of the loop; RoutingGraph.cpp 855-920 -/
def RGraph.checkVertex (g : RGraph P K) (isLanelet : P → Bool) (p : P) : Option (List (VErr P)) := do
  let l ← g.checkSide isLanelet left adjacentLeft (g.rightRelations isLanelet 0) p
  let r ← g.checkSide isLanelet right adjacentRight (g.leftRelations isLanelet 0) p
  return l ++ r

/-- checkValidity(false), RoutingGraph.cpp 855-951; `order` is the iteration order of the vertex lookup -/
def RGraph.checkValidity (g : RGraph P K) (isLanelet : P → Bool) : List P → Option (List (VErr P))
  | [] => some []
  | p :: order => do
    let e ← g.checkVertex isLanelet p
    let es ← RGraph.checkValidity g isLanelet order
    return e ++ es

/-! ### specification -/

/-- the lanelets and areas that `p` has the relation to (cost module 0) -/
def nbrs (g : RGraph P K) (rel : RelationType) (p : P) : List P := g.getAllEdges 0 rel p true

/-- What makes the neighbour relations of a graph consistent. Specification. -/
structure Consistent (g : RGraph P K) (isLanelet : P → Bool) : Prop where
  /-- at most one neighbour of each kind -/
  unique : ∀ p ∈ g.vertices, ∀ rel ∈ [left, adjacentLeft, right, adjacentRight], (nbrs g rel p).length ≤ 1
  /-- a lane change is either possible or not -/
  leftKind : ∀ p ∈ g.vertices, ¬ ((∃ q ∈ nbrs g left p, isLanelet q = true) ∧ ∃ q ∈ nbrs g adjacentLeft p, isLanelet q = true)
  rightKind : ∀ p ∈ g.vertices, ¬ ((∃ q ∈ nbrs g right p, isLanelet q = true) ∧ ∃ q ∈ nbrs g adjacentRight p, isLanelet q = true)
  /-- neighbours are mutual -/
  leftMirror : ∀ p ∈ g.vertices, ∀ q, isLanelet q = true → q ∈ nbrs g left p ++ nbrs g adjacentLeft p →
    isLanelet p = true ∧ p ∈ nbrs g right q ++ nbrs g adjacentRight q
  rightMirror : ∀ p ∈ g.vertices, ∀ q, isLanelet q = true → q ∈ nbrs g right p ++ nbrs g adjacentRight p →
    isLanelet p = true ∧ p ∈ nbrs g left q ++ nbrs g adjacentLeft q

/-! ### proofs -/

section
variable {g : RGraph P K} {isLanelet : P → Bool}

/-- edges lead to vertices; Specification. -/
def EdgesOk (g : RGraph P K) : Prop := ∀ e ∈ g.edges, e.src < g.vertices.length ∧ e.dst < g.vertices.length

/-- every graph that was built has it -/
theorem built_edgesOk {t : CostTests K} (h : Built t g) : EdgesOk g := fun e he => ⟨(built_wf h).src e he, (built_wf h).dst e he⟩

theorem nbrs_length (ho : EdgesOk g) {rel : RelationType} {p : P} {v : Nat} (hv : g.getVertex p = some v) :
    (nbrs g rel p).length = (g.outEdges 0 rel v).length := by
  unfold nbrs RGraph.getAllEdges
  simp only [hv, if_true]
  have : ∀ e ∈ g.outEdges 0 rel v, ∃ q, g.vertices[e.dst]? = some q := by
    intro e he
    have := (ho e (List.mem_filter.mp he).1).2
    exact ⟨_, List.getElem?_eq_getElem this⟩
  generalize g.outEdges 0 rel v = l at this
  induction l with
  | nil => rfl
  | cons e l ih =>
    obtain ⟨q, hq⟩ := this e (by simp)
    simp only [List.filterMap_cons, hq, List.length_cons]
    rw [ih fun x hx => this x (by simp [hx])]

/-- with at most one neighbour the neighbour is the lanelet among them -/
theorem neighbour_unique (ho : EdgesOk g) {rel : RelationType} {p : P} (h1 : (nbrs g rel p).length ≤ 1) (q : P) :
    g.neighbour isLanelet 0 rel p = some q ↔ q ∈ nbrs g rel p ∧ isLanelet q = true := by
  unfold RGraph.neighbour
  cases hv : g.getVertex p with
  | none => simp [nbrs, RGraph.getAllEdges, hv]
  | some v =>
    rw [nbrs_length ho hv] at h1
    simp only [nbrs, RGraph.getAllEdges, hv, if_true]
    have hmem : ∀ e ∈ g.outEdges 0 rel v, e ∈ g.edges := fun e he => (List.mem_filter.mp he).1
    match hl : g.outEdges 0 rel v, h1 with
    | [], _ => simp
    | [e], _ =>
      have hd := (ho e (hmem e (by rw [hl]; simp))).2
      simp only [List.getElem?_eq_getElem hd, List.filterMap_cons, List.filterMap_nil, List.mem_singleton]
      by_cases hq : isLanelet g.vertices[e.dst] = true
      · rw [if_pos hq]
        constructor
        · intro h; cases h; exact ⟨rfl, hq⟩
        · rintro ⟨rfl, -⟩; rfl
      · rw [if_neg hq]
        constructor
        · intro h; cases h
        · rintro ⟨rfl, h⟩; exact absurd h hq
    | _ :: _ :: _, h1 => simp at h1

theorem tryNeighbour_ok (ho : EdgesOk g) {rel : RelationType} {p : P} (hp : p ∈ g.vertices) :
    ((g.tryNeighbour isLanelet rel p).1 = [] ↔ (nbrs g rel p).length ≤ 1) ∧
      ((nbrs g rel p).length ≤ 1 → (g.tryNeighbour isLanelet rel p).2 = g.neighbour isLanelet 0 rel p) := by
  have hv : ∃ v, g.getVertex p = some v := by
    unfold RGraph.getVertex
    cases h : g.vertices.findIdx? (· == p) with
    | some v => exact ⟨v, rfl⟩
    | none =>
      rw [List.findIdx?_eq_none_iff] at h
      have := h p hp
      simp at this
  obtain ⟨v, hv⟩ := hv
  unfold RGraph.tryNeighbour RGraph.neighbourChecked
  simp only [hv]
  rw [nbrs_length ho hv]
  split
  · rename_i h
    split at h
    · rename_i h'
      refine ⟨⟨fun h => by simp at h, fun h => by omega⟩, fun h => by omega⟩
    · cases h
  · rename_i n h
    split at h
    · cases h
    · rename_i h'
      cases h
      exact ⟨⟨fun _ => by omega, fun _ => rfl⟩, fun _ => rfl⟩

/-- the first element of the relations is the neighbour of either kind -/
theorem relations_head {α : Type} {nextA nextB : α → Option α} {a b : RelationType} {v : α} {l : List (α × RelationType)}
    (hl : relations nextA nextB a b v = some l) : l.head? = stepEither nextA nextB a b v := by
  rw [relations] at hl
  unfold stepEither
  cases h1 : untilEnd nextA v with
  | none => rw [h1] at hl; simp at hl
  | some as =>
    rw [h1] at hl
    simp only [Option.bind_eq_bind, Option.bind_some] at hl
    have c1 := (untilEnd_iff _ _ _).mp h1
    cases h2 : untilEnd nextB (as.getLast?.getD v) with
    | none => rw [h2] at hl; simp at hl
    | some bs =>
      rw [h2] at hl
      simp only [Option.bind_some] at hl
      have c2 := (untilEnd_iff _ _ _).mp h2
      have tail : ∀ {rest : List (α × RelationType)}, ¬ (as.isEmpty = true ∧ bs.isEmpty = true) →
          (as.map (·, a) ++ bs.map (·, b) ++ rest).head? = match nextA v with | some w => some (w, a) | none => (nextB v).map (·, b) := by
        intro rest hne
        cases c1 with
        | cons hn hc => simp [hn]
        | nil hn =>
          simp only [List.getLast?_nil, Option.getD_none] at c2
          cases c2 with
          | cons hn' hc => simp [hn, hn']
          | nil hn' => simp at hne
      split at hl
      · rename_i he
        cases hl
        simp only [List.isEmpty_iff] at he
        obtain ⟨rfl, rfl⟩ := he
        have e1 := c1.last
        have e2 := c2.last
        simp only [List.getLast?_nil, Option.getD_none] at e1 e2
        simp [e1, e2]
      · rename_i he
        cases h3 : relations nextA nextB a b (bs.getLast?.getD (as.getLast?.getD v)) with
        | none => rw [h3] at hl; simp at hl
        | some rest =>
          rw [h3] at hl
          simp only [Option.pure_def, Option.bind_some, Option.some.injEq] at hl
          subst hl
          exact tail he

theorem checkValidity_split {order : List P} {es : List (VErr P)} (h : g.checkValidity isLanelet order = some es) :
    (∀ p ∈ order, ∃ e, g.checkVertex isLanelet p = some e) ∧ (es = [] ↔ ∀ p ∈ order, g.checkVertex isLanelet p = some []) := by
  induction order generalizing es with
  | nil => cases h; simp
  | cons p order ih =>
    unfold RGraph.checkValidity at h
    cases h1 : g.checkVertex isLanelet p with
    | none => rw [h1] at h; simp at h
    | some e =>
      rw [h1] at h
      cases h2 : g.checkValidity isLanelet order with
      | none => rw [h2] at h; simp at h
      | some es' =>
        rw [h2] at h
        simp only [Option.pure_def, Option.bind_eq_bind, Option.bind_some, Option.some.injEq] at h
        subst h
        obtain ⟨h3, h4⟩ := ih h2
        refine ⟨?_, ?_⟩
        · intro x hx
          rcases List.mem_cons.mp hx with rfl | hx
          · exact ⟨e, h1⟩
          · exact h3 x hx
        · rw [List.append_eq_nil_iff, h4]
          simp only [List.mem_cons, forall_eq_or_imp, h1, Option.some.injEq]

/-- one side without messages; Helper of the proofs. -/
structure SideOk (g : RGraph P K) (isLanelet : P → Bool) (a b a' b' : RelationType) (p : P) : Prop where
  ua : (nbrs g a p).length ≤ 1
  ub : (nbrs g b p).length ≤ 1
  kind : g.neighbour isLanelet 0 a p = none ∨ g.neighbour isLanelet 0 b p = none
  mirror : ∀ q, (g.neighbour isLanelet 0 a p = some q ∨ g.neighbour isLanelet 0 b p = some q) → isLanelet p = true ∧
    ((stepEither (g.neighbour isLanelet 0 a') (g.neighbour isLanelet 0 b') a' b' q).map (·.1)) = some p

theorem mirrorErr_nil {back : P → Option (List (P × RelationType))} {kind : RelationType} {p : P} {n : Option P} {es : List (VErr P)}
    (h : mirrorErr isLanelet back kind p n = some es) :
    es = [] ↔ ∀ q, n = some q → isLanelet p = true ∧ ∃ l, back q = some l ∧ (l.head?.map (·.1)) = some p := by
  unfold mirrorErr at h
  split at h
  · cases h; simp
  · rename_i q
    split at h
    · cases h
    · rename_i hb
      cases h
      simp only [Option.some.injEq, forall_eq', hb, exists_eq_left']
      simp
    · rename_i r l hb
      split at h
      · rename_i hc
        cases h
        simp only [Option.some.injEq, forall_eq', hb, exists_eq_left', List.head?_cons, Option.map_some, true_iff]
        exact hc
      · rename_i hc
        cases h
        simp only [Option.some.injEq, forall_eq', hb, exists_eq_left', List.head?_cons, Option.map_some]
        constructor
        · intro h; cases h
        · intro h; exact absurd h hc

theorem checkSide_nil (ho : EdgesOk g) {a b a' b' : RelationType} {back : P → Option (List (P × RelationType))} {p : P} (hp : p ∈ g.vertices)
    (hback : ∀ q l, back q = some l → l.head? = stepEither (g.neighbour isLanelet 0 a') (g.neighbour isLanelet 0 b') a' b' q)
    {es : List (VErr P)} (h : g.checkSide isLanelet a b back p = some es) : es = [] ↔ SideOk g isLanelet a b a' b' p := by
  obtain ⟨a1, a2⟩ := tryNeighbour_ok (isLanelet := isLanelet) ho (rel := a) hp
  obtain ⟨b1, b2⟩ := tryNeighbour_ok (isLanelet := isLanelet) ho (rel := b) hp
  unfold RGraph.checkSide at h
  simp only at h
  cases h1 : mirrorErr isLanelet back a p (g.tryNeighbour isLanelet a p).2 with
  | none => rw [h1] at h; simp at h
  | some ma =>
    cases h2 : mirrorErr isLanelet back b p (g.tryNeighbour isLanelet b p).2 with
    | none => rw [h1, h2] at h; simp at h
    | some mb =>
      rw [h1, h2] at h
      simp only [Option.pure_def, Option.bind_eq_bind, Option.bind_some, Option.some.injEq] at h
      subst h
      have m1 := mirrorErr_nil h1
      have m2 := mirrorErr_nil h2
      have hdef : ∀ {kind : RelationType} {n : Option P} {es : List (VErr P)} {q : P}, mirrorErr isLanelet back kind p n = some es → n = some q → ∃ l, back q = some l := by
        intro kind n es q h hn
        subst hn
        unfold mirrorErr at h
        simp only at h
        cases hb : back q with
        | none => rw [hb] at h; cases h
        | some l => exact ⟨l, rfl⟩
      simp only [List.append_eq_nil_iff]
      constructor
      · rintro ⟨⟨⟨⟨e1, e2⟩, e3⟩, e4⟩, e5⟩
        have u1 := a1.mp e1
        have u2 := b1.mp e2
        rw [a2 u1] at m1 e3
        rw [b2 u2] at m2 e3
        refine ⟨u1, u2, ?_, ?_⟩
        · by_contra hc
          rw [not_or] at hc
          rw [← ne_eq, ← ne_eq, ← Option.isSome_iff_ne_none, ← Option.isSome_iff_ne_none] at hc
          simp [hc.1, hc.2] at e3
        · rintro q (hq | hq)
          · obtain ⟨hl, l, hb, hh⟩ := m1.mp e4 q hq
            rw [hback q l hb] at hh
            exact ⟨hl, hh⟩
          · obtain ⟨hl, l, hb, hh⟩ := m2.mp e5 q hq
            rw [hback q l hb] at hh
            exact ⟨hl, hh⟩
      · intro hs
        have n1 := a2 hs.ua
        have n2 := b2 hs.ub
        refine ⟨⟨⟨⟨a1.mpr hs.ua, b1.mpr hs.ub⟩, ?_⟩, m1.mpr ?_⟩, m2.mpr ?_⟩
        · rw [n1, n2]
          rcases hs.kind with h | h <;> simp [h]
        · intro q hq
          obtain ⟨l, hb⟩ := hdef h1 hq
          rw [n1] at hq
          obtain ⟨hl, hh⟩ := hs.mirror q (.inl hq)
          exact ⟨hl, l, hb, by rw [hback q l hb]; exact hh⟩
        · intro q hq
          obtain ⟨l, hb⟩ := hdef h2 hq
          rw [n2] at hq
          obtain ⟨hl, hh⟩ := hs.mirror q (.inr hq)
          exact ⟨hl, l, hb, by rw [hback q l hb]; exact hh⟩

theorem step_iff {α : Type} {nextA nextB : α → Option α} {a b : RelationType} {v w : α} (hx : nextA v = none ∨ nextB v = none) :
    ((stepEither nextA nextB a b v).map (·.1)) = some w ↔ nextA v = some w ∨ nextB v = some w := by
  unfold stepEither
  cases hA : nextA v with
  | some x =>
    have hB : nextB v = none := hx.resolve_left (by rw [hA]; simp)
    simp [hB]
  | none => cases hB : nextB v <;> simp

theorem nbr_mem {rel : RelationType} {p q : P} (h : q ∈ nbrs g rel p) : q ∈ g.vertices := by
  unfold nbrs RGraph.getAllEdges at h
  split at h
  · cases h
  · simp only [if_true] at h
    obtain ⟨e, -, hq⟩ := List.mem_filterMap.mp h
    exact List.mem_of_getElem? hq

/-- C55: whenever checkValidity returns, it returns no error iff the neighbour relations are consistent. -/
theorem checkValidity_iff (ho : EdgesOk g) {order : List P} (hord : ∀ p, p ∈ order ↔ p ∈ g.vertices) {es : List (VErr P)}
    (h : g.checkValidity isLanelet order = some es) : es = [] ↔ Consistent g isLanelet := by
  obtain ⟨h1, h2⟩ := checkValidity_split h
  have hside : (∀ p ∈ order, g.checkVertex isLanelet p = some []) ↔
      ∀ p ∈ g.vertices, SideOk g isLanelet left adjacentLeft right adjacentRight p ∧ SideOk g isLanelet right adjacentRight left adjacentLeft p := by
    apply forall_congr'
    intro p
    rw [hord]
    apply imp_congr_right
    intro hp
    obtain ⟨e, he⟩ := h1 p ((hord p).mpr hp)
    unfold RGraph.checkVertex at he ⊢
    cases hl : g.checkSide isLanelet left adjacentLeft (g.rightRelations isLanelet 0) p with
    | none => rw [hl] at he; simp at he
    | some el =>
      cases hr : g.checkSide isLanelet right adjacentRight (g.leftRelations isLanelet 0) p with
      | none => rw [hl, hr] at he; simp at he
      | some er =>
        simp only [Option.pure_def, Option.bind_eq_bind, Option.bind_some, Option.some.injEq, List.append_eq_nil_iff]
        rw [checkSide_nil ho hp (a' := right) (b' := adjacentRight) (fun q l hq => relations_head hq) hl,
          checkSide_nil ho hp (a' := left) (b' := adjacentLeft) (fun q l hq => relations_head hq) hr]
  rw [h2, hside]
  constructor
  · intro hs
    have hu : ∀ p ∈ g.vertices, ∀ rel ∈ [left, adjacentLeft, right, adjacentRight], (nbrs g rel p).length ≤ 1 := by
      intro p hp rel hrel
      simp only [List.mem_cons, List.not_mem_nil, or_false] at hrel
      rcases hrel with rfl | rfl | rfl | rfl
      · exact (hs p hp).1.ua
      · exact (hs p hp).1.ub
      · exact (hs p hp).2.ua
      · exact (hs p hp).2.ub
    refine ⟨hu, ?_, ?_, ?_, ?_⟩
    · rintro p hp ⟨⟨q, hq, hl⟩, ⟨q', hq', hl'⟩⟩
      have e1 := (neighbour_unique ho (hs p hp).1.ua q).mpr ⟨hq, hl⟩
      have e2 := (neighbour_unique ho (hs p hp).1.ub q').mpr ⟨hq', hl'⟩
      rcases (hs p hp).1.kind with h | h
      · rw [e1] at h; cases h
      · rw [e2] at h; cases h
    · rintro p hp ⟨⟨q, hq, hl⟩, ⟨q', hq', hl'⟩⟩
      have e1 := (neighbour_unique ho (hs p hp).2.ua q).mpr ⟨hq, hl⟩
      have e2 := (neighbour_unique ho (hs p hp).2.ub q').mpr ⟨hq', hl'⟩
      rcases (hs p hp).2.kind with h | h
      · rw [e1] at h; cases h
      · rw [e2] at h; cases h
    · intro p hp q hl hq
      have hn : g.neighbour isLanelet 0 left p = some q ∨ g.neighbour isLanelet 0 adjacentLeft p = some q := by
        rcases List.mem_append.mp hq with hq | hq
        · exact .inl ((neighbour_unique ho (hs p hp).1.ua q).mpr ⟨hq, hl⟩)
        · exact .inr ((neighbour_unique ho (hs p hp).1.ub q).mpr ⟨hq, hl⟩)
      have hqv : q ∈ g.vertices := by
        rcases List.mem_append.mp hq with hq | hq <;> exact nbr_mem hq
      obtain ⟨hlp, hstep⟩ := (hs p hp).1.mirror q hn
      refine ⟨hlp, ?_⟩
      rw [List.mem_append]
      rcases (step_iff (hs q hqv).2.kind).mp hstep with h | h
      · exact .inl ((neighbour_unique ho (hs q hqv).2.ua p).mp h).1
      · exact .inr ((neighbour_unique ho (hs q hqv).2.ub p).mp h).1
    · intro p hp q hl hq
      have hn : g.neighbour isLanelet 0 right p = some q ∨ g.neighbour isLanelet 0 adjacentRight p = some q := by
        rcases List.mem_append.mp hq with hq | hq
        · exact .inl ((neighbour_unique ho (hs p hp).2.ua q).mpr ⟨hq, hl⟩)
        · exact .inr ((neighbour_unique ho (hs p hp).2.ub q).mpr ⟨hq, hl⟩)
      have hqv : q ∈ g.vertices := by
        rcases List.mem_append.mp hq with hq | hq <;> exact nbr_mem hq
      obtain ⟨hlp, hstep⟩ := (hs p hp).2.mirror q hn
      refine ⟨hlp, ?_⟩
      rw [List.mem_append]
      rcases (step_iff (hs q hqv).1.kind).mp hstep with h | h
      · exact .inl ((neighbour_unique ho (hs q hqv).1.ua p).mp h).1
      · exact .inr ((neighbour_unique ho (hs q hqv).1.ub p).mp h).1
  · intro hc
    have hkl : ∀ p ∈ g.vertices, g.neighbour isLanelet 0 left p = none ∨ g.neighbour isLanelet 0 adjacentLeft p = none := by
      intro p hp
      by_contra hcon
      rw [not_or] at hcon
      obtain ⟨q, hq⟩ := Option.ne_none_iff_exists'.mp hcon.1
      obtain ⟨q', hq'⟩ := Option.ne_none_iff_exists'.mp hcon.2
      exact hc.leftKind p hp ⟨⟨q, (neighbour_unique ho (hc.unique p hp left (by decide)) q).mp hq⟩,
        ⟨q', (neighbour_unique ho (hc.unique p hp adjacentLeft (by decide)) q').mp hq'⟩⟩
    have hkr : ∀ p ∈ g.vertices, g.neighbour isLanelet 0 right p = none ∨ g.neighbour isLanelet 0 adjacentRight p = none := by
      intro p hp
      by_contra hcon
      rw [not_or] at hcon
      obtain ⟨q, hq⟩ := Option.ne_none_iff_exists'.mp hcon.1
      obtain ⟨q', hq'⟩ := Option.ne_none_iff_exists'.mp hcon.2
      exact hc.rightKind p hp ⟨⟨q, (neighbour_unique ho (hc.unique p hp right (by decide)) q).mp hq⟩,
        ⟨q', (neighbour_unique ho (hc.unique p hp adjacentRight (by decide)) q').mp hq'⟩⟩
    intro p hp
    refine ⟨⟨hc.unique p hp _ (by decide), hc.unique p hp _ (by decide), hkl p hp, ?_⟩,
      ⟨hc.unique p hp _ (by decide), hc.unique p hp _ (by decide), hkr p hp, ?_⟩⟩
    · intro q hq
      have hq' : q ∈ nbrs g left p ++ nbrs g adjacentLeft p ∧ isLanelet q = true := by
        rcases hq with hq | hq
        · have := (neighbour_unique ho (hc.unique p hp left (by decide)) q).mp hq
          exact ⟨List.mem_append_left _ this.1, this.2⟩
        · have := (neighbour_unique ho (hc.unique p hp adjacentLeft (by decide)) q).mp hq
          exact ⟨List.mem_append_right _ this.1, this.2⟩
      have hqv : q ∈ g.vertices := by
        rcases List.mem_append.mp hq'.1 with hq | hq <;> exact nbr_mem hq
      obtain ⟨hlp, hm⟩ := hc.leftMirror p hp q hq'.2 hq'.1
      refine ⟨hlp, (step_iff (hkr q hqv)).mpr ?_⟩
      rcases List.mem_append.mp hm with hm | hm
      · exact .inl ((neighbour_unique ho (hc.unique q hqv right (by decide)) p).mpr ⟨hm, hlp⟩)
      · exact .inr ((neighbour_unique ho (hc.unique q hqv adjacentRight (by decide)) p).mpr ⟨hm, hlp⟩)
    · intro q hq
      have hq' : q ∈ nbrs g right p ++ nbrs g adjacentRight p ∧ isLanelet q = true := by
        rcases hq with hq | hq
        · have := (neighbour_unique ho (hc.unique p hp right (by decide)) q).mp hq
          exact ⟨List.mem_append_left _ this.1, this.2⟩
        · have := (neighbour_unique ho (hc.unique p hp adjacentRight (by decide)) q).mp hq
          exact ⟨List.mem_append_right _ this.1, this.2⟩
      have hqv : q ∈ g.vertices := by
        rcases List.mem_append.mp hq'.1 with hq | hq <;> exact nbr_mem hq
      obtain ⟨hlp, hm⟩ := hc.rightMirror p hp q hq'.2 hq'.1
      refine ⟨hlp, (step_iff (hkl q hqv)).mpr ?_⟩
      rcases List.mem_append.mp hm with hm | hm
      · exact .inl ((neighbour_unique ho (hc.unique q hqv left (by decide)) p).mpr ⟨hm, hlp⟩)
      · exact .inr ((neighbour_unique ho (hc.unique q hqv adjacentLeft (by decide)) p).mpr ⟨hm, hlp⟩)

/-- C55: checkValidity returns if no chain of neighbours runs in a circle (`l`, `r` count the lanes to the left and to the right). -/
theorem checkValidity_returns {l r : P → Nat}
    (hl : ∀ p q, (g.neighbour isLanelet 0 left p = some q ∨ g.neighbour isLanelet 0 adjacentLeft p = some q) → l q < l p)
    (hr : ∀ p q, (g.neighbour isLanelet 0 right p = some q ∨ g.neighbour isLanelet 0 adjacentRight p = some q) → r q < r p)
    (order : List P) : ∃ es, g.checkValidity isLanelet order = some es := by
  have hL : ∀ p, ∃ x, g.leftRelations isLanelet 0 p = some x := fun p =>
    relations_terminates _ _ _ _ l (fun v w h => hl v w (.inl h)) (fun v w h => hl v w (.inr h)) p
  have hR : ∀ p, ∃ x, g.rightRelations isLanelet 0 p = some x := fun p =>
    relations_terminates _ _ _ _ r (fun v w h => hr v w (.inl h)) (fun v w h => hr v w (.inr h)) p
  have hM : ∀ {back : P → Option (List (P × RelationType))}, (∀ p, ∃ x, back p = some x) → ∀ kind p n, ∃ es, mirrorErr isLanelet back kind p n = some es := by
    intro back hb kind p n
    unfold mirrorErr
    cases n with
    | none => exact ⟨_, rfl⟩
    | some q =>
      obtain ⟨x, hx⟩ := hb q
      simp only [hx]
      cases x with
      | nil => exact ⟨_, rfl⟩
      | cons y x => simp only; split <;> exact ⟨_, rfl⟩
  have hS : ∀ {back : P → Option (List (P × RelationType))}, (∀ p, ∃ x, back p = some x) → ∀ a b p, ∃ es, g.checkSide isLanelet a b back p = some es := by
    intro back hb a b p
    obtain ⟨ma, h1⟩ := hM hb a p (g.tryNeighbour isLanelet a p).2
    obtain ⟨mb, h2⟩ := hM hb b p (g.tryNeighbour isLanelet b p).2
    exact ⟨_, by unfold RGraph.checkSide; simp only [h1, h2]; rfl⟩
  induction order with
  | nil => exact ⟨[], rfl⟩
  | cons p order ih =>
    obtain ⟨es, h⟩ := ih
    obtain ⟨e1, h1⟩ := hS hR left adjacentLeft p
    obtain ⟨e2, h2⟩ := hS hL right adjacentRight p
    exact ⟨_, by unfold RGraph.checkValidity RGraph.checkVertex; rw [h1, h2, h]; rfl⟩

end

/-- Case: the three lanes are consistent and checkValidity returns without errors. -/
example : ∃ es, exLanes.checkValidity (fun _ => true) [20, 10, 30] = some es ∧ es = [] ∧ Consistent exLanes (fun _ => true) := by
  have hout : ∀ rel p, p ∉ exLanes.vertices → exLanes.neighbour (fun _ => true) 0 rel p = none := by
    intro rel p hp
    simp [RGraph.neighbour, getVertex_none hp]
  have hin : ∀ rel p q, exLanes.neighbour (fun _ => true) 0 rel p = some q → p = 10 ∨ p = 20 ∨ p = 30 := by
    intro rel p q h
    by_contra hc
    rw [hout rel p (by simp [exLanes]; omega)] at h
    cases h
  obtain ⟨es, hes⟩ := checkValidity_returns (g := exLanes) (isLanelet := fun _ => true) (l := id) (r := fun p => 100 - p)
    (by
      rintro p q (h | h)
      · rcases hin _ p q h with rfl | rfl | rfl <;> revert h <;>
          simp [RGraph.neighbour, exLanes, RGraph.getVertex, RGraph.outEdges, passes, List.findIdx?_cons, left, Left, Right, AdjacentLeft, AdjacentRight, allRelations] <;> omega
      · rcases hin _ p q h with rfl | rfl | rfl <;> revert h <;>
          simp [RGraph.neighbour, exLanes, RGraph.getVertex, RGraph.outEdges, passes, List.findIdx?_cons, adjacentLeft, Left, Right, AdjacentLeft, AdjacentRight, allRelations] <;> omega)
    (by
      rintro p q (h | h)
      · rcases hin _ p q h with rfl | rfl | rfl <;> revert h <;>
          simp [RGraph.neighbour, exLanes, RGraph.getVertex, RGraph.outEdges, passes, List.findIdx?_cons, right, Left, Right, AdjacentLeft, AdjacentRight, allRelations] <;> omega
      · rcases hin _ p q h with rfl | rfl | rfl <;> revert h <;>
          simp [RGraph.neighbour, exLanes, RGraph.getVertex, RGraph.outEdges, passes, List.findIdx?_cons, adjacentRight, Left, Right, AdjacentLeft, AdjacentRight, allRelations] <;> omega)
    [20, 10, 30]
  have hcons : Consistent exLanes (fun _ => true) := by
    have hq : ∀ rel, ∀ p ∈ exLanes.vertices, ∀ q ∈ nbrs exLanes rel p, q ∈ exLanes.vertices := fun rel p _ q h =>
      nbr_mem h
    refine ⟨by decide, by decide, by decide, ?_, ?_⟩
    · intro p hp q _ h
      refine ⟨rfl, ?_⟩
      have : ∀ p ∈ exLanes.vertices, ∀ q ∈ nbrs exLanes left p ++ nbrs exLanes adjacentLeft p, p ∈ nbrs exLanes right q ++ nbrs exLanes adjacentRight q := by
        decide
      exact this p hp q h
    · intro p hp q _ h
      refine ⟨rfl, ?_⟩
      have : ∀ p ∈ exLanes.vertices, ∀ q ∈ nbrs exLanes right p ++ nbrs exLanes adjacentRight p, p ∈ nbrs exLanes left q ++ nbrs exLanes adjacentLeft q := by
        decide
      exact this p hp q h
  exact ⟨es, hes, (checkValidity_iff (by intro e he; revert e; decide) (by simp [exLanes]; omega) hes).mpr hcons, hcons⟩

/-- two lanelets that are each other's left neighbour; the second is the left neighbour of a third; Example. -/
def exCircle : RGraph Nat Nat := ⟨1, [10, 20, 30], [⟨0, 1, ⟨1, 0, Left⟩⟩, ⟨1, 0, ⟨1, 0, Left⟩⟩, ⟨2, 0, ⟨1, 0, Right⟩⟩]⟩

/-- Disagreement with C55: the neighbours are not consistent, but instead of reporting an error checkValidity does not return: the right
neighbour of the third lanelet has a circle of left neighbours. -/
theorem checkValidity_loops_counterexample :
    exCircle.checkValidity (fun _ => true) [30, 10, 20] = none ∧ ¬ Consistent exCircle (fun _ => true) := by
  have hb : exCircle.leftRelations (fun _ => true) 0 10 = none := by
    unfold RGraph.leftRelations
    rw [relations]
    rw [untilEnd_cycle _ (fun v => v = 10 ∨ v = 20)
      (by
        rintro v (rfl | rfl)
        · exact ⟨20, by decide, Or.inr rfl⟩
        · exact ⟨10, by decide, Or.inl rfl⟩) 10 (Or.inl rfl)]
    rfl
  refine ⟨?_, fun h => ?_⟩
  · have hn : (exCircle.tryNeighbour (fun _ => true) right 30).2 = some 10 := by decide
    have hs : exCircle.checkSide (fun _ => true) right adjacentRight (exCircle.leftRelations (fun _ => true) 0) 30 = none := by
      unfold RGraph.checkSide
      simp only [hn, mirrorErr, hb]
      rfl
    unfold RGraph.checkValidity RGraph.checkVertex
    rw [hs]
    cases exCircle.checkSide (fun _ => true) left adjacentLeft (exCircle.rightRelations (fun _ => true) 0) 30 <;> rfl
  · have := (h.leftMirror 10 (by decide) 20 rfl (by decide)).2
    revert this
    decide

end Verif.Graph
