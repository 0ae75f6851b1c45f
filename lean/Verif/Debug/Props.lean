import Verif.Debug.Model
import Mathlib.Data.List.Flatten
import Mathlib.Tactic.Tauto

/-!
C69: debug maps and exports of routing graphs show what is in the graph.
-/
set_option linter.unusedSectionVars false
namespace Verif.Debug
open Verif.Graph Verif.Graph.RelationType

variable {P K : Type} [DecidableEq P]

/-! ### specification -/

/-- Specification. The kinds of relations that a debug map shows. -/
def shownRelations (adjacent conflicting : Bool) : List RelationType :=
  [Successor, Left, Right, Area] ++ (if adjacent then [AdjacentLeft, AdjacentRight] else []) ++ if conflicting then [Conflicting] else []

/-- Specification. The graph has this relation, for this cost module and of a kind that is shown. -/
def Shown (g : RGraph P K) (costId : Nat) (adjacent conflicting : Bool) (p q : P) (rel : RelationType) (c : K) : Prop :=
  rel ∈ shownRelations adjacent conflicting ∧ HasEdge g p q costId rel c

/-- Specification. No two of the relations that are shown lead from the same element to the same element. -/
def Simple (g : RGraph P K) (costId : Nat) (adjacent conflicting : Bool) : Prop :=
  g.edges.Pairwise fun e e' => e.info.costId = costId → e'.info.costId = costId → e.info.relation ∈ shownRelations adjacent conflicting →
    e'.info.relation ∈ shownRelations adjacent conflicting → ¬ (e.src = e'.src ∧ e.dst = e'.dst)

/-- Specification. The elements of the graph have different, valid ids. -/
def IdsOk (idOf : P → Int) (vs : List P) : Prop := (∀ p ∈ vs, idOf p ≠ 0) ∧ ∀ p ∈ vs, ∀ q ∈ vs, idOf p = idOf q → p = q

/-! ### maps -/

section
variable {α β : Type} [DecidableEq α]

theorem toMap_snoc (l : List (α × β)) (x : α × β) : toMap (l ++ [x]) = if x.1 ∈ (toMap l).map (·.1) then toMap l else toMap l ++ [x] := by
  unfold toMap
  rw [List.foldl_append]
  rfl

theorem toMap_keys (l : List (α × β)) : ((toMap l).map (·.1)).Nodup ∧ ∀ k, k ∈ (toMap l).map (·.1) ↔ k ∈ l.map (·.1) := by
  induction l using List.reverseRecOn with
  | nil => simp [toMap]
  | append_singleton l x ih =>
    rw [toMap_snoc]
    split
    · rename_i h
      refine ⟨ih.1, fun k => ?_⟩
      rw [ih.2, List.map_append, List.mem_append]
      constructor
      · exact .inl
      · rintro (h' | h')
        · exact h'
        · simp only [List.map_cons, List.map_nil, List.mem_singleton] at h'
          subst h'
          exact (ih.2 _).mp h
    · rename_i h
      refine ⟨?_, fun k => ?_⟩
      · rw [List.map_append, List.nodup_append]
        refine ⟨ih.1, by simp, ?_⟩
        intro a ha b hb hab
        simp only [List.map_cons, List.map_nil, List.mem_singleton] at hb
        subst hb; subst hab
        exact h ha
      · rw [List.map_append, List.map_append, List.mem_append, List.mem_append, ih.2]

theorem toMap_sub (l : List (α × β)) : ∀ x ∈ toMap l, x ∈ l := by
  induction l using List.reverseRecOn with
  | nil => simp [toMap]
  | append_singleton l x ih =>
    rw [toMap_snoc]
    intro y hy
    split at hy
    · exact List.mem_append_left _ (ih y hy)
    · rcases List.mem_append.mp hy with h | h
      · exact List.mem_append_left _ (ih y h)
      · exact List.mem_append_right _ h

theorem toMap_nodup (l : List (α × β)) (h : (l.map (·.1)).Nodup) : toMap l = l := by
  induction l using List.reverseRecOn with
  | nil => rfl
  | append_singleton l x ih =>
    rw [List.map_append, List.nodup_append] at h
    rw [toMap_snoc, ih h.1, if_neg]
    intro hx
    exact h.2.2 _ hx _ (by simp) rfl

end

/-! ### points of the debug map -/

section
variable {A B : Type} (idP : A → Int)

/-- adding points with different valid ids -/
theorem addPoints_spec (l : List A) : ∀ (m : DMap A B), (∀ p ∈ l, idP p ≠ 0) → (m.points.map (·.1)).Nodup →
    let m' := l.foldl (DMap.addPoint idP) m
    m'.lines = m.lines ∧ (m'.points.map (·.1)).Nodup ∧ (∀ k, k ∈ m'.points.map (·.1) ↔ k ∈ m.points.map (·.1) ∨ k ∈ l.map idP) ∧
      ∀ x ∈ m'.points, x ∈ m.points ∨ x.2 ∈ l ∧ x.1 = idP x.2 := by
  induction l with
  | nil => intro m _ hn; exact ⟨rfl, hn, by simp, fun x hx => .inl hx⟩
  | cons p l ih =>
    intro m h0 hn
    have hp := h0 p (by simp)
    have hl := fun q hq => h0 q (List.mem_cons_of_mem _ hq)
    simp only [List.foldl_cons]
    by_cases hm : idP p ∈ m.points.map (·.1)
    · have he : m.addPoint idP p = m := by unfold DMap.addPoint; rw [if_neg hp, if_pos hm]
      rw [he]
      obtain ⟨h1, h2, h3, h4⟩ := ih m hl hn
      refine ⟨h1, h2, fun k => ?_, fun x hx => ?_⟩
      · rw [h3, List.map_cons, List.mem_cons]
        constructor
        · rintro (h | h) <;> tauto
        · rintro (h | rfl | h) <;> tauto
      · rcases h4 x hx with h | ⟨h, h'⟩
        · exact .inl h
        · exact .inr ⟨List.mem_cons_of_mem _ h, h'⟩
    · have he : m.addPoint idP p = { m with points := m.points ++ [(idP p, p)], next := max m.next (idP p + 1) } := by
        unfold DMap.addPoint; rw [if_neg hp, if_neg hm]
      rw [he]
      obtain ⟨h1, h2, h3, h4⟩ := ih { m with points := m.points ++ [(idP p, p)], next := max m.next (idP p + 1) } hl (by
        rw [List.map_append, List.nodup_append]
        refine ⟨hn, by simp, ?_⟩
        intro a ha b hb hab
        simp only [List.map_cons, List.map_nil, List.mem_singleton] at hb
        subst hb; subst hab
        exact hm ha)
      refine ⟨h1, h2, fun k => ?_, fun x hx => ?_⟩
      · rw [h3, List.map_append, List.mem_append, List.map_cons, List.mem_cons]
        simp only [List.map_cons, List.map_nil, List.mem_cons, List.not_mem_nil, or_false]
        tauto
      · rcases h4 x hx with h | ⟨h, h'⟩
        · rcases List.mem_append.mp h with h | h
          · exact .inl h
          · simp only [List.mem_singleton] at h
            subst h
            exact .inr ⟨by simp, rfl⟩
        · exact .inr ⟨List.mem_cons_of_mem _ h, h'⟩

end

/-! ### the builder -/

section
variable (idOf : P → Int) (g : RGraph P K) (costId : Nat) (rels : RelationType)

/-- Helper of the proofs: the edges in the order in which they are visited. -/
def edgesOf (loa : List (P × Nat)) : List (P × P × EdgeInfo K) :=
  loa.flatMap fun x => (g.outEdges costId rels x.2).filterMap fun e => (g.vertices[e.dst]?).map fun q => (x.1, q, e.info)

/-- Helper of the proofs: the linestrings after these edges. -/
def linesOf (es : List (P × P × EdgeInfo K)) (s : List ((P × P) × DLine P K) × Int) : List ((P × P) × DLine P K) × Int :=
  es.foldl (fun s e => addEdge idOf e.1 e.2.1 e.2.2 s) s

theorem visit_inner (p : P) (l : List (BaseEdge K)) : ∀ s : Builder P K,
    let s' := l.foldl (fun s e =>
      match g.vertices[e.dst]? with
      | none => s
      | some q =>
        let l := addEdge idOf p q e.info (s.lines, s.next)
        (⟨addPoint q s.points, l.1, l.2⟩ : Builder P K)) s
    let es := l.filterMap fun e => (g.vertices[e.dst]?).map fun q => (p, q, e.info)
    (s'.lines, s'.next) = linesOf idOf es (s.lines, s.next) ∧ (∀ q, q ∈ s'.points ↔ q ∈ s.points ∨ q ∈ es.map (·.2.1)) ∧
      (s.points.Nodup → s'.points.Nodup) := by
  induction l with
  | nil => intro s; simp [linesOf]
  | cons e l ih =>
    intro s
    simp only [List.foldl_cons, List.filterMap_cons]
    cases hq : g.vertices[e.dst]? with
    | none =>
      simp only [Option.map_none]
      exact ih s
    | some q =>
      simp only [Option.map_some]
      obtain ⟨h1, h2, h3⟩ := ih ⟨addPoint q s.points, (addEdge idOf p q e.info (s.lines, s.next)).1, (addEdge idOf p q e.info (s.lines, s.next)).2⟩
      refine ⟨?_, fun x => ?_, fun hn => h3 ?_⟩
      · rw [h1]; rfl
      · rw [h2]
        simp only [List.map_cons, List.mem_cons, addPoint]
        split
        · rename_i hm
          constructor
          · rintro (h | h) <;> tauto
          · rintro (h | rfl | h) <;> tauto
        · simp only [List.mem_append, List.mem_singleton]; tauto
      · simp only [addPoint]
        split
        · exact hn
        · rename_i hm
          rw [List.nodup_append]
          exact ⟨hn, by simp, fun a ha b hb hab => hm (by simp only [List.mem_singleton] at hb; subst hb; subst hab; exact ha)⟩

theorem visit_all (loa : List (P × Nat)) : ∀ s : Builder P K,
    let s' := loa.foldl (visitVertex idOf g costId rels) s
    (s'.lines, s'.next) = linesOf idOf (edgesOf g costId rels loa) (s.lines, s.next) ∧
      (∀ q, q ∈ s'.points ↔ q ∈ s.points ∨ q ∈ loa.map (·.1) ∨ q ∈ (edgesOf g costId rels loa).map (·.2.1)) ∧ (s.points.Nodup → s'.points.Nodup) := by
  induction loa with
  | nil => intro s; simp [linesOf, edgesOf]
  | cons x loa ih =>
    intro s
    simp only [List.foldl_cons]
    obtain ⟨h1, h2, h3⟩ := ih (visitVertex idOf g costId rels s x)
    obtain ⟨k1, k2, k3⟩ := visit_inner idOf g x.1 (g.outEdges costId rels x.2) { s with points := addPoint x.1 s.points }
    have hv : visitVertex idOf g costId rels s x = _ := rfl
    refine ⟨?_, fun q => ?_, fun hn => h3 (k3 ?_)⟩
    · rw [h1]
      have : ((visitVertex idOf g costId rels s x).lines, (visitVertex idOf g costId rels s x).next) = _ := k1
      rw [this]
      simp only [edgesOf, List.flatMap_cons]
      unfold linesOf
      rw [List.foldl_append]
    · rw [h2]
      have : q ∈ (visitVertex idOf g costId rels s x).points ↔ _ := k2 q
      rw [this]
      simp only [edgesOf, List.flatMap_cons, List.map_append, List.mem_append, List.map_cons, List.mem_cons, addPoint]
      split
      · rename_i hm
        constructor
        · rintro ((h | h) | h | h) <;> tauto
        · rintro (h | (rfl | h) | h | h) <;> tauto
      · simp only [List.mem_append, List.mem_singleton]; tauto
    · simp only [addPoint]
      split
      · exact hn
      · rename_i hm
        rw [List.nodup_append]
        exact ⟨hn, by simp, fun a ha b hb hab => hm (by simp only [List.mem_singleton] at hb; subst hb; subst hab; exact ha)⟩

/-- what a linestring says about the edges of its pair -/
def Says (es : List (P × P × EdgeInfo K)) (k : P × P) (l : DLine P K) : Prop :=
  ∃ e rest, (es.filter fun e => decide (getPair idOf e.1 e.2.1 = k)) = e :: rest ∧ l.first = e.1 ∧ l.last = e.2.1 ∧ l.relation = e.2.2.relation ∧
    l.cost = e.2.2.routingCost ∧ l.reverse = rest.getLast?.map fun x => (x.2.2.relation, x.2.2.routingCost)

theorem linesOf_spec (es : List (P × P × EdgeInfo K)) (n : Int) :
    let r := linesOf idOf es ([], n)
    (r.1.map (·.1)).Nodup ∧ (r.1.map (·.2.id)).Nodup ∧ (∀ x ∈ r.1, n ≤ x.2.id ∧ x.2.id < r.2) ∧ n ≤ r.2 ∧ (∀ x ∈ r.1, Says idOf es x.1 x.2) ∧
      ∀ e ∈ es, getPair idOf e.1 e.2.1 ∈ r.1.map (·.1) := by
  induction es using List.reverseRecOn with
  | nil => simp [linesOf]
  | append_singleton es e ih =>
    obtain ⟨h1, h2, h3, h4, h5, h6⟩ := ih
    have hs : linesOf idOf (es ++ [e]) ([], n) = addEdge idOf e.1 e.2.1 e.2.2 (linesOf idOf es ([], n)) := by
      unfold linesOf; rw [List.foldl_append]; rfl
    simp only [hs]
    generalize linesOf idOf es ([], n) = r at h1 h2 h3 h4 h5 h6
    unfold addEdge
    simp only
    split
    · rename_i hk
      have hm : (r.1.map fun l => if l.1 = getPair idOf e.1 e.2.1 then
          (l.1, { l.2 with reverse := some (e.2.2.relation, e.2.2.routingCost) }) else l).map (·.1) = r.1.map (·.1) := by
        rw [List.map_map]; apply List.map_congr_left; intro l _; simp only [Function.comp]; split <;> rfl
      have hm2 : (r.1.map fun l => if l.1 = getPair idOf e.1 e.2.1 then
          (l.1, { l.2 with reverse := some (e.2.2.relation, e.2.2.routingCost) }) else l).map (·.2.id) = r.1.map (·.2.id) := by
        rw [List.map_map]; apply List.map_congr_left; intro l _; simp only [Function.comp]; split <;> rfl
      rw [hm, hm2]
      refine ⟨h1, h2, ?_, h4, ?_, ?_⟩
      · intro x hx
        obtain ⟨l, hl, rfl⟩ := List.mem_map.mp hx
        have := h3 l hl
        split <;> exact this
      · intro x hx
        obtain ⟨l, hl, rfl⟩ := List.mem_map.mp hx
        obtain ⟨f, rest, k1, k2, k3, k4, k5, k6⟩ := h5 l hl
        split
        · rename_i heq
          refine ⟨f, rest ++ [e], ?_, k2, k3, k4, k5, ?_⟩
          · rw [List.filter_append, k1]
            simp [heq]
          · simp
        · rename_i heq
          refine ⟨f, rest, ?_, k2, k3, k4, k5, k6⟩
          rw [List.filter_append, k1]
          have : getPair idOf e.1 e.2.1 ≠ l.1 := fun h => heq h.symm
          simp [this]
      · intro x hx
        rcases List.mem_append.mp hx with h | h
        · exact h6 x h
        · simp only [List.mem_singleton] at h; subst h; exact hk
    · rename_i hk
      have hnone : ∀ x ∈ es, getPair idOf x.1 x.2.1 ≠ getPair idOf e.1 e.2.1 := fun x hx h => hk (h ▸ h6 x hx)
      refine ⟨?_, ?_, ?_, by omega, ?_, ?_⟩
      · rw [List.map_append, List.nodup_append]
        refine ⟨h1, by simp, fun a ha b hb hab => hk ?_⟩
        simp only [List.map_cons, List.map_nil, List.mem_singleton] at hb
        subst hb; subst hab; exact ha
      · rw [List.map_append, List.nodup_append]
        refine ⟨h2, by simp, fun a ha b hb hab => ?_⟩
        simp only [List.map_cons, List.map_nil, List.mem_singleton] at hb
        subst hb; subst hab
        obtain ⟨x, hx, hid⟩ := List.mem_map.mp ha
        have := (h3 x hx).2
        omega
      · intro x hx
        rcases List.mem_append.mp hx with h | h
        · have := h3 x h; omega
        · simp only [List.mem_singleton] at h; subst h; simp only; omega
      · intro x hx
        rcases List.mem_append.mp hx with h | h
        · obtain ⟨f, rest, k1, k2⟩ := h5 x h
          refine ⟨f, rest, ?_, k2⟩
          rw [List.filter_append, k1]
          have : getPair idOf e.1 e.2.1 ≠ x.1 := fun hh => hk (hh ▸ List.mem_map_of_mem h)
          simp [this]
        · simp only [List.mem_singleton] at h
          subst h
          refine ⟨e, [], ?_, rfl, rfl, rfl, rfl, rfl⟩
          rw [List.filter_append, List.filter_eq_nil_iff.mpr (by intro x hx; simpa using hnone x hx)]
          simp
      · intro x hx
        rw [List.map_append, List.mem_append]
        rcases List.mem_append.mp hx with h | h
        · exact .inl (h6 x h)
        · simp only [List.mem_singleton] at h; subst h; simp

end

theorem shown_table : ∀ a c : Bool, ∀ r ∈ edgeRelations,
    ((allowedRelations a c == allRelations || (allowedRelations a c &&& r) != 0) = true ↔ r ∈ shownRelations a c) := by decide

section
variable {t : CostTests K} {g : RGraph P K} {idOf : P → Int} {costId : Nat} {adjacent conflicting : Bool} {loa : List (P × Nat)}
  {shuffleP : List P → List P} {shuffleL : List ((P × P) × DLine P K) → List ((P × P) × DLine P K)} {next : Int}

theorem idx_inj {vs : List P} (hn : vs.Nodup) {a b : Nat} {p : P} (ha : vs[a]? = some p) (hb : vs[b]? = some p) : a = b :=
  (List.getElem?_inj (List.getElem?_eq_some_iff.1 ha).1 hn).1 (ha.trans hb.symm)

theorem zipIdx_mem (vs : List P) (x : P × Nat) : x ∈ vs.zipIdx ↔ vs[x.2]? = some x.1 := by
  rw [List.mem_zipIdx_iff_getElem?]

theorem mem_edgesOf (hb : Built t g) (hl : loa.Perm g.vertices.zipIdx) (p q : P) (info : EdgeInfo K) :
    (p, q, info) ∈ edgesOf g costId (allowedRelations adjacent conflicting) loa ↔
      ∃ e ∈ g.edges, g.vertices[e.src]? = some p ∧ g.vertices[e.dst]? = some q ∧ e.info = info ∧ info.costId = costId ∧
        info.relation ∈ shownRelations adjacent conflicting := by
  unfold edgesOf
  simp only [List.mem_flatMap, List.mem_filterMap, Option.map_eq_some_iff, RGraph.outEdges, List.mem_filter, Bool.and_eq_true, beq_iff_eq, passes]
  constructor
  · rintro ⟨x, hx, e, ⟨he, hv, hc, hp⟩, q', hq, heq⟩
    obtain ⟨rfl, rfl, rfl⟩ : x.1 = p ∧ q' = q ∧ e.info = info := by simpa using heq
    have := (zipIdx_mem _ _).mp (hl.mem_iff.mp hx)
    exact ⟨e, he, by rw [hv]; exact this, hq, rfl, hc, (shown_table _ _ _ ((built_wf hb).rel e he)).mp hp⟩
  · rintro ⟨e, he, hs, hd, rfl, hc, hr⟩
    exact ⟨(p, e.src), hl.mem_iff.mpr ((zipIdx_mem _ _).mpr hs), e, ⟨he, rfl, hc, (shown_table _ _ _ ((built_wf hb).rel e he)).mpr hr⟩, q, hd, rfl⟩

theorem edgesOf_pairs (hb : Built t g) (hl : loa.Perm g.vertices.zipIdx) (hs : Simple g costId adjacent conflicting) :
    ((edgesOf g costId (allowedRelations adjacent conflicting) loa).map fun e => (e.1, e.2.1)).Nodup := by
  have wf := built_wf hb
  have hln : loa.Nodup := by
    rw [hl.nodup_iff]
    refine List.Nodup.of_map Prod.fst ?_
    rw [List.zipIdx_map_fst]
    exact wf.nodup
  have hkey : ∀ x ∈ loa, ∀ y ∈ loa, x.1 = y.1 → x = y := by
    intro x hx y hy hxy
    have h1 := (zipIdx_mem _ _).mp (hl.mem_iff.mp hx)
    have h2 := (zipIdx_mem _ _).mp (hl.mem_iff.mp hy)
    rw [← hxy] at h2
    exact Prod.ext hxy (idx_inj wf.nodup h1 h2)
  unfold edgesOf
  rw [List.Nodup, List.pairwise_map, List.pairwise_flatMap]
  constructor
  · intro x hx
    rw [List.pairwise_filterMap]
    have hf := hs.filter (fun e => e.src == x.2 && passes costId (allowedRelations adjacent conflicting) e.info)
    unfold RGraph.outEdges
    refine List.Pairwise.imp_of_mem ?_ hf
    intro a b ha hb' hab u hu v hv
    simp only [List.mem_filter, Bool.and_eq_true, beq_iff_eq, passes] at ha hb'
    obtain ⟨q, hq, rfl⟩ := Option.map_eq_some_iff.mp hu
    obtain ⟨q', hq', rfl⟩ := Option.map_eq_some_iff.mp hv
    intro h
    simp only [Prod.mk.injEq, true_and] at h
    subst h
    exact hab ha.2.2.1 hb'.2.2.1 ((shown_table _ _ _ (wf.rel a ha.1)).mp ha.2.2.2) ((shown_table _ _ _ (wf.rel b hb'.1)).mp hb'.2.2.2)
      ⟨ha.2.1.trans hb'.2.1.symm, idx_inj wf.nodup hq hq'⟩
  · refine List.Pairwise.imp_of_mem ?_ hln
    intro x y hx hy hxy u hu v hv
    rw [ne_eq]
    intro h
    simp only [List.mem_filterMap, Option.map_eq_some_iff] at hu hv
    obtain ⟨e, he, q, hq, hu⟩ := hu
    obtain ⟨e', he', q', hq', hv⟩ := hv
    have h1 : u.1 = v.1 := congrArg (fun z => z.1) h
    rw [← hu, ← hv] at h1
    exact hxy (hkey x hx y hy h1)

theorem getPair_eq {p q p' q' : P} (hid : ∀ x ∈ [p, q, p', q'], ∀ y ∈ [p, q, p', q'], idOf x = idOf y → x = y) :
    getPair idOf p q = getPair idOf p' q' ↔ (p = p' ∧ q = q') ∨ (p = q' ∧ q = p') := by
  unfold getPair
  by_cases h1 : idOf p < idOf q <;> by_cases h2 : idOf p' < idOf q'
  · simp only [h1, h2, if_true, Prod.mk.injEq]
    constructor
    · exact .inl
    · rintro (h | ⟨rfl, rfl⟩)
      · exact h
      · omega
  · simp only [h1, h2, if_true, if_false, Prod.mk.injEq]
    constructor
    · exact .inr
    · rintro (⟨rfl, rfl⟩ | h)
      · omega
      · exact h
  · simp only [h1, h2, if_true, if_false, Prod.mk.injEq]
    constructor
    · rintro ⟨rfl, rfl⟩; exact .inr ⟨rfl, rfl⟩
    · rintro (⟨rfl, rfl⟩ | ⟨rfl, rfl⟩)
      · omega
      · exact ⟨rfl, rfl⟩
  · simp only [h1, h2, if_false, Prod.mk.injEq]
    constructor
    · rintro ⟨rfl, rfl⟩; exact .inl ⟨rfl, rfl⟩
    · rintro (⟨rfl, rfl⟩ | ⟨rfl, rfl⟩)
      · exact ⟨rfl, rfl⟩
      · have : idOf p = idOf q := by omega
        have := hid p (by simp) q (by simp) this
        subst this
        exact ⟨rfl, rfl⟩

/-- **C69.** The debug map has exactly one point for every element of the graph, with its id, and no others. -/
theorem debug_points (hb : Built t g) (hids : IdsOk idOf g.vertices) (hl : loa.Perm g.vertices.zipIdx) (hP : ∀ l, (shuffleP l).Perm l)
    (hL : ∀ l, (shuffleL l).Perm l) {m : DMap P (DLine P K)}
    (hm : getDebugLaneletMap idOf g costId adjacent conflicting loa shuffleP shuffleL next = .ok m) :
    m.points.Nodup ∧ ∀ k p, (k, p) ∈ m.points ↔ p ∈ g.vertices ∧ k = idOf p := by
  unfold getDebugLaneletMap at hm
  split at hm
  · cases hm
  cases hm
  unfold runDebug
  obtain ⟨v1, v2, v3⟩ := visit_all idOf g costId (allowedRelations adjacent conflicting) loa ⟨[], [], next⟩
  generalize hs : loa.foldl (visitVertex idOf g costId (allowedRelations adjacent conflicting)) ⟨[], [], next⟩ = s at v1 v2 v3
  have hpts : ∀ q, q ∈ s.points ↔ q ∈ g.vertices := by
    intro q
    rw [v2]
    have h1 : q ∈ loa.map (·.1) ↔ q ∈ g.vertices := by
      rw [(hl.map (·.1)).mem_iff, List.zipIdx_map_fst]
    rw [h1]
    constructor
    · rintro (h | h | h)
      · cases h
      · exact h
      · obtain ⟨⟨p, q', info⟩, h', rfl⟩ := List.mem_map.mp h
        obtain ⟨e, -, -, h, -⟩ := (mem_edgesOf hb hl p q' info).mp h'
        exact List.mem_of_getElem? h
    · exact fun h => .inr (.inl h)
  obtain ⟨l1, l2, l3, l4, l5, l6⟩ := linesOf_spec idOf (edgesOf g costId (allowedRelations adjacent conflicting) loa) next
  rw [← v1] at l5
  simp only at l5 ⊢
  have hends : ∀ x ∈ s.lines, x.2.first ∈ g.vertices ∧ x.2.last ∈ g.vertices := by
    intro x hx
    obtain ⟨e, rest, k1, k2, k3, -⟩ := l5 x hx
    have he : e ∈ edgesOf g costId (allowedRelations adjacent conflicting) loa := by
      have : e ∈ e :: rest := by simp
      rw [← k1] at this
      exact (List.mem_filter.mp this).1
    obtain ⟨b, -, h1, h2, -⟩ := (mem_edgesOf hb hl e.1 e.2.1 e.2.2).mp he
    rw [k2, k3]
    exact ⟨List.mem_of_getElem? h1, List.mem_of_getElem? h2⟩
  have h0 : ∀ p ∈ shuffleP s.points, idOf p ≠ 0 := fun p hp => hids.1 p ((hpts p).mp ((hP _).mem_iff.mp hp))
  have hc : ((createMap idOf (·.id) (fun l : DLine P K => [l.first, l.last]) s.next ((shuffleL s.lines).map (·.2))).points.map (·.1)).Nodup := (toMap_keys _).1
  obtain ⟨a1, a2, a3, a4⟩ := addPoints_spec idOf (shuffleP s.points) _ h0 hc
  refine ⟨List.Nodup.of_map _ a2, ?_⟩
  have hsound : ∀ x ∈ ((shuffleP s.points).foldl (DMap.addPoint idOf)
      (createMap idOf (·.id) (fun l : DLine P K => [l.first, l.last]) s.next ((shuffleL s.lines).map (·.2)))).points, x.2 ∈ g.vertices ∧ x.1 = idOf x.2 := by
    intro x hx
    rcases a4 x hx with h | ⟨h, h'⟩
    · have := toMap_sub _ x h
      simp only [List.mem_map, List.mem_flatMap] at this
      obtain ⟨p, ⟨l, ⟨y, hy, rfl⟩, hp⟩, rfl⟩ := this
      have := hends y ((hL _).mem_iff.mp hy)
      simp only [List.mem_cons, List.not_mem_nil, or_false] at hp
      rcases hp with rfl | rfl
      · exact ⟨this.1, rfl⟩
      · exact ⟨this.2, rfl⟩
    · exact ⟨(hpts _).mp ((hP _).mem_iff.mp h), h'⟩
  intro k p
  constructor
  · intro h
    exact hsound _ h
  · rintro ⟨hp, rfl⟩
    have hk := (a3 (idOf p)).mpr (.inr (List.mem_map_of_mem ((hP _).mem_iff.mpr ((hpts p).mpr hp))))
    obtain ⟨x, hx, hxk⟩ := List.mem_map.mp hk
    obtain ⟨h1, h2⟩ := hsound x hx
    have : x.2 = p := hids.2 _ h1 _ hp (h2.symm.trans hxk)
    have hxe : x = (idOf p, p) := Prod.ext hxk this
    rw [← hxe]
    exact hx

theorem length_le_one {l : List (P × P × EdgeInfo K)} {a : P × P} (h : ∀ x ∈ l, (x.1, x.2.1) = a) (hn : (l.map fun e => (e.1, e.2.1)).Nodup) :
    l.length ≤ 1 := by
  match l, h, hn with
  | [], _, _ => simp
  | [_], _, _ => simp
  | x :: y :: l, h, hn =>
    have h1 := h x (by simp)
    have h2 := h y (by simp)
    simp only [List.map_cons, List.nodup_cons, List.mem_cons] at hn
    exact absurd (.inl (h1.trans h2.symm)) hn.1

/-- **C69.** If at most one relation leads from an element to another one, then two elements are joined by a linestring exactly if there is a relation
between them that is shown, and by one only. It leads along such a relation and has its kind and cost; it has the kind and cost of the opposite relation
exactly if there is one. -/
theorem debug_lines (hb : Built t g) (hids : IdsOk idOf g.vertices) (hsimple : Simple g costId adjacent conflicting) (hl : loa.Perm g.vertices.zipIdx)
    (hP : ∀ l, (shuffleP l).Perm l) (hL : ∀ l, (shuffleL l).Perm l) {m : DMap P (DLine P K)}
    (hm : getDebugLaneletMap idOf g costId adjacent conflicting loa shuffleP shuffleL next = .ok m) :
    (∀ x ∈ m.lines, Shown g costId adjacent conflicting x.2.first x.2.last x.2.relation x.2.cost ∧
      ∀ rel c, x.2.reverse = some (rel, c) ↔ x.2.first ≠ x.2.last ∧ Shown g costId adjacent conflicting x.2.last x.2.first rel c) ∧
    (∀ p q rel c, Shown g costId adjacent conflicting p q rel c →
      ∃ x ∈ m.lines, (x.2.first = p ∧ x.2.last = q) ∨ (x.2.first = q ∧ x.2.last = p)) ∧
    (m.lines.Pairwise fun x y => x.1 ≠ y.1 ∧ ¬ ((x.2.first = y.2.first ∧ x.2.last = y.2.last) ∨ (x.2.first = y.2.last ∧ x.2.last = y.2.first))) := by
  unfold getDebugLaneletMap at hm
  split at hm
  · cases hm
  cases hm
  unfold runDebug
  obtain ⟨v1, v2, v3⟩ := visit_all idOf g costId (allowedRelations adjacent conflicting) loa ⟨[], [], next⟩
  generalize hs : loa.foldl (visitVertex idOf g costId (allowedRelations adjacent conflicting)) ⟨[], [], next⟩ = s at v1 v2 v3
  obtain ⟨l1, l2, l3, l4, l5, l6⟩ := linesOf_spec idOf (edgesOf g costId (allowedRelations adjacent conflicting) loa) next
  rw [← v1] at l1 l2 l5 l6
  simp only at l1 l2 l5 l6 ⊢
  have hpts : ∀ q, q ∈ s.points → q ∈ g.vertices := by
    intro q hq
    rcases (v2 q).mp hq with h | h | h
    · cases h
    · rw [(hl.map (·.1)).mem_iff, List.zipIdx_map_fst] at h; exact h
    · obtain ⟨⟨p, q', info⟩, h', rfl⟩ := List.mem_map.mp h
      obtain ⟨e, -, -, h, -⟩ := (mem_edgesOf hb hl p q' info).mp h'
      exact List.mem_of_getElem? h
  have h0 : ∀ p ∈ shuffleP s.points, idOf p ≠ 0 := fun p hp => hids.1 p (hpts p ((hP _).mem_iff.mp hp))
  obtain ⟨a1, -⟩ := addPoints_spec idOf (shuffleP s.points)
    (createMap idOf (·.id) (fun l : DLine P K => [l.first, l.last]) s.next ((shuffleL s.lines).map (·.2))) h0 (toMap_keys _).1
  rw [a1]
  have hlines : (createMap idOf (·.id) (fun l : DLine P K => [l.first, l.last]) s.next ((shuffleL s.lines).map (·.2))).lines =
      ((shuffleL s.lines).map (·.2)).map fun l => (l.id, l) := by
    apply toMap_nodup
    rw [List.map_map, List.map_map]
    exact ((hL _).map _).nodup_iff.mpr l2
  rw [hlines]
  have hmem : ∀ x, x ∈ ((shuffleL s.lines).map (·.2)).map (fun l : DLine P K => (l.id, l)) ↔ ∃ k, (k, x.2) ∈ s.lines ∧ x.1 = x.2.id := by
    intro x
    simp only [List.mem_map]
    constructor
    · rintro ⟨l, ⟨y, hy, rfl⟩, rfl⟩
      exact ⟨y.1, (hL _).mem_iff.mp hy, rfl⟩
    · rintro ⟨k, hk, hx⟩
      exact ⟨x.2, ⟨_, (hL _).mem_iff.mpr hk, rfl⟩, Prod.ext hx.symm rfl⟩
  have hshown : ∀ p q rel c, Shown g costId adjacent conflicting p q rel c ↔
      ∃ info, (p, q, info) ∈ edgesOf g costId (allowedRelations adjacent conflicting) loa ∧ info.relation = rel ∧ info.routingCost = c := by
    intro p q rel c
    constructor
    · rintro ⟨h1, e, h2, h3, h4, h5, h6, h7⟩
      exact ⟨e.info, (mem_edgesOf hb hl p q e.info).mpr ⟨e, h2, h3, h4, rfl, h5, h6 ▸ h1⟩, h6, h7⟩
    · rintro ⟨info, h1, rfl, rfl⟩
      obtain ⟨e, k1, k2, k3, rfl, k5, k6⟩ := (mem_edgesOf hb hl p q info).mp h1
      exact ⟨k6, e, k1, k2, k3, k5, rfl, rfl⟩
  have hvert : ∀ e ∈ edgesOf g costId (allowedRelations adjacent conflicting) loa, e.1 ∈ g.vertices ∧ e.2.1 ∈ g.vertices := by
    intro e he
    obtain ⟨b, -, h1, h2, -⟩ := (mem_edgesOf hb hl e.1 e.2.1 e.2.2).mp he
    exact ⟨List.mem_of_getElem? h1, List.mem_of_getElem? h2⟩
  have hpair : ∀ e ∈ edgesOf g costId (allowedRelations adjacent conflicting) loa, ∀ e' ∈ edgesOf g costId (allowedRelations adjacent conflicting) loa,
      (getPair idOf e.1 e.2.1 = getPair idOf e'.1 e'.2.1 ↔ (e.1 = e'.1 ∧ e.2.1 = e'.2.1) ∨ (e.1 = e'.2.1 ∧ e.2.1 = e'.1)) := by
    intro e he e' he'
    apply getPair_eq
    intro x hx y hy
    have h1 := hvert e he
    have h2 := hvert e' he'
    refine hids.2 x ?_ y ?_
    · simp only [List.mem_cons, List.not_mem_nil, or_false] at hx
      rcases hx with rfl | rfl | rfl | rfl
      exacts [h1.1, h1.2, h2.1, h2.2]
    · simp only [List.mem_cons, List.not_mem_nil, or_false] at hy
      rcases hy with rfl | rfl | rfl | rfl
      exacts [h1.1, h1.2, h2.1, h2.2]
  have hnd := edgesOf_pairs hb hl hsimple
  generalize edgesOf g costId (allowedRelations adjacent conflicting) loa = es at *
  -- the first edge of a line
  have hfirst : ∀ k l, (k, l) ∈ s.lines → ∃ e ∈ es, getPair idOf e.1 e.2.1 = k ∧ l.first = e.1 ∧ l.last = e.2.1 ∧ l.relation = e.2.2.relation ∧
      l.cost = e.2.2.routingCost := by
    intro k l hkl
    obtain ⟨e, rest, k1, k2, k3, k4, k5, -⟩ := l5 _ hkl
    have : e ∈ e :: rest := by simp
    rw [← k1] at this
    have h := List.mem_filter.mp this
    exact ⟨e, h.1, of_decide_eq_true h.2, k2, k3, k4, k5⟩
  refine ⟨?_, ?_, ?_⟩
  · intro x hx
    obtain ⟨k, hk, -⟩ := (hmem x).mp hx
    obtain ⟨e, rest, k1, k2, k3, k4, k5, k6⟩ := l5 _ hk
    simp only at k1 k2 k3 k4 k5 k6
    have hsub : (e :: rest).Sublist es := k1 ▸ List.filter_sublist
    have hall : ∀ y ∈ e :: rest, y ∈ es ∧ getPair idOf y.1 y.2.1 = k := by
      intro y hy
      rw [← k1] at hy
      have h := List.mem_filter.mp hy
      exact ⟨h.1, of_decide_eq_true h.2⟩
    have he := hall e (by simp)
    have hndl := hnd.sublist (hsub.map _)
    simp only [List.map_cons, List.nodup_cons] at hndl
    have hrest : ∀ y ∈ rest, (y.1, y.2.1) = (e.2.1, e.1) ∧ e.1 ≠ e.2.1 := by
      intro y hy
      have h1 := hall y (List.mem_cons_of_mem _ hy)
      have h2 := (hpair y h1.1 e he.1).mp (h1.2.trans he.2.symm)
      rcases h2 with ⟨h2, h3⟩ | ⟨h2, h3⟩
      · exact absurd (List.mem_map.mpr ⟨y, hy, Prod.ext h2 h3⟩) hndl.1
      · refine ⟨Prod.ext h2 h3, fun h => hndl.1 (List.mem_map.mpr ⟨y, hy, ?_⟩)⟩
        exact Prod.ext (h2.trans h.symm) (h3.trans h)
    have hlen := length_le_one (fun y hy => (hrest y hy).1) hndl.2
    refine ⟨?_, ?_⟩
    · rw [hshown]
      exact ⟨e.2.2, by rw [k2, k3]; exact he.1, k4.symm, k5.symm⟩
    · intro rel c
      rw [k6, k2, k3, hshown]
      constructor
      · intro h
        obtain ⟨y, hy, hyc⟩ := Option.map_eq_some_iff.mp h
        have hyr := List.mem_of_getLast? hy
        obtain ⟨h1, h2⟩ := hrest y hyr
        simp only [Prod.mk.injEq] at h1 hyc
        refine ⟨h2, y.2.2, ?_, hyc.1, hyc.2⟩
        rw [← h1.1, ← h1.2]
        exact (hall y (List.mem_cons_of_mem _ hyr)).1
      · rintro ⟨hne, info, hinfo, rfl, rfl⟩
        have hmem' : (e.2.1, e.1, info) ∈ e :: rest := by
          rw [← k1]
          refine List.mem_filter.mpr ⟨hinfo, decide_eq_true ?_⟩
          rw [← he.2]
          exact (hpair _ hinfo _ he.1).mpr (.inr ⟨rfl, rfl⟩)
        rcases List.mem_cons.mp hmem' with h | h
        · exact absurd (congrArg (fun z => z.1) h).symm hne
        · match rest, h, hlen with
          | [y], h, _ =>
            simp only [List.mem_singleton] at h
            subst h
            rfl
          | _ :: _ :: _, _, hlen => simp at hlen
  · intro p q rel c h
    obtain ⟨info, h1, -, -⟩ := (hshown p q rel c).mp h
    obtain ⟨y, hy, hyk⟩ := List.mem_map.mp (l6 _ h1)
    obtain ⟨e, he, k1, k2, k3, -⟩ := hfirst y.1 y.2 hy
    refine ⟨(y.2.id, y.2), (hmem _).mpr ⟨y.1, hy, rfl⟩, ?_⟩
    simp only
    rw [k2, k3]
    exact (hpair e he _ h1).mp (k1.trans hyk)
  · rw [List.pairwise_map, List.pairwise_map]
    have h1 : (shuffleL s.lines).Pairwise fun x y => x.1 ≠ y.1 ∧ x.2.id ≠ y.2.id := by
      have p1 := List.pairwise_map.mp (((hL s.lines).map (·.1)).nodup_iff.mpr l1)
      have p2 := List.pairwise_map.mp (((hL s.lines).map (·.2.id)).nodup_iff.mpr l2)
      exact p1.and p2
    refine List.Pairwise.imp_of_mem ?_ h1
    intro x y hx hy hxy
    refine ⟨hxy.2, fun h => hxy.1 ?_⟩
    obtain ⟨e, he, k1, k2, k3, -⟩ := hfirst x.1 x.2 ((hL _).mem_iff.mp hx)
    obtain ⟨e', he', k1', k2', k3', -⟩ := hfirst y.1 y.2 ((hL _).mem_iff.mp hy)
    rw [k2, k3, k2', k3'] at h
    rw [← k1, ← k1']
    exact (hpair e he e' he').mpr h

/-- **C69.** The debug map fails exactly if there is no such cost module. -/
theorem debug_error : getDebugLaneletMap idOf g costId adjacent conflicting loa shuffleP shuffleL next = .error () ↔ g.numRoutingCosts ≤ costId := by
  unfold getDebugLaneletMap
  split
  · rename_i h; simpa using h
  · rename_i h; simp only [reduceCtorEq, false_iff]; exact h

end

/-! ### exports -/

/-- every kind of relation has its own name -/
theorem relationToString_injective : ∀ a ∈ edgeRelations, ∀ b ∈ edgeRelations, relationToString a = relationToString b → a = b := by decide

/-- relations have the same colour exactly if they are the same or both are adjacent without lane change -/
theorem relationToColor_same : ∀ a ∈ edgeRelations, ∀ b ∈ edgeRelations, relationToColor a = relationToColor b ↔
    a = b ∨ (a ∈ [AdjacentLeft, AdjacentRight] ∧ b ∈ [AdjacentLeft, AdjacentRight]) := by decide

/-- the documented colours -/
theorem relationToColor_table : edgeRelations.map relationToColor = [Successor, Left, Right, AdjacentLeft, AdjacentRight, Conflicting, Area].map fun r =>
    if r = Successor then "green" else if r = Left then "blue" else if r = Right then "magenta" else if r = Conflicting then "red"
    else if r = Area then "yellow" else "black" := by decide

theorem exported_table : ∀ ex : RelationType, ∀ r ∈ edgeRelations,
    ((allRelations &&& ~~~ex == allRelations || (allRelations &&& ~~~ex &&& r) != 0) = true ↔ ex &&& r = 0) := by decide +kernel

section
variable {t : CostTests K} {g : RGraph P K} {costId : Nat}

/-- Specification. The relations that are exported: those of the cost module whose kind is not excluded. -/
def exported (g : RGraph P K) (costId : Nat) (exclude : RelationType) : List (BaseEdge K) :=
  g.edges.filter fun e => decide (e.info.costId = costId) && decide (exclude &&& e.info.relation = 0)

theorem export_perm (hb : Built t g) (exclude : RelationType) :
    ((List.range g.vertices.length).flatMap (g.outEdges costId (allRelations &&& ~~~exclude))).Perm (exported g costId exclude) := by
  have wf := built_wf hb
  have h := Route.flatMap_perm (E := g.edges.filter fun e => passes costId (allRelations &&& ~~~exclude) e.info) (l := List.range g.vertices.length) List.nodup_range
  have h1 : (fun u => (g.edges.filter fun e => passes costId (allRelations &&& ~~~exclude) e.info).filter fun e => e.src == u) =
      g.outEdges costId (allRelations &&& ~~~exclude) := by
    funext u
    unfold RGraph.outEdges
    rw [List.filter_filter]
  rw [h1, List.filter_filter] at h
  refine h.trans (List.Perm.of_eq ?_)
  unfold exported
  apply List.filter_congr
  intro e he
  have h2 := exported_table exclude _ (wf.rel e he)
  have h3 := wf.src e he
  unfold passes
  rw [Bool.eq_iff_iff]
  simp only [Bool.and_eq_true, decide_eq_true_eq, List.mem_range, beq_iff_eq, h2]
  tauto

/-- **C69.** An export fails exactly if there is no file name, no such cost module or the file cannot be opened. Otherwise the graph is exported with all of its
elements and exactly those of its relations that belong to the cost module and are not excluded, each once, with its kind and its cost. GraphViz files do not
have the costs of relations that cannot be used. -/
theorem export_exact (hb : Built t g) (idOf : P → Int) (filename : String) (exclude : RelationType) (opens : Bool) :
    (exportGraphML g filename exclude costId opens = .error .invalidInput ↔ filename = "" ∨ g.numRoutingCosts ≤ costId) ∧
    (exportGraphViz idOf g filename exclude costId opens = .error .invalidInput ↔ filename = "" ∨ g.numRoutingCosts ≤ costId) ∧
    (filename ≠ "" → costId < g.numRoutingCosts → opens = false →
      exportGraphML g filename exclude costId opens = .error .cannotOpen ∧ exportGraphViz idOf g filename exclude costId opens = .error .cannotOpen) ∧
    (filename ≠ "" → costId < g.numRoutingCosts → opens = true →
      (∃ es, exportGraphML g filename exclude costId opens = .ok (g.vertices, es) ∧
        es.Perm ((exported g costId exclude).map fun e => (e.src, e.dst, relationToString e.info.relation, e.info.routingCost))) ∧
      ∃ es, exportGraphViz idOf g filename exclude costId opens = .ok (g.vertices.map idOf, es) ∧
        (es.map fun e => (e.src, e.dst, e.label, e.weight)).Perm ((exported g costId exclude).map fun e => (e.src, e.dst, relationToString e.info.relation,
          if e.info.relation ∈ [Successor, Left, Right, Area] then some e.info.routingCost else none)) ∧ ∀ e ∈ es, e.costId = costId) := by
  have hw : ∀ r ∈ edgeRelations, (r ≠ AdjacentLeft ∧ r ≠ AdjacentRight ∧ r ≠ Conflicting) ↔ r ∈ [Successor, Left, Right, Area] := by decide
  refine ⟨?_, ?_, ?_, ?_⟩
  · unfold exportGraphML
    split
    · simp_all
    · split
      · simp_all
      · split <;> simp_all
  · unfold exportGraphViz
    split
    · simp_all
    · split
      · simp_all
      · split <;> simp_all
  · intro h1 h2 h3
    unfold exportGraphML exportGraphViz
    rw [if_neg h1, if_neg (by omega), if_pos h3, if_neg h1, if_neg (by omega), if_pos h3]
    exact ⟨rfl, rfl⟩
  · intro h1 h2 h3
    unfold exportGraphML exportGraphViz
    rw [if_neg h1, if_neg (by omega), if_neg (by simp [h3]), if_neg h1, if_neg (by omega), if_neg (by simp [h3])]
    refine ⟨⟨_, rfl, (export_perm hb exclude).map _⟩, _, rfl, ?_, ?_⟩
    · rw [List.map_map]
      refine ((export_perm hb exclude).map _).trans (List.Perm.of_eq (List.map_congr_left fun e he => ?_))
      have he' := (List.mem_filter.mp he).1
      simp only [Function.comp, vizEdge]
      rw [if_congr (hw _ ((built_wf hb).rel e he')) rfl rfl]
    · intro e he
      obtain ⟨b, hb', rfl⟩ := List.mem_map.mp he
      have := (List.mem_filter.mp ((export_perm hb exclude).mem_iff.mp hb')).2
      simp only [Bool.and_eq_true, decide_eq_true_eq] at this
      exact this.1

/-- Specification. The documented bit of each kind of relation with its name and its colour in exported graphs. -/
def relationTable : List (RelationType × String × String) :=
  [(1, "Successor", "green"), (2, "Left", "blue"), (4, "Right", "magenta"), (8, "AdjacentLeft", "black"), (16, "AdjacentRight", "black"),
    (32, "Conflicting", "red"), (64, "Area", "yellow")]

theorem relation_table : ∀ r ∈ edgeRelations, relationTable.lookup r = some (relationToString r, relationToColor r) := by decide

/-- nothing has the relation `None`, which is written with a name of its own and without a colour -/
theorem relation_none : RelationType.None ∉ edgeRelations ∧ relationToString .None = "None" ∧ relationToColor .None = "" := by decide

/-- **C69.** If the caller does not say what to exclude, all relations of the cost module are exported, each once, with the documented name and colour of its
kind. -/
theorem export_default (hb : Built t g) (idOf : P → Int) (filename : String) (hf : filename ≠ "") (hc : costId < g.numRoutingCosts) :
    (∃ es, exportGraphML g filename .None costId true = .ok (g.vertices, es) ∧
      (es.map fun e => (e.1, e.2.1, some e.2.2.1, e.2.2.2)).Perm ((g.edges.filter fun e => e.info.costId = costId).map fun e =>
        (e.src, e.dst, (relationTable.lookup e.info.relation).map (·.1), e.info.routingCost))) ∧
    ∃ es, exportGraphViz idOf g filename .None costId true = .ok (g.vertices.map idOf, es) ∧
      (es.map fun e => (e.src, e.dst, some (e.label, e.color))).Perm ((g.edges.filter fun e => e.info.costId = costId).map fun e =>
        (e.src, e.dst, relationTable.lookup e.info.relation)) := by
  have hall : exported g costId .None = g.edges.filter fun e => e.info.costId = costId := by
    unfold exported
    apply List.filter_congr
    intro e _
    simp [RelationType.None]
  have hp := export_perm (costId := costId) hb .None
  rw [hall] at hp
  unfold exportGraphML exportGraphViz
  rw [if_neg hf, if_neg (by omega), if_neg (by simp), if_neg hf, if_neg (by omega), if_neg (by simp)]
  refine ⟨⟨_, rfl, ?_⟩, _, rfl, ?_⟩
  · rw [List.map_map]
    refine (hp.map _).trans (List.Perm.of_eq (List.map_congr_left fun e he => ?_))
    simp only [Function.comp, relation_table _ ((built_wf hb).rel e (List.mem_filter.mp he).1), Option.map_some]
  · rw [List.map_map]
    refine (hp.map _).trans (List.Perm.of_eq (List.map_congr_left fun e he => ?_))
    simp only [Function.comp, vizEdge, relation_table _ ((built_wf hb).rel e (List.mem_filter.mp he).1)]

end

/-! ### cases -/

theorem exRoad_simple : Simple exRoad 0 true true := by
  unfold Simple exRoad
  decide

theorem exRoad_ids : IdsOk (fun n : Nat => (n : Int)) exRoad.vertices := by
  unfold IdsOk exRoad
  decide

/-- Case: the graph of three lanelets meets the hypotheses of `debug_points` and `debug_lines`: it has three points and three linestrings. -/
example : ∃ m, getDebugLaneletMap (fun n : Nat => (n : Int)) exRoad 0 true true exRoad.vertices.zipIdx id id 100 = .ok m ∧ m.points.length = 3 ∧
    (30, 30) ∈ m.points ∧ m.lines.map (fun x => (x.1, x.2.first, x.2.last)) = [(100, 10, 20), (101, 10, 30), (102, 20, 30)] ∧
    (∀ x ∈ m.lines, Shown exRoad 0 true true x.2.first x.2.last x.2.relation x.2.cost) := by
  refine ⟨_, rfl, by decide, ?_, by decide, ?_⟩
  · exact ((debug_points (costId := 0) (adjacent := true) (conflicting := true) (shuffleP := id) (shuffleL := id) (next := 100) exRoad_built exRoad_ids
      (List.Perm.refl _) (fun _ => .refl _) (fun _ => .refl _) rfl).2 30 30).mpr ⟨by decide, rfl⟩
  · exact fun x hx => ((debug_lines (shuffleP := id) (shuffleL := id) (next := 100) exRoad_built exRoad_ids exRoad_simple
      (List.Perm.refl _) (fun _ => .refl _) (fun _ => .refl _) rfl).1 x hx).1

/-- Case: the graph of three lanelets meets the hypotheses of `export_default`. -/
example : (∃ es, exportGraphViz (fun n : Nat => (n : Int)) exRoad "a.viz" .None 0 true = .ok ([10, 20, 30], es) ∧
    (es.map fun e => (e.src, e.dst, some (e.label, e.color))).Perm ((exRoad.edges.filter fun e => e.info.costId = 0).map fun e =>
      (e.src, e.dst, relationTable.lookup e.info.relation))) ∧ (exRoad.edges.filter fun e => e.info.costId = 0) ≠ [] :=
  ⟨(export_default (costId := 0) exRoad_built (fun n : Nat => (n : Int)) "a.viz" (by decide) (by decide)).2, by decide⟩

/-- Case: the two conflicting lanelets are joined by one linestring that has the relation in both directions, and by none if conflicts are not shown. -/
example : (∃ m, getDebugLaneletMap (fun n : Nat => (n : Int)) exConflict 0 false true exConflict.vertices.zipIdx id id 100 = .ok m ∧
      m.lines.map (fun x => (x.2.first, x.2.last, x.2.relation, x.2.reverse)) = [(10, 20, Conflicting, some (Conflicting, 1))]) ∧
    ∃ m, getDebugLaneletMap (fun n : Nat => (n : Int)) exConflict 0 true false exConflict.vertices.zipIdx id id 100 = .ok m ∧ m.lines.length = 0 :=
  ⟨⟨_, rfl, by decide⟩, _, rfl, by decide⟩

/-- a lanelet that can be used in both directions: the element and its inversion, which are in conflict -/
def exBoth : RGraph (Nat × Bool) Nat :=
  ⟨1, [(1, false), (1, true)], [⟨0, 1, ⟨1, 0, Conflicting⟩⟩, ⟨1, 0, ⟨1, 0, Conflicting⟩⟩]⟩

/-- C69 is violated: a lanelet that can be used in both directions is twice in the graph with the same id. The debug map has only one point for it, and the
conflict between its two directions is shown by two linestrings, neither of which has the opposite relation. -/
theorem debug_inverted_counterexample : Built natTests exBoth ∧
    ∃ m, getDebugLaneletMap (fun p : Nat × Bool => (p.1 : Int)) exBoth 0 true true exBoth.vertices.zipIdx id id 100 = .ok m ∧ m.points.length = 1 ∧
      m.lines.map (fun x => (x.2.first, x.2.last, x.2.reverse)) = [((1, false), (1, true), none), ((1, true), (1, false), none)] :=
  ⟨Route.wf_built ⟨by decide, by decide, by decide, by decide, by decide, by decide⟩, _, rfl, by decide, by decide⟩

/-- two lanelets with two relations in the same direction, as added by addEdge -/
def exParallel : RGraph Nat Nat :=
  ⟨1, [10, 20], [⟨0, 1, ⟨1, 0, Successor⟩⟩, ⟨0, 1, ⟨1, 0, Conflicting⟩⟩]⟩

/-- C69 is violated: of two relations in the same direction the second one is shown as the relation of the opposite direction, in which there is none. -/
theorem debug_parallel_counterexample : Built natTests exParallel ∧
    ∃ m, getDebugLaneletMap (fun n : Nat => (n : Int)) exParallel 0 true true exParallel.vertices.zipIdx id id 100 = .ok m ∧
      m.lines.map (fun x => (x.2.first, x.2.last, x.2.relation, x.2.reverse)) = [(10, 20, Successor, some (Conflicting, 1))] :=
  ⟨Route.wf_built ⟨by decide, by decide, by decide, by decide, by decide, by decide⟩, _, rfl, by decide⟩

/-- Case: everything but the lane change is exported. -/
example : ∃ es, exportGraphViz (fun n : Nat => (n : Int)) exRoad "x.gv" (Left ||| Right) 0 true = .ok ([10, 20, 30], es) ∧
    es.map (fun e => (e.src, e.dst, e.label, e.weight)) = [(0, 1, "Successor", some 1), (1, 2, "Successor", some 2)] := ⟨_, rfl, by decide⟩

end Verif.Debug
