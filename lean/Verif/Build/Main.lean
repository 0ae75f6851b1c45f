import Verif.Build.Lemmas
import Verif.Lanelet.Props

namespace Verif.Build
open Verif.Graph (RGraph EdgeInfo BaseEdge CostTests RelationType)
open Verif.Graph.RelationType
open Verif.Lanelet (LH World points leftBound rightBound follows leftOf rightOf invertL)
open Verif.LineStr (LS)
open List (Perm)
open scoped List

set_option linter.unusedSectionVars false
variable {P K : Type} [DecidableEq P]

/-- `b` is the direct neighbour of `a` on this side -/
def Beside (i : Input P K) (isLeft : Bool) (a b : LH) : Prop :=
  (if isLeft then leftOf i.w b a else rightOf i.w b a) = true

/-- the parts of the construction: edges between lanelets, lane changes, areas -/
inductive Phase
  | lanes | changes | areas

/-- Why edges are added to the graph `g`: the reasons of the builder. -/
inductive Reason (i : Input P K) : Phase → RGraph Prim K → Prim → Prim → List (EdgeInfo K) → Prop
  | succ {g} (a b : LH) : a ∈ allLanelets i → b ∈ allLanelets i → follows i.w a b = true → i.rules.passLL a b = true →
      Reason i .lanes g (.inl a) (.inl b) (infos i (.inl a) (.inl b) Successor)
  | adjacent {g} (isLeft : Bool) (a b : LH) : a ∈ allLanelets i → b ∈ allLanelets i → a ≠ b → Beside i isLeft a b →
      i.rules.change a b = false → edgesOf g (.inl a) (.inl b) = [] →
      Reason i .lanes g (.inl a) (.inl b) (infos i (.inl a) (.inl b) (if isLeft then AdjacentLeft else AdjacentRight))
  | conflict {g} (a b : LH) : a ≠ b → (a.inv = false ∨ b.inv = false) →
      (i.overlapsLL a b = true ∨ i.overlapsLL b a = true ∨ b = invertL a) →
      Reason i .lanes g (.inl a) (.inl b) (infos i (.inl a) (.inl b) Conflicting)
  | change {g} (isLeft : Bool) (a b : LH) (rest : List (LH × LH)) : a ∈ allLanelets i → b ∈ allLanelets i → a ≠ b →
      Beside i isLeft a b → i.rules.change a b = true →
      Reason i .changes g (.inl a) (.inl b) (i.costs.zipIdx.map (laneChangeInfo i isLeft ((a, b) :: rest)))
  | areaLanelet {g} (ar : Nat) (a : LH) : i.rules.passAL ar a = true →
      Reason i .areas g (.inr ar) (.inl a) (infos i (.inr ar) (.inl a) Area)
  | laneletArea {g} (a : LH) (ar : Nat) : i.rules.passLA a ar = true →
      Reason i .areas g (.inl a) (.inr ar) (infos i (.inl a) (.inr ar) Area)
  | areaArea {g} (a b : Nat) : a ≠ b → i.rules.passAA a b = true →
      Reason i .areas g (.inr a) (.inr b) (infos i (.inr a) (.inr b) Area)
  | conflictLaneletArea {g} (a : LH) (ar : Nat) : i.overlapsAL ar a = true → a.inv = false →
      (∀ ll, ll = a ∨ ll = invertL a → i.rules.passAL ar ll = false ∧ i.rules.passLA ll ar = false) →
      Reason i .areas g (.inl a) (.inr ar) (infos i (.inl a) (.inr ar) Conflicting)
  | conflictAreas {g} (a b : Nat) : a ≠ b → i.overlapsAA b a = true → i.rules.passAA b a = false →
      Reason i .areas g (.inr a) (.inr b) (infos i (.inr a) (.inr b) Conflicting)

/-- the graph grows by edges with a reason -/
inductive Grow (i : Input P K) (ph : Phase) : RGraph Prim K → RGraph Prim K → Prop
  | refl (g) : Grow i ph g g
  | step {g g'} (a b xs) : Grow i ph g g' → Reason i ph g' a b xs → Grow i ph g (plus g' a b xs)

theorem Grow.trans {i : Input P K} {ph} {a b c : RGraph Prim K} (h1 : Grow i ph a b) (h2 : Grow i ph b c) :
    Grow i ph a c := by
  induction h2 with
  | refl => exact h1
  | step a b xs _ r ih => exact .step a b xs ih r

theorem Grow.one {i : Input P K} {ph} {g : RGraph Prim K} {a b xs} (r : Reason i ph g a b xs) :
    Grow i ph g (plus g a b xs) := .step a b xs (.refl g) r

theorem Grow.vertices {i : Input P K} {ph} {g g' : RGraph Prim K} (h : Grow i ph g g') : g'.vertices = g.vertices := by
  induction h with
  | refl => rfl
  | step a b xs _ _ ih => rw [plus_vertices, ih]

theorem Grow.getVertex {i : Input P K} {ph} {g g' : RGraph Prim K} (h : Grow i ph g g') (a : Prim) :
    g'.getVertex a = g.getVertex a := by unfold RGraph.getVertex; rw [h.vertices]

theorem Grow.mem {i : Input P K} {ph} {g g' : RGraph Prim K} (h : Grow i ph g g') (a b : Prim) (x : EdgeInfo K)
    (hx : x ∈ edgesOf g a b) : x ∈ edgesOf g' a b := by
  induction h with
  | refl => exact hx
  | step a' b' xs _ _ ih => rw [edgesOf_plus]; exact List.mem_append_left _ ih

theorem Grow.hasEdge {i : Input P K} {ph} {g g' : RGraph Prim K} (h : Grow i ph g g') (a b : LH) (hx : hasEdge g a b = true) :
    hasEdge g' a b = true := by
  rw [hasEdge_iff] at hx ⊢
  obtain ⟨x, hx⟩ := List.exists_mem_of_ne_nil _ hx
  exact List.ne_nil_of_mem (h.mem _ _ x hx)

theorem Grow.reason {i : Input P K} {ph} {g g' : RGraph Prim K} (h : Grow i ph g g') (a b : Prim) (x : EdgeInfo K)
    (hx : x ∈ edgesOf g' a b) :
    x ∈ edgesOf g a b ∨ ∃ g'' xs, Reason i ph g'' a b xs ∧ x ∈ xs ∧ ∀ y ∈ xs, y ∈ edgesOf g' a b := by
  induction h with
  | refl => exact .inl hx
  | step a' b' xs _ r ih =>
    rw [edgesOf_plus] at hx
    rcases List.mem_append.mp hx with hx | hx'
    · rcases ih hx with h | ⟨g'', ys, h1, h2, h3⟩
      · exact .inl h
      · exact .inr ⟨g'', ys, h1, h2, fun y hy => by rw [edgesOf_plus]; exact List.mem_append_left _ (h3 y hy)⟩
    · split at hx'
      · rename_i hc
        obtain ⟨rfl, rfl, hc⟩ := hc
        refine .inr ⟨_, xs, r, hx', fun y hy => ?_⟩
        rw [edgesOf_plus, if_pos ⟨rfl, rfl, hc⟩]
        exact List.mem_append_right _ hy
      · simp at hx'

/-- Helper of the proofs. -/
def isConflict (x : EdgeInfo K) : Bool := x.relation == Conflicting

/-- conflicting edges between lanelets are symmetric -/
def Symm (g : RGraph Prim K) : Prop :=
  ∀ a b : LH, (edgesOf g (.inl a) (.inl b)).filter isConflict = (edgesOf g (.inl b) (.inl a)).filter isConflict

theorem Symm.plus_other {g : RGraph Prim K} (h : Symm g) (a b : Prim) (xs : List (EdgeInfo K))
    (hx : (∀ x ∈ xs, x.relation ≠ Conflicting) ∨ (∀ u v, a = .inl u → b ≠ .inl v)) : Symm (plus g a b xs) := by
  intro u v
  have key : ∀ u v : LH, (edgesOf (plus g a b xs) (.inl u) (.inl v)).filter isConflict =
      (edgesOf g (.inl u) (.inl v)).filter isConflict := by
    intro u v
    rw [edgesOf_plus, List.filter_append]
    split
    · rename_i hc
      rcases hx with hx | hx
      · have h0 : xs.filter isConflict = [] := List.filter_eq_nil_iff.mpr fun x hm hq =>
          hx x hm (by simpa [isConflict] using hq)
        rw [h0]; simp
      · exact absurd hc.2.1.symm (hx u v hc.1.symm)
    · simp
  rw [key, key, h u v]

theorem infos_rel (i : Input P K) (a b : Prim) (rel : RelationType) : ∀ x ∈ infos i a b rel, x.relation = rel := by
  intro x hx
  unfold infos at hx
  split at hx <;> (obtain ⟨ci, -, rfl⟩ := List.mem_map.mp hx; rfl)

theorem infos_conflict (i : Input P K) (a b c d : Prim) : infos i a b Conflicting = infos i c d Conflicting := by
  have h : ¬ ((Conflicting : RelationType) = Successor ∨ (Conflicting : RelationType) = Area) := by decide
  simp [infos, h]

theorem infos_ne_nil (i : Input P K) (hc : i.costs ≠ []) (a b : Prim) (rel : RelationType)
    (h : ¬ (rel = Successor ∨ rel = Area)) : infos i a b rel ≠ [] := by
  unfold infos
  rw [if_neg h]
  simp [hc]

theorem Symm.plus_both {i : Input P K} {g : RGraph Prim K} (h : Symm g) (a b : LH) :
    Symm (plus (plus g (.inl a) (.inl b) (infos i (.inl a) (.inl b) Conflicting)) (.inl b) (.inl a)
      (infos i (.inl b) (.inl a) Conflicting)) := by
  intro u v
  rw [edgesOf_plus, edgesOf_plus, edgesOf_plus, edgesOf_plus, plus_vertices,
    infos_conflict i (.inl b) (.inl a) (.inl a) (.inl b)]
  simp only [List.filter_append, h u v, Sum.inl.injEq]
  rw [List.append_assoc, List.append_assoc]
  congr 1
  by_cases h1 : u = a ∧ v = b
  · obtain ⟨rfl, rfl⟩ := h1
    by_cases h2 : u = v
    · subst h2; rfl
    · have h3 : ¬ v = u := fun h => h2 h.symm
      simp only [h2, h3, true_and, false_and, if_false, List.filter_nil, List.append_nil, List.nil_append]
      have : ((Sum.inl u : Prim) ∈ g.vertices ∧ (Sum.inl v : Prim) ∈ g.vertices) ↔
        ((Sum.inl v : Prim) ∈ g.vertices ∧ (Sum.inl u : Prim) ∈ g.vertices) := and_comm
      simp only [this]
  · by_cases h2 : u = b ∧ v = a
    · obtain ⟨rfl, rfl⟩ := h2
      have h3 : ¬ u = v := fun h => h1 ⟨h, h.symm⟩
      have h4 : ¬ v = u := fun h => h3 h.symm
      simp only [h3, h4, true_and, false_and, if_false, List.filter_nil, List.append_nil, List.nil_append]
      have : ((Sum.inl u : Prim) ∈ g.vertices ∧ (Sum.inl v : Prim) ∈ g.vertices) ↔
        ((Sum.inl v : Prim) ∈ g.vertices ∧ (Sum.inl u : Prim) ∈ g.vertices) := and_comm
      simp only [this]
    · have e1 : ∀ q : Prop, ¬ (u = a ∧ v = b ∧ q) := fun q h => h1 ⟨h.1, h.2.1⟩
      have e2 : ∀ q : Prop, ¬ (u = b ∧ v = a ∧ q) := fun q h => h2 ⟨h.1, h.2.1⟩
      have e3 : ∀ q : Prop, ¬ (v = a ∧ u = b ∧ q) := fun q h => h2 ⟨h.2.1, h.1⟩
      have e4 : ∀ q : Prop, ¬ (v = b ∧ u = a ∧ q) := fun q h => h1 ⟨h.2.1, h.1⟩
      simp only [e1, e2, e3, e4, if_false]

/-- growing keeps the conflicts symmetric -/
def Ext (i : Input P K) (ph : Phase) (g g' : RGraph Prim K) : Prop := Grow i ph g g' ∧ (Symm g → Symm g')

theorem Ext.refl (i : Input P K) (ph) (g : RGraph Prim K) : Ext i ph g g := ⟨.refl g, id⟩
theorem Ext.trans {i : Input P K} {ph} {a b c : RGraph Prim K} (h1 : Ext i ph a b) (h2 : Ext i ph b c) : Ext i ph a c :=
  ⟨h1.1.trans h2.1, fun h => h2.2 (h1.2 h)⟩

theorem Ext.one {i : Input P K} {ph} {g : RGraph Prim K} {a b : Prim} {rel : RelationType}
    (r : Reason i ph g a b (infos i a b rel))
    (h : rel ≠ Conflicting ∨ (∀ u v, a = .inl u → b ≠ .inl v)) : Ext i ph g (plus g a b (infos i a b rel)) :=
  ⟨.one r, fun hs => hs.plus_other a b _ (h.imp (fun h x hx => by rw [infos_rel i a b rel x hx]; exact h) id)⟩

theorem ne_invertL (a : LH) : a ≠ invertL a := by
  intro h
  have := congrArg LH.inv h
  simp [invertL] at this

theorem Ext.both {i : Input P K} {g : RGraph Prim K} (a b : LH) (hne : a ≠ b) (hinv : a.inv = false ∨ b.inv = false)
    (r : i.overlapsLL a b = true ∨ i.overlapsLL b a = true ∨ b = invertL a) :
    Ext i .lanes g (plus (plus g (.inl a) (.inl b) (infos i (.inl a) (.inl b) Conflicting)) (.inl b) (.inl a)
      (infos i (.inl b) (.inl a) Conflicting)) := by
  refine ⟨.step _ _ _ (.one (.conflict a b hne hinv r)) (.conflict b a (Ne.symm hne) hinv.symm ?_), fun hs => hs.plus_both a b⟩
  rcases r with h | h | h
  · exact .inr (.inl h)
  · exact .inl h
  · exact .inr (.inr (by rw [h, Verif.Lanelet.invertL_invertL]))

/-- a loop whose steps extend the state and establish `T` -/
theorem foldlM_inv {σ α : Type} (f : σ → α → Option σ) (R : σ → σ → Prop) (I : σ → Prop) (T : α → σ → Prop)
    (hrefl : ∀ s, R s s) (htrans : ∀ a b c, R a b → R b c → R a c) (hI : ∀ s s', I s → R s s' → I s')
    (hT : ∀ x s s', T x s → R s s' → T x s') (L : List α)
    (step : ∀ x ∈ L, ∀ s, I s → ∃ s', f s x = some s' ∧ R s s' ∧ T x s') :
    ∀ s, I s → ∃ s', L.foldlM f s = some s' ∧ R s s' ∧ ∀ x ∈ L, T x s' := by
  induction L with
  | nil => intro s _; exact ⟨s, rfl, hrefl s, by simp⟩
  | cons y L ih =>
    intro s hs
    obtain ⟨s1, h1, h2, h3⟩ := step y (by simp) s hs
    obtain ⟨s2, h4, h5, h6⟩ := ih (fun x hx => step x (by simp [hx])) s1 (hI _ _ hs h2)
    refine ⟨s2, ?_, htrans _ _ _ h2 h5, ?_⟩
    · rw [List.foldlM_cons, h1]; exact h4
    · intro x hx
      rcases List.mem_cons.mp hx with rfl | hx
      · exact hT _ _ _ h3 h5
      · exact h6 x hx

/-! ### the search index -/

/-- The map and the iteration orders are as the containers provide them. -/
structure InputOk (i : Input P K) : Prop where
  bounds : ∀ ll ∈ i.lanelets, points i.w (i.w.lls ll.data).left ≠ [] ∧ points i.w (i.w.lls ll.data).right ≠ []
  lanelets : i.lanelets.Nodup
  notInverted : ∀ ll ∈ i.lanelets, ll.inv = false
  areas : i.areas.Nodup
  range : ∀ l, i.orderRange l ~ l
  search : ∀ l, i.orderSearch l ~ l
  searchA : ∀ l, i.orderSearchA l ~ l
  shuffle : ∀ l, i.shuffle l ~ l

theorem mem_allLanelets (i : Input P K) (hi : InputOk i) (ll : LH) :
    ll ∈ allLanelets i ↔ (⟨ll.data, false⟩ ∈ i.lanelets ∧ i.rules.passL ⟨ll.data, false⟩ = true ∧
      (ll.inv = true → i.rules.passL ll = true)) := by
  unfold allLanelets bidirectional passable
  simp only [List.mem_append, List.mem_filter, List.mem_filterMap]
  obtain ⟨d, v⟩ := ll
  constructor
  · rintro (⟨h1, h2⟩ | ⟨x, ⟨h1, h2⟩, h3⟩)
    · have := hi.notInverted _ h1
      simp only at this
      subst this
      exact ⟨h1, h2, by simp⟩
    · have hx := hi.notInverted _ h1
      obtain ⟨xd, xv⟩ := x
      simp only at hx
      subst hx
      split at h3
      · rename_i hp
        simp only [Option.some.injEq, invertL, Bool.not_false, LH.mk.injEq] at h3
        obtain ⟨rfl, rfl⟩ := h3
        exact ⟨h1, h2, fun _ => hp⟩
      · simp at h3
  · rintro ⟨h1, h2, h3⟩
    cases v with
    | false => exact .inl ⟨h1, h2⟩
    | true => exact .inr ⟨⟨d, false⟩, ⟨h1, h2⟩, by simp [invertL, h3 rfl]⟩

theorem bounds_ne (i : Input P K) (hi : InputOk i) (ll : LH) (h : ll ∈ allLanelets i) :
    points i.w (leftBound i.w ll) ≠ [] ∧ points i.w (rightBound i.w ll) ≠ [] := by
  have hm := ((mem_allLanelets i hi ll).mp h).1
  have := hi.bounds _ hm
  simp only at this
  unfold leftBound rightBound
  cases ll.inv with
  | false => exact this
  | true =>
    simp only [if_true]
    rw [Verif.Lanelet.points_invert, Verif.Lanelet.points_invert]
    simpa using this.symm

theorem ends_some (i : Input P K) (ls : LS) (h : points i.w ls ≠ []) :
    ∃ f b, (points i.w ls).head? = some f ∧ (points i.w ls).getLast? = some b ∧
      ends i ls = some (i.ptId f, i.ptId b) := by
  refine ⟨(points i.w ls).head h, (points i.w ls).getLast h, List.head?_eq_some_head h,
    List.getLast?_eq_some_getLast h, ?_⟩
  simp [ends, List.head?_eq_some_head h, List.getLast?_eq_some_getLast h]

theorem orderedIdPair_comm (a b : Int) : orderedIdPair a b = orderedIdPair b a := by
  unfold orderedIdPair
  by_cases h1 : a < b
  · have h2 : ¬ b < a := by omega
    rw [if_pos h1, if_neg h2]
  · rw [if_neg h1]
    by_cases h2 : b < a
    · rw [if_pos h2]
    · rw [if_neg h2]
      have : a = b := by omega
      rw [this]

/-- what the index contains -/
def IndexOk (i : Input P K) (s : St K) : Prop :=
  ∀ k ll, (k, ll) ∈ s.index ↔ ll ∈ allLanelets i ∧ ∃ ks, indexKeys i ll = some ks ∧ k ∈ ks

theorem indexKeys_some (i : Input P K) (hi : InputOk i) (ll : LH) (h : ll ∈ allLanelets i) :
    ∃ ks, indexKeys i ll = some ks := by
  obtain ⟨h1, h2⟩ := bounds_ne i hi ll h
  obtain ⟨_, _, _, _, e1⟩ := ends_some i _ h1
  obtain ⟨_, _, _, _, e2⟩ := ends_some i _ h2
  exact ⟨_, by simp [indexKeys, e1, e2]; rfl⟩

theorem initial_spec (i : Input P K) (hi : InputOk i) :
    ∃ s, initial i = some s ∧ IndexOk i s ∧ s.g.vertices = (allLanelets i).map .inl ++ (passableAreas i).map .inr ∧
      s.g.edges = [] ∧ s.g.numRoutingCosts = i.costs.length ∧
      s.both = (bidirectional i).map fun ll => i.llId ll.data := by
  have key : ∀ (L : List LH) (idx : List (Key × LH)), (∀ ll ∈ L, ll ∈ allLanelets i) →
      ∃ idx', L.foldlM (fun idx ll => do
        let ks ← indexKeys i ll
        return idx ++ ks.map (·, ll)) idx = some idx' ∧
      ∀ k ll, (k, ll) ∈ idx' ↔ (k, ll) ∈ idx ∨ (ll ∈ L ∧ ∃ ks, indexKeys i ll = some ks ∧ k ∈ ks) := by
    intro L
    induction L with
    | nil => intro idx _; exact ⟨idx, rfl, by simp⟩
    | cons x L ih =>
      intro idx hL
      obtain ⟨ks, hks⟩ := indexKeys_some i hi x (hL x (by simp))
      obtain ⟨idx', h1, h2⟩ := ih (idx ++ ks.map (·, x)) (fun ll h => hL ll (by simp [h]))
      refine ⟨idx', ?_, ?_⟩
      · rw [List.foldlM_cons, hks]; exact h1
      · intro k ll
        rw [h2]
        simp only [List.mem_append, List.mem_map, Prod.mk.injEq, List.mem_cons]
        constructor
        · rintro ((h | ⟨k', h, rfl, rfl⟩) | ⟨h, h'⟩)
          · exact .inl h
          · exact .inr ⟨.inl rfl, ks, hks, h⟩
          · exact .inr ⟨.inr h, h'⟩
        · rintro (h | ⟨rfl | h, ks', h', h''⟩)
          · exact .inl (.inl h)
          · rw [hks] at h'
            obtain rfl : ks = ks' := by simpa using h'
            exact .inl (.inr ⟨k, h'', rfl, rfl⟩)
          · exact .inr ⟨h, ks', h', h''⟩
  obtain ⟨idx', h1, h2⟩ := key (allLanelets i) [] (fun _ h => h)
  refine ⟨⟨⟨i.costs.length, (allLanelets i).map .inl ++ (passableAreas i).map .inr, []⟩,
    (bidirectional i).map fun ll => i.llId ll.data, idx'⟩, ?_, ?_, rfl, rfl, rfl, rfl⟩
  · unfold initial
    rw [h1]
    rfl
  · intro k ll
    have := h2 k ll
    simpa using this

theorem mem_equalRange (i : Input P K) (hi : InputOk i) (s : St K) (hs : IndexOk i s) (k : Key) (ll : LH) :
    ll ∈ equalRange i s k ↔ ll ∈ allLanelets i ∧ ∃ ks, indexKeys i ll = some ks ∧ k ∈ ks := by
  unfold equalRange
  rw [(hi.range _).mem_iff, List.mem_map]
  constructor
  · rintro ⟨e, he, rfl⟩
    obtain ⟨h1, h2⟩ := List.mem_filter.mp he
    have hk : e.1 = k := by simpa using h2
    obtain ⟨k', ll⟩ := e
    simp only at hk
    subst hk
    exact (hs _ _).mp h1
  · intro h
    exact ⟨(k, ll), List.mem_filter.mpr ⟨(hs _ _).mpr h, by simp⟩, rfl⟩

/-- Lanelets that follow are found in the index. -/
theorem following_found (i : Input P K) (hi : InputOk i) (s : St K) (hs : IndexOk i s) (a b : LH)
    (ha : a ∈ allLanelets i) (hb : b ∈ allLanelets i) (h : follows i.w a b = true) {lf lb rf rb : Int}
    (hl : ends i (leftBound i.w a) = some (lf, lb)) (hr : ends i (rightBound i.w a) = some (rf, rb)) :
    b ∈ equalRange i s (orderedIdPair lb rb) := by
  rw [mem_equalRange i hi s hs]
  refine ⟨hb, ?_⟩
  obtain ⟨n1, n2⟩ := bounds_ne i hi a ha
  obtain ⟨m1, m2⟩ := bounds_ne i hi b hb
  obtain ⟨f1, b1, q1, q2, q3⟩ := ends_some i _ n1
  obtain ⟨f2, b2, r1, r2, r3⟩ := ends_some i _ n2
  obtain ⟨f3, b3, s1, s2, s3⟩ := ends_some i _ m1
  obtain ⟨f4, b4, t1, t2, t3⟩ := ends_some i _ m2
  rw [q3] at hl
  rw [r3] at hr
  simp only [Option.some.injEq, Prod.mk.injEq] at hl hr
  have hf : f3 = b1 ∧ f4 = b2 := by
    unfold follows at h
    simp only [q2, s1, r2, t1, Bool.and_eq_true, Option.some.injEq, decide_eq_true_eq] at h
    exact ⟨h.1.2.symm, h.2.symm⟩
  refine ⟨_, by simp [indexKeys, s3, t3]; rfl, ?_⟩
  rw [← hl.2, ← hr.2, hf.1, hf.2]
  simp

/-- Neighbours are found in the index. -/
theorem beside_found (i : Input P K) (hi : InputOk i) (s : St K) (hs : IndexOk i s) (isLeft : Bool) (a b : LH)
    (hb : b ∈ allLanelets i) (h : Beside i isLeft a b) {f l : Int}
    (he : ends i (if isLeft then leftBound i.w a else rightBound i.w a) = some (f, l)) :
    b ∈ equalRange i s (orderedIdPair f l) := by
  rw [mem_equalRange i hi s hs]
  refine ⟨hb, ?_⟩
  obtain ⟨m1, m2⟩ := bounds_ne i hi b hb
  obtain ⟨f3, b3, s1, s2, s3⟩ := ends_some i _ m1
  obtain ⟨f4, b4, t1, t2, t3⟩ := ends_some i _ m2
  refine ⟨_, by simp [indexKeys, s3, t3]; rfl, ?_⟩
  unfold Beside at h
  cases isLeft with
  | true =>
    simp only [if_true] at h he
    have hh := (Verif.Lanelet.leftOf_spec i.w b a).1.mp h
    rw [← hh, t3] at he
    simp only [Option.some.injEq, Prod.mk.injEq] at he
    rw [← he.1, ← he.2]
    simp
  | false =>
    simp only [Bool.false_eq_true, if_false] at h he
    have h' : leftOf i.w a b = true := h
    have hh := (Verif.Lanelet.leftOf_spec i.w a b).1.mp h'
    rw [hh, s3] at he
    simp only [Option.some.injEq, Prod.mk.injEq] at he
    rw [← he.1, ← he.2]
    simp

/-! ### one lanelet -/

theorem following_step (i : Input P K) (hi : InputOk i) (ok : CostsOk i) (s : St K) (hs : IndexOk i s)
    (hv : s.g.vertices = (allLanelets i).map .inl ++ (passableAreas i).map .inr) (ll : LH) (hll : ll ∈ allLanelets i) :
    ∃ g', addFollowingEdges i s ll = some { s with g := g' } ∧ Ext i .lanes s.g g' ∧
      ∀ it ∈ allLanelets i, follows i.w ll it = true → i.rules.passLL ll it = true →
        ∀ x ∈ infos i (.inl ll) (.inl it) Successor, x ∈ edgesOf g' (.inl ll) (.inl it) := by
  obtain ⟨n1, n2⟩ := bounds_ne i hi ll hll
  obtain ⟨f1, b1, q1, q2, q3⟩ := ends_some i _ n1
  obtain ⟨f2, b2, r1, r2, r3⟩ := ends_some i _ n2
  unfold addFollowingEdges
  simp only [q3, r3, Option.bind_eq_bind, Option.bind_some]
  obtain ⟨g', h1, h2, h3⟩ := foldlM_inv
    (fun g it => assignCosts i g (.inl ll) (.inl it) Successor) (Ext i .lanes)
    (fun g => g.vertices = (allLanelets i).map .inl ++ (passableAreas i).map .inr)
    (fun it g => ∀ x ∈ infos i (.inl ll) (.inl it) Successor, x ∈ edgesOf g (.inl ll) (.inl it))
    (Ext.refl i .lanes) (fun _ _ _ => Ext.trans) (fun g g' hg hr => by rw [hr.1.vertices]; exact hg)
    (fun it g g' ht hr x hx => hr.1.mem _ _ x (ht x hx))
    ((equalRange i s (orderedIdPair (i.ptId b1) (i.ptId b2))).filter
      fun it => follows i.w ll it && i.rules.passLL ll it)
    (fun it hit g hg => by
      obtain ⟨hr, hc⟩ := List.mem_filter.mp hit
      simp only [Bool.and_eq_true] at hc
      have hall := ((mem_equalRange i hi s hs _ it).mp hr).1
      refine ⟨_, assignCosts_eq i ok g _ _ _ (by decide) (by decide),
        .one (.succ ll it hll hall hc.1 hc.2) (.inl (by decide)), ?_⟩
      intro x hx
      rw [edgesOf_plus, if_pos]
      · exact List.mem_append_right _ hx
      · rw [hg]; simp [hll, hall])
    s.g hv
  refine ⟨g', by rw [h1]; rfl, h2, ?_⟩
  intro it hit hf hp
  exact h3 it (List.mem_filter.mpr ⟨following_found i hi s hs ll it hll hit hf q3 r3, by simp [hf, hp]⟩)

/-- the collected lane changes are permitted lane changes to direct neighbours -/
def ColOk (i : Input P K) (isLeft : Bool) (m : List Entry) : Prop :=
  (m.map (·.src)).Nodup ∧ ∀ e ∈ m, e.visited = false ∧ e.src ∈ allLanelets i ∧ e.target ∈ allLanelets i ∧
    e.src ≠ e.target ∧ Beside i isLeft e.src e.target ∧ i.rules.change e.src e.target = true

theorem collect_spec (m : List Entry) (a b : LH) :
    (∀ e ∈ m, e ∈ collect m a b) ∧ (∃ e ∈ collect m a b, e.src = a) ∧
    (∀ e ∈ collect m a b, e ∈ m ∨ e = ⟨a, b, false⟩) ∧
    ((m.map (·.src)).Nodup → ((collect m a b).map (·.src)).Nodup) := by
  unfold collect
  by_cases h : m.any (fun e => e.src == a) = true
  · rw [if_pos h]
    refine ⟨fun _ h => h, ?_, fun _ h => .inl h, fun h => h⟩
    obtain ⟨e, he, h⟩ := List.any_eq_true.mp h
    exact ⟨e, he, by simpa using h⟩
  · rw [if_neg h]
    refine ⟨fun e he => by simp [he], ⟨⟨a, b, false⟩, by simp, rfl⟩, fun e he => by simpa using he, fun hn => ?_⟩
    rw [List.map_append, List.nodup_append]
    refine ⟨hn, by simp, ?_⟩
    intro x hx y hy hxy
    obtain rfl : y = a := by simpa using hy
    obtain ⟨e, he, rfl⟩ := List.mem_map.mp hx
    exact h (List.any_eq_true.mpr ⟨e, he, by simp [hxy]⟩)

/-- what addSidewayEdge does to graph and collected lane changes -/
def SideExt (i : Input P K) (isLeft : Bool) (x y : RGraph Prim K × List Entry) : Prop :=
  Ext i .lanes x.1 y.1 ∧ (∀ e ∈ x.2, e ∈ y.2) ∧ (ColOk i isLeft x.2 → ColOk i isLeft y.2)

theorem sideway_step (i : Input P K) (hi : InputOk i) (ok : CostsOk i) (s : St K) (hs : IndexOk i s)
    (hv : s.g.vertices = (allLanelets i).map .inl ++ (passableAreas i).map .inr) (m : List Entry) (ll : LH)
    (hll : ll ∈ allLanelets i) (isLeft : Bool) :
    ∃ g' m', addSidewayEdge i s m ll isLeft = some ({ s with g := g' }, m') ∧ SideExt i isLeft (s.g, m) (g', m') ∧
      (i.costs ≠ [] → ∀ it ∈ allLanelets i, it ≠ ll → Beside i isLeft ll it →
        hasEdge g' ll it = true ∨ (i.rules.change ll it = true ∧ ∃ e ∈ m', e.src = ll)) := by
  obtain ⟨n1, n2⟩ := bounds_ne i hi ll hll
  have nb : points i.w (if isLeft then leftBound i.w ll else rightBound i.w ll) ≠ [] := by cases isLeft <;> simp [n1, n2]
  obtain ⟨f1, b1, q1, q2, q3⟩ := ends_some i _ nb
  unfold addSidewayEdge
  simp only [q3, Option.bind_eq_bind, Option.bind_some]
  obtain ⟨gm, h1, h2, h3⟩ := foldlM_inv
    (fun (gm : RGraph Prim K × List Entry) it =>
      if ll ≠ it ∧ hasEdge gm.1 ll it = false ∧ (if isLeft then leftOf i.w it ll else rightOf i.w it ll) = true then
        if i.rules.change ll it then some (gm.1, collect gm.2 ll it)
        else (assignCosts i gm.1 (.inl ll) (.inl it) (if isLeft then AdjacentLeft else AdjacentRight)).map (·, gm.2)
      else some gm)
    (SideExt i isLeft)
    (fun gm => gm.1.vertices = (allLanelets i).map .inl ++ (passableAreas i).map .inr)
    (fun it gm => i.costs ≠ [] → it ≠ ll → Beside i isLeft ll it →
        hasEdge gm.1 ll it = true ∨ (i.rules.change ll it = true ∧ ∃ e ∈ gm.2, e.src = ll))
    (fun gm => ⟨Ext.refl i .lanes _, fun _ h => h, id⟩)
    (fun a b c h h' => ⟨h.1.trans h'.1, fun e he => h'.2.1 e (h.2.1 e he), fun hc => h'.2.2 (h.2.2 hc)⟩)
    (fun g g' hg hr => by rw [hr.1.1.vertices]; exact hg)
    (fun it g g' ht hr hc hne hb => by
      rcases ht hc hne hb with h | ⟨h, e, he, he'⟩
      · exact .inl (hr.1.1.hasEdge _ _ h)
      · exact .inr ⟨h, e, hr.2.1 e he, he'⟩)
    (equalRange i s (orderedIdPair (i.ptId f1) (i.ptId b1)))
    (fun it hit gm hg => by
      have hall := ((mem_equalRange i hi s hs _ it).mp hit).1
      by_cases hcond : ll ≠ it ∧ hasEdge gm.1 ll it = false ∧
          (if isLeft then leftOf i.w it ll else rightOf i.w it ll) = true
      · have hb : Beside i isLeft ll it := hcond.2.2
        rw [if_pos hcond]
        cases hch : i.rules.change ll it with
        | true =>
          simp only [if_true]
          obtain ⟨c1, c2, c3, c4⟩ := collect_spec gm.2 ll it
          refine ⟨_, rfl, ⟨Ext.refl i .lanes _, c1, fun hc => ⟨c4 hc.1, ?_⟩⟩, fun _ _ _ => .inr ⟨by simp, c2⟩⟩
          intro e he
          rcases c3 e he with h | rfl
          · exact hc.2 e h
          · exact ⟨rfl, hll, hall, hcond.1, hb, hch⟩
        | false =>
          simp only [Bool.false_eq_true, if_false]
          rw [assignCosts_eq i ok gm.1 (.inl ll) (.inl it) _ (by cases isLeft <;> decide) (by cases isLeft <;> decide)]
          refine ⟨_, rfl, ⟨.one (.adjacent isLeft ll it hll hall hcond.1 hb hch (by
              have := hcond.2.1
              by_cases h0 : edgesOf gm.1 (.inl ll) (.inl it) = []
              · exact h0
              · rw [(hasEdge_iff gm.1 ll it).mpr h0] at this; simp at this)) (.inl (by cases isLeft <;> decide)),
            fun _ h => h, id⟩, ?_⟩
          intro hc _ _
          left
          rw [hasEdge_iff, edgesOf_plus, if_pos]
          · have := infos_ne_nil i hc (.inl ll) (.inl it) (if isLeft then AdjacentLeft else AdjacentRight)
              (by cases isLeft <;> decide)
            simp [this]
          · rw [hg]; simp [hll, hall]
      · rw [if_neg hcond]
        refine ⟨gm, rfl, ⟨Ext.refl i .lanes _, fun _ h => h, id⟩, ?_⟩
        intro _ hne hb
        left
        cases hh : hasEdge gm.1 ll it with
        | true => rfl
        | false => exact absurd ⟨fun h => hne h.symm, hh, hb⟩ hcond)
    (s.g, m) hv
  refine ⟨gm.1, gm.2, ?_, h2, ?_⟩
  · exact (congrArg (fun o => Option.bind o fun x => some (({ s with g := x.1 } : St K), x.2)) h1)
  · intro hc it hit hne hb
    exact h3 it (beside_found i hi s hs isLeft ll it hit hb q3) hc hne hb

theorem conflicting_step (i : Input P K) (hi : InputOk i) (ok : CostsOk i) (s : St K)
    (hv : s.g.vertices = (allLanelets i).map .inl ++ (passableAreas i).map .inr) (ll : LH) (hll : ll ∈ allLanelets i) :
    ∃ g', addConflictingEdge i s ll = some { s with g := g' } ∧ Ext i .lanes s.g g' ∧
      (i.costs ≠ [] → ∀ r ∈ passable i, i.boxLL ll r = true →
        (r ≠ ll → i.overlapsLL ll r = true → hasEdge g' ll r = true) ∧
        (r = ll → i.llId ll.data ∈ s.both → ∀ x ∈ infos i (.inl ll) (.inl (invertL ll)) Conflicting,
          invertL ll ∈ allLanelets i → x ∈ edgesOf g' (.inl ll) (.inl (invertL ll)))) := by
  unfold addConflictingEdge
  obtain ⟨g', h1, h2, h3⟩ := foldlM_inv
    (fun (g : RGraph Prim K) result =>
      if s.both.contains (i.llId ll.data) && result == ll then do
        let g ← assignCosts i g (.inl ll) (.inl (invertL result)) Conflicting
        assignCosts i g (.inl (invertL result)) (.inl ll) Conflicting
      else if hasEdge g ll result then some g
      else if (g.getVertex (.inl result)).isNone || result == ll then some g
      else if i.overlapsLL ll result then do
        let g ← assignCosts i g (.inl ll) (.inl result) Conflicting
        assignCosts i g (.inl result) (.inl ll) Conflicting
      else some g)
    (Ext i .lanes) (fun g => g.vertices = (allLanelets i).map .inl ++ (passableAreas i).map .inr)
    (fun r g => i.costs ≠ [] →
        (r ≠ ll → i.overlapsLL ll r = true → hasEdge g ll r = true) ∧
        (r = ll → i.llId ll.data ∈ s.both → ∀ x ∈ infos i (.inl ll) (.inl (invertL ll)) Conflicting,
          invertL ll ∈ allLanelets i → x ∈ edgesOf g (.inl ll) (.inl (invertL ll))))
    (Ext.refl i .lanes) (fun _ _ _ => Ext.trans) (fun g g' hg hr => by rw [hr.1.vertices]; exact hg)
    (fun r g g' ht hr hc => ⟨fun h h' => hr.1.hasEdge _ _ ((ht hc).1 h h'),
      fun h h' x hx hm => hr.1.mem _ _ x ((ht hc).2 h h' x hx hm)⟩)
    (i.orderSearch ((passable i).filter (i.boxLL ll)))
    (fun r hr g hg => by
      have hrp : r ∈ passable i := (List.mem_filter.mp ((hi.search _).mem_iff.mp hr)).1
      have hrall : r ∈ allLanelets i := List.mem_append_left _ hrp
      have hrinv : r.inv = false := hi.notInverted r (List.mem_filter.mp hrp).1
      by_cases hb : (s.both.contains (i.llId ll.data) && r == ll) = true
      · rw [if_pos hb]
        simp only [Bool.and_eq_true, beq_iff_eq, List.contains_iff_mem] at hb
        obtain ⟨hb1, rfl⟩ := hb
        simp only [assignCosts_eq i ok _ _ _ Conflicting (by decide) (by decide), Option.bind_eq_bind, Option.bind_some]
        refine ⟨_, rfl, .both r (invertL r) (Verif.Build.ne_invertL r) (.inl hrinv) (.inr (.inr rfl)), fun _ => ⟨fun h => absurd rfl h, ?_⟩⟩
        intro _ _ x hx hm
        rw [edgesOf_plus, edgesOf_plus]
        apply List.mem_append_left
        rw [if_pos]
        · exact List.mem_append_right _ hx
        · rw [hg]; simp [hll, hm]
      · rw [if_neg hb]
        have hb' : ¬ (r = ll ∧ i.llId ll.data ∈ s.both) := by
          rintro ⟨rfl, h⟩; exact hb (by simp [h])
        by_cases he : hasEdge g ll r = true
        · rw [if_pos he]
          exact ⟨g, rfl, Ext.refl i .lanes g, fun _ => ⟨fun _ _ => he, fun h h' => absurd ⟨h, h'⟩ hb'⟩⟩
        · rw [if_neg he]
          have hvx : (g.getVertex (.inl r)).isSome := (getVertex_isSome g _).mpr (by rw [hg]; simp [hrall])
          by_cases hr2 : ((g.getVertex (.inl r)).isNone || r == ll) = true
          · rw [if_pos hr2]
            have hrl : r = ll := by
              rw [Bool.or_eq_true] at hr2
              rcases hr2 with h | h
              · cases hh : g.getVertex (.inl r) with
                | none => rw [hh] at hvx; simp at hvx
                | some v => rw [hh] at h; simp at h
              · simpa using h
            exact ⟨g, rfl, Ext.refl i .lanes g, fun _ => ⟨fun h => absurd hrl h, fun h h' => absurd ⟨h, h'⟩ hb'⟩⟩
          · rw [if_neg hr2]
            by_cases ho : i.overlapsLL ll r = true
            · rw [if_pos ho]
              simp only [assignCosts_eq i ok _ _ _ Conflicting (by decide) (by decide), Option.bind_eq_bind,
                Option.bind_some]
              refine ⟨_, rfl, .both ll r (fun h => hr2 (by simp [h])) (.inr hrinv) (.inl ho), fun hc => ⟨fun _ _ => ?_, fun h h' => absurd ⟨h, h'⟩ hb'⟩⟩
              rw [hasEdge_iff, edgesOf_plus, edgesOf_plus]
              have := infos_ne_nil i hc (.inl ll) (.inl r) Conflicting (by decide)
              intro hnil
              have h0 := (List.append_eq_nil_iff.mp (List.append_eq_nil_iff.mp hnil).1).2
              rw [if_pos] at h0
              · exact this h0
              · rw [hg]; simp [hll, hrall]
            · rw [if_neg ho]
              exact ⟨g, rfl, Ext.refl i .lanes g, fun _ => ⟨fun _ h => absurd h ho, fun h h' => absurd ⟨h, h'⟩ hb'⟩⟩)
    s.g hv
  refine ⟨g', by simp only [Option.bind_eq_bind]; exact (congrArg (fun o => Option.bind o fun x => some ({ s with g := x } : St K)) h1), h2, ?_⟩
  intro hc r hr hbox
  exact h3 r ((hi.search _).mem_iff.mpr (List.mem_filter.mpr ⟨hr, hbox⟩)) hc

end Verif.Build
