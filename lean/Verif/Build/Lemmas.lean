import Verif.Build.Collector

namespace Verif.Build
open Verif.Graph (RGraph EdgeInfo BaseEdge CostTests RelationType)
open Verif.Graph.RelationType
open Verif.Lanelet (LH World points leftBound rightBound follows leftOf rightOf invertL)
open Verif.LineStr (LS)
open List (Perm)
open scoped List

set_option linter.unusedSectionVars false
variable {P K : Type} [DecidableEq P]

instance decMemPrim (a : Prim) (l : List Prim) : Decidable (a ∈ l) :=
  decidable_of_iff (l.any (fun x => decide (x = a)) = true) (by simp)

/-- the edges from `a` to `b` -/
def edgesOf (g : RGraph Prim K) (a b : Prim) : List (EdgeInfo K) :=
  match g.getVertex a, g.getVertex b with
  | some u, some v => (g.edges.filter fun e => e.src == u && e.dst == v).map (·.info)
  | _, _ => []

theorem getVertex_get {g : RGraph Prim K} {a : Prim} {u : Nat} (h : g.getVertex a = some u) : g.vertices[u]? = some a := by
  unfold RGraph.getVertex at h
  obtain ⟨hlt, h1, -⟩ := List.findIdx?_eq_some_iff_getElem.mp h
  rw [List.getElem?_eq_getElem hlt]
  simpa using h1

theorem getVertex_inj {g : RGraph Prim K} {a b : Prim} {u : Nat} (h : g.getVertex a = some u)
    (h' : g.getVertex b = some u) : a = b := by
  have := (getVertex_get h).symm.trans (getVertex_get h')
  simpa using this

theorem getVertex_isSome (g : RGraph Prim K) (a : Prim) : (g.getVertex a).isSome ↔ a ∈ g.vertices := by
  unfold RGraph.getVertex
  rw [List.findIdx?_isSome, List.any_eq_true]
  constructor
  · rintro ⟨x, hx, h⟩; have : x = a := by simpa using h
    exact this ▸ hx
  · intro h; exact ⟨a, h, by simp⟩

theorem hasEdge_iff (g : RGraph Prim K) (a b : LH) : hasEdge g a b = true ↔ edgesOf g (.inl a) (.inl b) ≠ [] := by
  unfold hasEdge RGraph.getEdgeInfo edgesOf RGraph.firstEdge
  cases g.getVertex (.inl a) with
  | none => simp
  | some u =>
    cases g.getVertex (.inl b) with
    | none => simp
    | some v =>
      simp only [Option.isSome_map, List.find?_isSome, ne_eq, List.map_eq_nil_iff, List.filter_eq_nil_iff]
      constructor
      · rintro ⟨e, he, h⟩ hall; exact hall e he h
      · intro h
        obtain ⟨e, he⟩ := Classical.not_forall.mp h
        obtain ⟨he, h2⟩ := Classical.not_imp.mp he
        exact ⟨e, he, Decidable.not_not.mp h2⟩

/-- the graph with more edges from `a` to `b` -/
def plus (g : RGraph Prim K) (a b : Prim) (xs : List (EdgeInfo K)) : RGraph Prim K :=
  match g.getVertex a, g.getVertex b with
  | some u, some v => { g with edges := g.edges ++ xs.map fun x => ⟨u, v, x⟩ }
  | _, _ => g

theorem plus_vertices (g : RGraph Prim K) (a b : Prim) (xs : List (EdgeInfo K)) : (plus g a b xs).vertices = g.vertices := by
  unfold plus; split <;> rfl

theorem plus_getVertex (g : RGraph Prim K) (a b c : Prim) (xs : List (EdgeInfo K)) :
    (plus g a b xs).getVertex c = g.getVertex c := by
  unfold RGraph.getVertex; rw [plus_vertices]

theorem plus_nil (g : RGraph Prim K) (a b : Prim) : plus g a b [] = g := by
  unfold plus; split <;> simp

theorem plus_plus (g : RGraph Prim K) (a b : Prim) (xs ys : List (EdgeInfo K)) :
    plus (plus g a b xs) a b ys = plus g a b (xs ++ ys) := by
  rw [plus, plus_getVertex, plus_getVertex, plus, plus]
  cases ha : g.getVertex a with
  | none => rfl
  | some u =>
    cases hb : g.getVertex b with
    | none => rfl
    | some v => simp

theorem edgesOf_plus (g : RGraph Prim K) (a b a' b' : Prim) (xs : List (EdgeInfo K)) :
    edgesOf (plus g a b xs) a' b' =
      edgesOf g a' b' ++ if a' = a ∧ b' = b ∧ a ∈ g.vertices ∧ b ∈ g.vertices then xs else [] := by
  rw [edgesOf, plus_getVertex, plus_getVertex, edgesOf]
  have ma := getVertex_isSome g a
  have mb := getVertex_isSome g b
  cases ha' : g.getVertex a' with
  | none =>
    have : ¬ (a' = a ∧ b' = b ∧ a ∈ g.vertices ∧ b ∈ g.vertices) := by
      rintro ⟨rfl, -, h, -⟩; rw [← ma, ha'] at h; simp at h
    simp [this]
  | some u' =>
    cases hb' : g.getVertex b' with
    | none =>
      have : ¬ (a' = a ∧ b' = b ∧ a ∈ g.vertices ∧ b ∈ g.vertices) := by
        rintro ⟨-, rfl, -, h⟩; rw [← mb, hb'] at h; simp at h
      simp [this]
    | some v' =>
      simp only
      unfold plus
      cases ha : g.getVertex a with
      | none =>
        rw [ha] at ma; simp only [Option.isSome_none, Bool.false_eq_true, false_iff] at ma
        simp [ma]
      | some u =>
        cases hb : g.getVertex b with
        | none =>
          rw [hb] at mb; simp only [Option.isSome_none, Bool.false_eq_true, false_iff] at mb
          simp [mb]
        | some v =>
          have mva : a ∈ g.vertices := ma.mp (by rw [ha]; rfl)
          have mvb : b ∈ g.vertices := mb.mp (by rw [hb]; rfl)
          simp only [mva, mvb, and_true, List.filter_append, List.map_append]
          congr 1
          by_cases hc : a' = a ∧ b' = b
          · obtain ⟨rfl, rfl⟩ := hc
            have e1 : u = u' := by rw [ha] at ha'; simpa using ha'
            have e2 : v = v' := by rw [hb] at hb'; simpa using hb'
            subst e1 e2
            simp only [and_self, if_true]
            rw [List.filter_eq_self.mpr]
            · simp [List.map_map, Function.comp_def]
            · intro e he
              obtain ⟨x, -, rfl⟩ := List.mem_map.mp he
              simp
          · rw [if_neg hc, List.map_eq_nil_iff, List.filter_eq_nil_iff]
            intro e he h
            obtain ⟨x, -, rfl⟩ := List.mem_map.mp he
            simp only [Bool.and_eq_true, beq_iff_eq] at h
            exact hc ⟨getVertex_inj ha' (h.1 ▸ ha), getVertex_inj hb' (h.2 ▸ hb)⟩

/-- the new edges of assignCosts -/
def infos (i : Input P K) (src dst : Prim) (rel : RelationType) : List (EdgeInfo K) :=
  if rel = Successor ∨ rel = Area then
    (i.costs.zipIdx.filter fun ci => i.tests.isFinite (ci.1.succ src dst)).map fun ci => ⟨ci.1.succ src dst, ci.2, rel⟩
  else i.costs.zipIdx.map fun ci => ⟨i.one, ci.2, rel⟩

/-- Costs are never negative, and 1 is a finite number that is not negative. -/
structure CostsOk (i : Input P K) : Prop where
  one_finite : i.tests.isFinite i.one = true
  one_pos : i.tests.negative i.one = false
  succ : ∀ c ∈ i.costs, ∀ a b, i.tests.negative (c.succ a b) = false
  change : ∀ c ∈ i.costs, ∀ a b, i.tests.negative (c.change a b) = false

theorem addEdge_plus (t : CostTests K) (g : RGraph Prim K) (a b : Prim) (x : EdgeInfo K)
    (hx : t.negative x.routingCost = false) :
    (g.addEdge t a b x).toOption = some (if t.isFinite x.routingCost = true then plus g a b [x] else g) := by
  unfold RGraph.addEdge plus
  cases g.getVertex a with
  | none => simp [Except.toOption]
  | some u =>
    cases g.getVertex b with
    | none => simp [Except.toOption]
    | some v =>
      simp only [RGraph.addEdgeV]
      cases hf : t.isFinite x.routingCost <;> simp [hx, Except.toOption]

theorem foldlM_plus {α : Type} (i : Input P K) (a b : Prim) (f : RGraph Prim K → α → Option (RGraph Prim K))
    (xs : α → List (EdgeInfo K)) (L : List α) (h : ∀ x ∈ L, ∀ g, f g x = some (plus g a b (xs x))) :
    ∀ g, L.foldlM f g = some (plus g a b (L.flatMap xs)) := by
  induction L with
  | nil => intro g; simp [plus_nil]
  | cons y L ih =>
    intro g
    rw [List.foldlM_cons, h y (by simp)]
    simp only [Option.bind_eq_bind, Option.bind_some]
    rw [ih (fun x hx => h x (by simp [hx])), plus_plus]
    rfl

theorem assignCosts_eq (i : Input P K) (ok : CostsOk i) (g : RGraph Prim K) (a b : Prim) (rel : RelationType)
    (hl : rel ≠ Left) (hr : rel ≠ Right) : assignCosts i g a b rel = some (plus g a b (infos i a b rel)) := by
  unfold assignCosts infos
  by_cases h1 : rel = Successor ∨ rel = Area
  · simp only [if_pos h1]
    rw [foldlM_plus i a b _ (fun ci => if i.tests.isFinite (ci.1.succ a b) = true then [⟨ci.1.succ a b, ci.2, rel⟩] else [])]
    · congr 2
      induction i.costs.zipIdx with
      | nil => rfl
      | cons x L ih =>
        rw [List.flatMap_cons, List.filter_cons, ih]
        split <;> simp
    · intro ci hci g
      have : ci.1 ∈ i.costs := List.fst_mem_of_mem_zipIdx hci
      rw [addEdge_plus _ _ _ _ _ (ok.succ _ this a b)]
      simp only
      split <;> simp_all [plus_nil]
  · have h2 : ¬ (rel = Left ∨ rel = Right) := by rintro (h | h); exact hl h; exact hr h
    simp only [if_neg h1, if_neg h2]
    rw [foldlM_plus i a b _ (fun ci => [⟨i.one, ci.2, rel⟩])]
    · congr 2
      induction i.costs.zipIdx with
      | nil => rfl
      | cons x L ih => rw [List.flatMap_cons, ih]; rfl
    · intro ci _ g
      rw [addEdge_plus _ _ _ _ _ ok.one_pos]
      simp [ok.one_finite]

/-- the edge of a lane change along `ch`, whose first element is the lane change -/
def laneChangeInfo (i : Input P K) (isLeft : Bool) (ch : List (LH × LH)) (ci : CostModule K × Nat) : EdgeInfo K :=
  if i.tests.isFinite (ci.1.change (ch.map (·.1)) (ch.map (·.2))) = true then
    ⟨ci.1.change (ch.map (·.1)) (ch.map (·.2)), ci.2, if isLeft then Left else Right⟩
  else ⟨i.one, ci.2, if isLeft then AdjacentLeft else AdjacentRight⟩

/-- the graph with the edges of a chain -/
def plusChain (i : Input P K) (isLeft : Bool) : List (LH × LH) → RGraph Prim K → RGraph Prim K
  | [], g => g
  | p :: rest, g =>
    plusChain i isLeft rest (plus g (.inl p.1) (.inl p.2) (i.costs.zipIdx.map (laneChangeInfo i isLeft (p :: rest))))

theorem assignLaneChangeCosts_eq (i : Input P K) (ok : CostsOk i) (isLeft : Bool) (ch : List (LH × LH)) :
    ∀ g, assignLaneChangeCosts i isLeft ch g = some (plusChain i isLeft ch g) := by
  induction ch with
  | nil => intro g; rfl
  | cons p rest ih =>
    intro g
    obtain ⟨f, t⟩ := p
    unfold assignLaneChangeCosts plusChain
    simp only
    rw [foldlM_plus i (.inl f) (.inl t) _ (fun ci => [laneChangeInfo i isLeft ((f, t) :: rest) ci])]
    · simp only [Option.bind_eq_bind, Option.bind_some]
      rw [ih]
      congr 3
      induction i.costs.zipIdx with
      | nil => rfl
      | cons x L ih => rw [List.flatMap_cons, ih]; rfl
    · intro ci hci g
      have hc : ci.1 ∈ i.costs := List.fst_mem_of_mem_zipIdx hci
      unfold laneChangeInfo
      by_cases hf : i.tests.isFinite (ci.1.change (((f, t) :: rest).map (·.1)) (((f, t) :: rest).map (·.2))) = true
      · rw [if_neg (by rw [hf]; simp), addEdge_plus _ _ _ _ _ (ok.change _ hc _ _), if_pos hf, if_pos hf]
      · have hf' : i.tests.isFinite (ci.1.change (((f, t) :: rest).map (·.1)) (((f, t) :: rest).map (·.2))) = false := by
          simpa using hf
        rw [if_pos hf', addEdge_plus _ _ _ _ _ ok.one_pos, if_pos ok.one_finite, if_neg hf]

theorem plusChain_vertices (i : Input P K) (isLeft : Bool) (ch : List (LH × LH)) :
    ∀ g, (plusChain i isLeft ch g).vertices = g.vertices := by
  induction ch with
  | nil => intro g; rfl
  | cons p rest ih => intro g; unfold plusChain; rw [ih, plus_vertices]

/-- the lane changes of a chain with what follows them -/
def suffixes : List (LH × LH) → List (List (LH × LH))
  | [] => []
  | p :: rest => (p :: rest) :: suffixes rest

theorem suffixes_heads (ch : List (LH × LH)) : (suffixes ch).filterMap List.head? = ch := by
  induction ch with
  | nil => rfl
  | cons p rest ih => simp [suffixes, ih]

theorem suffixes_suffix (ch : List (LH × LH)) (c : List (LH × LH)) (h : c ∈ suffixes ch) :
    c <:+ ch ∧ c ≠ [] := by
  induction ch with
  | nil => simp [suffixes] at h
  | cons p rest ih =>
    rcases List.mem_cons.mp h with rfl | h
    · exact ⟨List.suffix_refl _, by simp⟩
    · exact ⟨(ih h).1.trans (List.suffix_cons _ _), (ih h).2⟩

theorem edgesOf_plusChain (i : Input P K) (isLeft : Bool) (a b : LH) (ch : List (LH × LH)) :
    ∀ g, (.inl a : Prim) ∈ g.vertices → (.inl b : Prim) ∈ g.vertices →
      edgesOf (plusChain i isLeft ch g) (.inl a) (.inl b) = edgesOf g (.inl a) (.inl b) ++
        (((suffixes ch).filter fun c => c.head? == some (a, b)).flatMap fun c =>
          i.costs.zipIdx.map (laneChangeInfo i isLeft c)) := by
  induction ch with
  | nil => intro g _ _; simp [plusChain, suffixes]
  | cons p rest ih =>
    intro g ha hb
    unfold plusChain
    rw [ih _ (by rw [plus_vertices]; exact ha) (by rw [plus_vertices]; exact hb), edgesOf_plus, suffixes,
      List.filter_cons, List.append_assoc]
    congr 1
    by_cases hp : p = (a, b)
    · subst hp
      simp [ha, hb]
    · have : ¬ ((.inl a : Prim) = .inl p.1 ∧ (.inl b : Prim) = .inl p.2 ∧ (.inl p.1 : Prim) ∈ g.vertices ∧
          (.inl p.2 : Prim) ∈ g.vertices) := by
        rintro ⟨h1, h2, -⟩
        simp only [Sum.inl.injEq] at h1 h2
        exact hp (Prod.ext h1.symm h2.symm)
      rw [if_neg this]
      have : ((p :: rest).head? == some (a, b)) = false := by simp [hp]
      rw [this]
      simp

/-- edges between other primitives than lanelets do not change -/
theorem edgesOf_plusChain_other (i : Input P K) (isLeft : Bool) (a b : Prim) (h : ∀ x y, a = .inl x → b ≠ .inl y)
    (ch : List (LH × LH)) : ∀ g, edgesOf (plusChain i isLeft ch g) a b = edgesOf g a b := by
  induction ch with
  | nil => intro g; rfl
  | cons p rest ih =>
    intro g
    unfold plusChain
    rw [ih, edgesOf_plus]
    have : ¬ (a = .inl p.1 ∧ b = .inl p.2 ∧ (.inl p.1 : Prim) ∈ g.vertices ∧ (.inl p.2 : Prim) ∈ g.vertices) := by
      rintro ⟨h1, h2, -⟩; exact h _ _ h1 h2
    rw [if_neg this, List.append_nil]

theorem nextOf_plus (g : RGraph Prim K) (a b : Prim) (xs : List (EdgeInfo K)) (h : ∀ x ∈ xs, x.relation ≠ Successor)
    (ll : LH) : nextOf (plus g a b xs) ll = nextOf g ll ∧ prevOf (plus g a b xs) ll = prevOf g ll := by
  unfold nextOf prevOf
  rw [plus_getVertex, plus_vertices]
  cases hv : g.getVertex (.inl ll) with
  | none => exact ⟨rfl, rfl⟩
  | some v =>
    simp only [Option.bind_eq_bind, Option.bind_some]
    unfold plus
    cases g.getVertex a with
    | none => exact ⟨rfl, rfl⟩
    | some u =>
      cases g.getVertex b with
      | none => exact ⟨rfl, rfl⟩
      | some w =>
        simp only [List.filter_append]
        have n1 : ∀ (q : BaseEdge K → Bool), (xs.map fun x => (⟨u, w, x⟩ : BaseEdge K)).filter
            (fun e => q e && e.info.relation == Successor && e.info.costId == 0) = [] := by
          intro q
          rw [List.filter_eq_nil_iff]
          intro e he hc
          obtain ⟨x, hx, rfl⟩ := List.mem_map.mp he
          simp only [Bool.and_eq_true, beq_iff_eq] at hc
          exact h x hx hc.1.2
        rw [n1 (fun e => e.src == v), n1 (fun e => e.dst == v)]
        simp

theorem laneChangeInfo_rel (i : Input P K) (isLeft : Bool) (c : List (LH × LH)) (ci : CostModule K × Nat) :
    (laneChangeInfo i isLeft c ci).relation ≠ Successor := by
  unfold laneChangeInfo
  cases isLeft <;> split <;> simp only [] <;> decide

theorem nextOf_plusChain (i : Input P K) (isLeft : Bool) (ch : List (LH × LH)) (ll : LH) :
    ∀ g, nextOf (plusChain i isLeft ch g) ll = nextOf g ll ∧ prevOf (plusChain i isLeft ch g) ll = prevOf g ll := by
  induction ch with
  | nil => intro g; exact ⟨rfl, rfl⟩
  | cons p rest ih =>
    intro g
    unfold plusChain
    have h2 := nextOf_plus g (.inl p.1) (.inl p.2) (i.costs.zipIdx.map (laneChangeInfo i isLeft (p :: rest)))
      (by intro x hx; obtain ⟨ci, -, rfl⟩ := List.mem_map.mp hx; exact laneChangeInfo_rel i isLeft _ _) ll
    exact ⟨(ih _).1.trans h2.1, (ih _).2.trans h2.2⟩

/-- The loop hands out sequences that together are the pending lane changes, and adds their edges. -/
theorem laneChangeLoop_spec (i : Input P K) (ok : CostsOk i) (isLeft : Bool) (n : Nat) :
    ∀ (g : RGraph Prim K) (m : List Entry) (pos : Nat), (pending m).length = n → (m.map (·.src)).Nodup → DoneTo m pos →
    (∀ p ∈ pairs m, (.inl p.1 : Prim) ∈ g.vertices ∧ (.inl p.2 : Prim) ∈ g.vertices) →
    ∃ chs : List (List (LH × LH)), pending m ~ chs.flatten ∧ (∀ ch ∈ chs, Sequence (prevOf g) (nextOf g) ch) ∧
      laneChangeLoop i isLeft g m pos = some (chs.foldl (fun g ch => plusChain i isLeft ch g) g) := by
  induction n using Nat.strongRecOn with
  | _ n ih =>
    intro g m pos hlen hn hd hv
    have hsome : ∀ x : LH, (.inl x : Prim) ∈ g.vertices → (nextOf g x).isSome ∧ (prevOf g x).isSome := by
      intro x hx
      obtain ⟨v, hv⟩ := Option.isSome_iff_exists.mp ((getVertex_isSome g _).mpr hx)
      simp [nextOf, prevOf, hv]
    obtain ⟨r, m', pos', h1, h2, h3, h4⟩ := getNext_spec (prevOf g) (nextOf g) m pos hn
      (fun p hp => ⟨(hsome _ (hv p hp).1).2, (hsome _ (hv p hp).2).2⟩)
      (fun p hp => ⟨(hsome _ (hv p hp).1).1, (hsome _ (hv p hp).2).1⟩) hd
    rw [laneChangeLoop]
    simp only [h1, Option.bind_eq_bind, Option.bind_some]
    rcases h4 with ⟨rfl, hp⟩ | ⟨ch, rfl, hne, hperm, hseq⟩
    · exact ⟨[], by rw [hp]; exact .refl _, by simp, rfl⟩
    · simp only [assignLaneChangeCosts_eq i ok, Option.bind_some]
      have hlt : (pending m').length < n := by
        have := hperm.length_eq
        rw [List.length_append] at this
        have : 0 < ch.length := List.length_pos_iff.mpr hne
        omega
      obtain ⟨chs, e1, e2, e3⟩ := ih _ hlt (plusChain i isLeft ch g) m' pos' rfl (by rw [keys_of_pairs h2.1]; exact hn) h3
        (by rw [h2.1, plusChain_vertices]; exact hv)
      refine ⟨ch :: chs, ?_, ?_, ?_⟩
      · exact hperm.trans (e1.append_left _)
      · intro c hc
        rcases List.mem_cons.mp hc with rfl | hc
        · exact hseq
        · have := e2 c hc
          have f1 : nextOf (plusChain i isLeft ch g) = nextOf g := funext fun ll => (nextOf_plusChain i isLeft ch ll g).1
          have f2 : prevOf (plusChain i isLeft ch g) = prevOf g := funext fun ll => (nextOf_plusChain i isLeft ch ll g).2
          rw [f1, f2] at this
          exact this
      · rw [e3]; rfl

theorem foldl_plusChain_vertices (i : Input P K) (isLeft : Bool) (chs : List (List (LH × LH))) :
    ∀ g, (chs.foldl (fun g ch => plusChain i isLeft ch g) g).vertices = g.vertices := by
  induction chs with
  | nil => intro g; rfl
  | cons c chs ih => intro g; rw [List.foldl_cons, ih, plusChain_vertices]

theorem edgesOf_foldl_plusChain (i : Input P K) (isLeft : Bool) (a b : LH) (chs : List (List (LH × LH))) :
    ∀ g, (.inl a : Prim) ∈ g.vertices → (.inl b : Prim) ∈ g.vertices →
      edgesOf (chs.foldl (fun g ch => plusChain i isLeft ch g) g) (.inl a) (.inl b) = edgesOf g (.inl a) (.inl b) ++
        (((chs.flatMap suffixes).filter fun c => c.head? == some (a, b)).flatMap fun c =>
          i.costs.zipIdx.map (laneChangeInfo i isLeft c)) := by
  induction chs with
  | nil => intro g _ _; simp
  | cons c chs ih =>
    intro g ha hb
    rw [List.foldl_cons, ih _ (by rw [plusChain_vertices]; exact ha) (by rw [plusChain_vertices]; exact hb),
      edgesOf_plusChain i isLeft a b c g ha hb]
    simp [List.filter_append, List.flatMap_append]

theorem edgesOf_foldl_plusChain_other (i : Input P K) (isLeft : Bool) (a b : Prim) (h : ∀ x y, a = .inl x → b ≠ .inl y)
    (chs : List (List (LH × LH))) :
    ∀ g, edgesOf (chs.foldl (fun g ch => plusChain i isLeft ch g) g) a b = edgesOf g a b := by
  induction chs with
  | nil => intro g; rfl
  | cons c chs ih => intro g; rw [List.foldl_cons, ih, edgesOf_plusChain_other i isLeft a b h]

end Verif.Build
