import Verif.Geo.Project
import Mathlib.Data.List.Sort

/-!
C42: projection on linestrings and the closest points of two linestrings. Model of lanelet2_core/src/LineStringGeometry.cpp 122-327.

The order in which the R-tree returns segments is a parameter (`Index`): boost returns them by increasing distance of their boxes.
Distances are the same for both dimensions, see `Verif.Geo.Space`.
-/
namespace Verif.Geo
open scoped List

/-- how a call can fail; LineStringGeometry.cpp 302-327 -/
inductive Fault
  /-- undefined behaviour -/
  | ub
  /-- InvalidInputError -/
  | invalidInput
  deriving DecidableEq

section
variable {F V : Type} [Field F] [LinearOrder F] [IsStrictOrderedRing F] [AddCommGroup V] [Module F V] [S : Space F V]

/-! ### model -/

/-- the loop of distForAllSegments, LineStringGeometry.cpp 127-131 -/
def distLoop {σ : Type} (f : σ → V → V → Except Fault (σ × F)) : σ → V → List V → Except Fault σ
  | s, _, [] => .ok s
  | s, x, y :: rest => do
    let r ← f s x y
    if r.2 = 0 then return r.1 else distLoop f r.1 y rest

/-- distForAllSegments, LineStringGeometry.cpp 122-132; for an empty range the loop starts behind the end -/
def distForAll {σ : Type} (f : σ → V → V → Except Fault (σ × F)) (s : σ) : List V → Except Fault σ
  | [] => .error .ub
  | [x] => do
    let r ← f s x x
    return r.1
  | x :: rest => distLoop f s x rest

/-- ProjectedPoint2L2Result, LineStringGeometry.cpp 138-169, once it is valid -/
structure Pair (F V : Type) where
  segm1 : V × V
  segm2 : V × V
  p1 : V
  p2 : V
  distance : F

/-- the result for two segments; LineStringGeometry.cpp 147-159 -/
def Pair.of (small : F) (s1 s2 : V × V) : Pair F V :=
  let r := projectSegments small s1.1 s1.2 s2.1 s2.2
  ⟨s1, s2, r.1, r.2, dist r.1 r.2⟩

/-- ProjectedPoint2L2Result::update, LineStringGeometry.cpp 147-159 -/
def Pair.update (small : F) (r : Option (Pair F V)) (s1 s2 : V × V) : Pair F V :=
  match r with
  | none => Pair.of small s1 s2
  | some o => if (Pair.of small s1 s2).distance < o.distance then Pair.of small s1 s2 else o

/-- LineStringGeometry.cpp 162 -/
def Pair.swap (r : Pair F V) : Pair F V := ⟨r.segm2, r.segm1, r.p2, r.p1, r.distance⟩

/-- ProjectedPointL2PResult, LineStringGeometry.cpp 176-198, once it is valid -/
structure Proj (F V : Type) where
  segm : V × V
  p : V
  distance : F

/-- ProjectedPointL2PResult::update, LineStringGeometry.cpp 183-192. -/
def Proj.of (p : V) (s : V × V) : Proj F V :=
  let q := projectPoint s.1 s.2 p
  ⟨s, q, dist q p⟩

/-- ProjectedPointL2PResult::update, LineStringGeometry.cpp 183-192 -/
def Proj.update (p : V) (r : Option (Proj F V)) (s : V × V) : Proj F V :=
  match r with
  | none => Proj.of p s
  | some o => if (Proj.of p s).distance < o.distance then Proj.of p s else o

/-- an R-tree over segments; LineStringGeometry.cpp 214-248, 271-300 -/
structure Index (F V : Type) where
  /-- the values of the tree in the order of tree.qbegin(bgi::nearest(...)) for a query -/
  search : V × V → List (V × V) → List (V × V)
  /-- the distance of the boxes around two segments -/
  boxDist : V × V → V × V → F

/-- bg::segments_begin to segments_end of a linestring with two or more points; `closed`: of a polygon; LineStringGeometry.cpp 224, 281 -/
def treeSegs (closed : Bool) (l : List V) : List (V × V) :=
  l.zip l.tail ++ if closed then (match l.getLast?, l.head? with
    | some a, some b => [(a, b)]
    | _, _ => []) else []

/-- the loop of projectedPointL2LWithTree, LineStringGeometry.cpp 237-244 -/
def pairTreeLoop (small : F) (ix : Index F V) (q : V × V) : Option (Pair F V) → List (V × V) → Option (Pair F V)
  | r, [] => r
  | none, s :: l => pairTreeLoop small ix q (some (Pair.update small none q s)) l
  | some o, s :: l =>
    if o.distance < ix.boxDist q s then some o else pairTreeLoop small ix q (some (Pair.update small (some o) q s)) l

/-- `*result.distance`; LineStringGeometry.cpp 240, 292 -/
def derefPair (r : Option (Pair F V)) : Except Fault (Option (Pair F V) × F) :=
  match r with
  | none => .error .ub
  | some o => .ok (some o, o.distance)

/-- projectedPointL2LWithTree, LineStringGeometry.cpp 214-248 -/
def pairWithTree (small : F) (ix : Index F V) (closed : Bool) (l1 l2 : List V) : Except Fault (Option (Pair F V)) :=
  distForAll (fun r a b => derefPair (pairTreeLoop small ix (a, b) r (ix.search (a, b) (treeSegs closed l2)))) none l1

/-- projectedPointL2LBruteForce, LineStringGeometry.cpp 250-261 -/
def pairBruteForce (small : F) (l1 l2 : List V) : Except Fault (Option (Pair F V)) :=
  distForAll (fun r a b => do
    let r' ← distForAll (fun r c d => .ok (some (Pair.update small r (a, b) (c, d)), (Pair.update small r (a, b) (c, d)).distance)) r l2
    derefPair r') none l1

/-- projectedPointOrdered, LineStringGeometry.cpp 302-311 -/
def pairOrdered (small : F) (ix : Index F V) (closed : Bool) (l1 l2 : List V) : Except Fault (Option (Pair F V)) :=
  if l1.length = 0 then .error .invalidInput
  else if l2.length < 50 then pairBruteForce small l1 l2
  else pairWithTree small ix closed l1 l2

/-- the fields of a result that is not valid are not initialised; LineStringGeometry.cpp 139-145, 177-182 -/
def validResult {α : Type} (r : Option α) : Except Fault α :=
  match r with
  | none => .error .ub
  | some x => .ok x

/-- projectedPointL2LImpl, LineStringGeometry.cpp 313-319. Linestrings: projectedPoint2d/3d 332-360, 377-405; polygons
(`closed`): projectedBorderPoint2d/3d 362-374, 407-420 -/
def projectedPair (small : F) (ix : Index F V) (closed : Bool) (l1 l2 : List V) : Except Fault (Pair F V) := do
  if l1.length < l2.length then
    let r ← pairOrdered small ix closed l1 l2
    validResult r
  else
    let r ← pairOrdered small ix closed l2 l1
    let r ← validResult r
    return r.swap

/-- projectedPointL2PBruteForce, LineStringGeometry.cpp 263-269 -/
def projBruteForce (l : List V) (p : V) : Except Fault (Option (Proj F V)) :=
  distForAll (fun r a b => .ok (some (Proj.update p r (a, b)), (Proj.update p r (a, b)).distance)) none l

/-- the loop of projectedPointL2PWithTree, LineStringGeometry.cpp 289-298 -/
def projTreeLoop (ix : Index F V) (p : V) : Option (Proj F V) → List (V × V) → Option (Proj F V)
  | r, [] => r
  | none, s :: l =>
    if (Proj.update p none s).distance = 0 then some (Proj.update p none s) else projTreeLoop ix p (some (Proj.update p none s)) l
  | some o, s :: l =>
    if o.distance < ix.boxDist (p, p) s then some o
    else if (Proj.update p (some o) s).distance = 0 then some (Proj.update p (some o) s)
    else projTreeLoop ix p (some (Proj.update p (some o) s)) l

/-- projectedPointL2PImpl, LineStringGeometry.cpp 321-327 with 271-300: the result is used by project 422-441 (`p`) and closestSegment
444-473 (`segm`) -/
def projectLine (ix : Index F V) (l : List V) (p : V) : Except Fault (Proj F V) := do
  if l.length < 50 then
    let r ← projBruteForce l p
    validResult r
  else validResult (projTreeLoop ix p none (ix.search (p, p) (treeSegs false l)))

/-! ### specification -/

/-- the segments of a linestring; a single point counts as a segment; Specification. -/
def segs : List V → List (V × V)
  | [x] => [(x, x)]
  | l => l.zip l.tail

/-- the points of a linestring; Specification. -/
def OnLine [Space F V] (l : List V) (x : V) : Prop := ∃ s ∈ segs l, OnSegment s.1 s.2 x

/-- what is assumed about the R-tree: it returns its segments by increasing distance of the boxes, and segments are not closer than
their boxes; Specification. -/
structure Index.Ok (ix : Index F V) : Prop where
  perm : ∀ q l, ix.search q l ~ l
  sorted : ∀ q l, (ix.search q l).Pairwise fun a b => ix.boxDist q a ≤ ix.boxDist q b
  lower : ∀ q s x y, OnSegment q.1 q.2 x → OnSegment s.1 s.2 y → ix.boxDist q s ≤ dist x y

/-! ### proofs -/

/-- `r` is a best one of the candidates `cs`; Specification. -/
def Best {C R : Type} (of : C → R) (d : R → F) (r : Option R) (cs : List C) : Prop :=
  (r = none ∧ cs = []) ∨ ∃ c ∈ cs, r = some (of c) ∧ ∀ c' ∈ cs, d (of c) ≤ d (of c')

/-- Helper of the proofs: one update of the best result so far. -/
def upd {C R : Type} (of : C → R) (d : R → F) (r : Option R) (c : C) : R :=
  match r with
  | none => of c
  | some o => if d (of c) < d o then of c else o

variable {C R : Type} {of : C → R} {d : R → F}

omit [Field F] [IsStrictOrderedRing F] in
theorem Best.step {r : Option R} {cs : List C} (h : Best of d r cs) (c : C) : Best of d (some (upd of d r c)) (cs ++ [c]) := by
  rcases h with ⟨rfl, rfl⟩ | ⟨c0, hc0, rfl, hmin⟩
  · exact .inr ⟨c, by simp, rfl, by simp⟩
  · refine .inr ?_
    unfold upd
    simp only
    split
    · rename_i hlt
      refine ⟨c, by simp, rfl, ?_⟩
      intro c' hc'
      rcases List.mem_append.mp hc' with h | h
      · exact le_trans hlt.le (hmin c' h)
      · rw [List.mem_singleton.mp h]
    · rename_i hlt
      refine ⟨c0, by simp [hc0], rfl, ?_⟩
      intro c' hc'
      rcases List.mem_append.mp hc' with h | h
      · exact hmin c' h
      · rw [List.mem_singleton.mp h]; exact not_lt.mp hlt

omit [Field F] [IsStrictOrderedRing F] in
theorem Best.skip {o : R} {cs ds : List C} (h : Best of d (some o) cs) (hd : ∀ c ∈ ds, d o ≤ d (of c)) :
    Best of d (some o) (cs ++ ds) := by
  rcases h with ⟨h, -⟩ | ⟨c0, hc0, h, hmin⟩
  · cases h
  · have h := Option.some.inj h
    subst h
    refine .inr ⟨c0, by simp [hc0], rfl, fun c' hc' => ?_⟩
    rcases List.mem_append.mp hc' with h | h
    · exact hmin c' h
    · exact hd c' h

omit [Field F] [IsStrictOrderedRing F] in
theorem Best.perm {r : Option R} {cs ds : List C} (h : Best of d r cs) (hp : cs ~ ds) : Best of d r ds := by
  rcases h with ⟨rfl, rfl⟩ | ⟨c, hc, rfl, hmin⟩
  · exact .inl ⟨rfl, hp.symm.eq_nil⟩
  · exact .inr ⟨c, hp.mem_iff.mp hc, rfl, fun c' hc' => hmin c' (hp.mem_iff.mpr hc')⟩

/-- the loop over segments with a body that considers the candidates `g s` for a segment `s` -/
theorem distLoop_best {g : V × V → List C} {f : Option R → V → V → Except Fault (Option R × F)} (hpos : ∀ c, 0 ≤ d (of c))
    (hf : ∀ r cs a b, Best of d r cs → ∃ o, f r a b = .ok (some o, d o) ∧ Best of d (some o) (cs ++ g (a, b))) :
    ∀ (l : List V) (x : V) (r : Option R) (cs : List C), Best of d r cs → (l ≠ [] ∨ ∃ o, r = some o) →
      ∃ o, distLoop f r x l = .ok (some o) ∧ Best of d (some o) (cs ++ ((x :: l).zip l).flatMap g) := by
  intro l
  induction l with
  | nil =>
    intro x r cs h hr
    obtain ⟨o, rfl⟩ := hr.resolve_left (by simp)
    exact ⟨o, rfl, by simpa using h⟩
  | cons y l ih =>
    intro x r cs h hr
    obtain ⟨o, h1, h2⟩ := hf r cs x y h
    have e : (x :: y :: l).zip (y :: l) = (x, y) :: (y :: l).zip l := rfl
    rw [e, List.flatMap_cons, ← List.append_assoc]
    by_cases h0 : d o = 0
    · refine ⟨o, ?_, ?_⟩
      · simp only [distLoop, h1, bind, Except.bind, h0, if_true]; rfl
      · exact h2.skip fun c _ => by rw [h0]; exact hpos _
    · obtain ⟨o', h3, h4⟩ := ih y (some o) _ h2 (.inr ⟨o, rfl⟩)
      refine ⟨o', ?_, h4⟩
      simp only [distLoop, h1, bind, Except.bind, h0, if_false]
      exact h3

theorem distForAll_best {g : V × V → List C} {f : Option R → V → V → Except Fault (Option R × F)} (hpos : ∀ c, 0 ≤ d (of c))
    (hf : ∀ r cs a b, Best of d r cs → ∃ o, f r a b = .ok (some o, d o) ∧ Best of d (some o) (cs ++ g (a, b)))
    {l : List V} (hl : l ≠ []) {r : Option R} {cs : List C} (h : Best of d r cs) :
    ∃ o, distForAll f r l = .ok (some o) ∧ Best of d (some o) (cs ++ (segs l).flatMap g) := by
  match l, hl with
  | [x], _ =>
    obtain ⟨o, h1, h2⟩ := hf r cs x x h
    refine ⟨o, ?_, by simpa [segs] using h2⟩
    simp only [distForAll, h1, bind, Except.bind]; rfl
  | x :: y :: l, _ =>
    exact distLoop_best hpos hf (y :: l) x r cs h (.inl (by simp))

theorem Pair.update_eq (small : F) (r : Option (Pair F V)) (s1 s2 : V × V) :
    Pair.update small r s1 s2 = upd (fun c : (V × V) × (V × V) => Pair.of small c.1 c.2) Pair.distance r (s1, s2) := by
  cases r <;> rfl

theorem Proj.update_eq (p : V) (r : Option (Proj F V)) (s : V × V) :
    Proj.update p r s = upd (Proj.of p) Proj.distance r s := by
  cases r <;> rfl

/-- the best of the pairs of segments; Specification. -/
abbrev BestPair (small : F) (r : Option (Pair F V)) (cs : List ((V × V) × (V × V))) : Prop :=
  Best (fun c : (V × V) × (V × V) => Pair.of small c.1 c.2) Pair.distance r cs

theorem pair_of_nonneg (small : F) (c : (V × V) × (V × V)) : 0 ≤ (Pair.of small c.1 c.2).distance := norm_nonneg _

theorem proj_of_nonneg (p : V) (s : V × V) : 0 ≤ (Proj.of p s).distance := norm_nonneg _

theorem treeSegs_eq {l : List V} (h : 2 ≤ l.length) : treeSegs false l = segs l := by
  match l, h with
  | x :: y :: l, _ => simp [treeSegs, segs]

/-- pairs are not closer than their boxes -/
theorem lower_pair {small : F} (hs : 0 < small) {ix : Index F V} (hix : ix.Ok) (q s : V × V) :
    ix.boxDist q s ≤ (Pair.of small q s).distance :=
  hix.lower q s _ _ (projectSegments_on hs _ _ _ _).1 (projectSegments_on hs _ _ _ _).2

theorem pairTreeLoop_best {small : F} (hs : 0 < small) {ix : Index F V} (hix : ix.Ok) (q : V × V) :
    ∀ (l : List (V × V)) (r : Option (Pair F V)) (cs), l.Pairwise (fun a b => ix.boxDist q a ≤ ix.boxDist q b) →
      BestPair small r cs → BestPair small (pairTreeLoop small ix q r l) (cs ++ l.map fun s => (q, s)) := by
  intro l
  induction l with
  | nil => intro r cs _ h; cases r <;> simpa [pairTreeLoop] using h
  | cons s l ih =>
    intro r cs hp h
    rw [List.pairwise_cons] at hp
    have hstep := h.step (q, s)
    rw [← Pair.update_eq] at hstep
    have e : cs ++ (s :: l).map (fun s => (q, s)) = cs ++ [(q, s)] ++ l.map fun s => (q, s) := by simp
    cases r with
    | none =>
      rw [pairTreeLoop, e]
      exact ih _ _ hp.2 hstep
    | some o =>
      rw [pairTreeLoop]
      split
      · rename_i hlt
        refine h.skip fun c hc => ?_
        obtain ⟨s', hs', rfl⟩ := List.mem_map.mp hc
        have h1 := lower_pair hs hix q s'
        have h2 : ix.boxDist q s ≤ ix.boxDist q s' := by
          rcases List.mem_cons.mp hs' with rfl | hs'
          · exact le_refl _
          · exact hp.1 s' hs'
        exact le_trans hlt.le (le_trans h2 h1)
      · rw [e]
        exact ih _ _ hp.2 hstep

theorem derefPair_best {small : F} {r : Option (Pair F V)} {cs ds} (h : BestPair small r (cs ++ ds)) (hd : ds ≠ []) :
    ∃ o, derefPair r = .ok (some o, o.distance) ∧ BestPair small (some o) (cs ++ ds) := by
  cases r with
  | none =>
    rcases h with ⟨-, h⟩ | ⟨c, -, h, -⟩
    · simp at h; exact absurd h.2 hd
    · cases h
  | some o => exact ⟨o, rfl, h⟩

theorem segs_ne {l : List V} (h : l ≠ []) : segs l ≠ [] := by
  match l, h with
  | [x], _ => simp [segs]
  | x :: y :: l, _ => simp [segs]

/-- all pairs of segments; Specification. -/
def pairs (s1 s2 : List (V × V)) : List ((V × V) × (V × V)) := s1.flatMap fun a => s2.map fun b => (a, b)

theorem mem_pairs {s1 s2 : List (V × V)} {c : (V × V) × (V × V)} : c ∈ pairs s1 s2 ↔ c.1 ∈ s1 ∧ c.2 ∈ s2 := by
  unfold pairs
  rw [List.mem_flatMap]
  constructor
  · rintro ⟨a, ha, h⟩
    obtain ⟨b, hb, rfl⟩ := List.mem_map.mp h
    exact ⟨ha, hb⟩
  · rintro ⟨h1, h2⟩
    exact ⟨c.1, h1, List.mem_map.mpr ⟨c.2, h2, rfl⟩⟩

theorem pairBruteForce_best (small : F) {l1 l2 : List V} (h1 : l1 ≠ []) (h2 : l2 ≠ []) :
    ∃ o, pairBruteForce small l1 l2 = .ok (some o) ∧ BestPair small (some o) (pairs (segs l1) (segs l2)) := by
  have hin : ∀ (r : Option (Pair F V)) cs a b, BestPair small r cs → ∃ o,
      distForAll (fun r c d => .ok (some (Pair.update small r (a, b) (c, d)), (Pair.update small r (a, b) (c, d)).distance)) r l2 =
        .ok (some o) ∧ BestPair small (some o) (cs ++ (segs l2).map fun s => ((a, b), s)) := by
    intro r cs a b h
    have := distForAll_best (of := fun c : (V × V) × (V × V) => Pair.of small c.1 c.2) (d := Pair.distance)
      (g := fun s => [((a, b), s)])
      (f := fun r c d => .ok (some (Pair.update small r (a, b) (c, d)), (Pair.update small r (a, b) (c, d)).distance))
      (pair_of_nonneg small) (fun r cs c d h => ⟨_, rfl, by rw [Pair.update_eq]; exact h.step _⟩) h2 h
    obtain ⟨o, h3, h4⟩ := this
    refine ⟨o, h3, ?_⟩
    rw [List.map_eq_flatMap]
    exact h4
  have := distForAll_best (of := fun c : (V × V) × (V × V) => Pair.of small c.1 c.2) (d := Pair.distance)
      (g := fun a => (segs l2).map fun b => (a, b))
      (f := fun r a b => do
        let r' ← distForAll (fun r c d => .ok (some (Pair.update small r (a, b) (c, d)), (Pair.update small r (a, b) (c, d)).distance)) r l2
        derefPair r') (pair_of_nonneg small) (fun r cs a b h => by
          obtain ⟨o, h3, h4⟩ := hin r cs a b h
          refine ⟨o, ?_, h4⟩
          rw [h3]; rfl) h1 (r := none) (cs := []) (.inl ⟨rfl, rfl⟩)
  simpa [pairBruteForce, pairs] using this

theorem pairWithTree_best {small : F} (hs : 0 < small) {ix : Index F V} (hix : ix.Ok) (closed : Bool) {l1 l2 : List V}
    (h1 : l1 ≠ []) (h2 : treeSegs closed l2 ≠ []) :
    ∃ o, pairWithTree small ix closed l1 l2 = .ok (some o) ∧ BestPair small (some o) (pairs (segs l1) (treeSegs closed l2)) := by
  have := distForAll_best (of := fun c : (V × V) × (V × V) => Pair.of small c.1 c.2) (d := Pair.distance)
      (g := fun a => (treeSegs closed l2).map fun b => (a, b))
      (f := fun r a b => derefPair (pairTreeLoop small ix (a, b) r (ix.search (a, b) (treeSegs closed l2))))
      (pair_of_nonneg small) (fun r cs a b h => by
        have h3 := pairTreeLoop_best hs hix (a, b) (ix.search (a, b) (treeSegs closed l2)) r cs (hix.sorted _ _) h
        have h4 := Best.perm h3 (List.Perm.append_left cs ((hix.perm (a, b) (treeSegs closed l2)).map fun s => ((a, b), s)))
        exact derefPair_best h4 (by simpa using h2)) h1 (r := none) (cs := []) (.inl ⟨rfl, rfl⟩)
  simpa [pairWithTree, pairs] using this

theorem pairOrdered_best {small : F} (hs : 0 < small) {ix : Index F V} (hix : ix.Ok) {l1 l2 : List V} (h1 : l1 ≠ []) (h2 : l2 ≠ []) :
    ∃ o, pairOrdered small ix false l1 l2 = .ok (some o) ∧ BestPair small (some o) (pairs (segs l1) (segs l2)) := by
  unfold pairOrdered
  rw [if_neg (by simpa using h1)]
  split
  · exact pairBruteForce_best small h1 h2
  · rename_i h
    have h := not_lt.mp h
    have e : treeSegs false l2 = segs l2 := treeSegs_eq (le_trans (by decide) h)
    rw [← e]
    exact pairWithTree_best hs hix false h1 (by rw [e]; exact segs_ne h2)

theorem projTreeLoop_best {ix : Index F V} (hix : ix.Ok) (p : V) :
    ∀ (l : List (V × V)) (r : Option (Proj F V)) (cs), l.Pairwise (fun a b => ix.boxDist (p, p) a ≤ ix.boxDist (p, p) b) →
      Best (Proj.of p) Proj.distance r cs → Best (Proj.of p) Proj.distance (projTreeLoop ix p r l) (cs ++ l) := by
  intro l
  induction l with
  | nil => intro r cs _ h; cases r <;> simpa [projTreeLoop] using h
  | cons s l ih =>
    intro r cs hp h
    rw [List.pairwise_cons] at hp
    have hstep := h.step s
    rw [← Proj.update_eq] at hstep
    have e : cs ++ s :: l = cs ++ [s] ++ l := by simp
    cases r with
    | none =>
      rw [projTreeLoop, e]
      split
      · rename_i h0
        exact hstep.skip fun c _ => by rw [h0]; exact proj_of_nonneg _ _
      · exact ih _ _ hp.2 hstep
    | some o =>
      rw [projTreeLoop]
      split
      · rename_i hlt
        refine h.skip fun c hc => ?_
        have h1 : ix.boxDist (p, p) c ≤ (Proj.of p c).distance := by
          have := hix.lower (p, p) c p _ (onSegment_left _ _) (projectPoint_nearest c.1 c.2 p).1
          rw [dist_comm] at this
          exact this
        have h2 : ix.boxDist (p, p) s ≤ ix.boxDist (p, p) c := by
          rcases List.mem_cons.mp hc with rfl | hc
          · exact le_refl _
          · exact hp.1 c hc
        exact le_trans hlt.le (le_trans h2 h1)
      · rw [e]
        split
        · rename_i h0
          exact hstep.skip fun c _ => by rw [h0]; exact proj_of_nonneg _ _
        · exact ih _ _ hp.2 hstep

/-- the projection of a point on a linestring is the best one of the segments -/
theorem projectLine_best {ix : Index F V} (hix : ix.Ok) {l : List V} (hl : l ≠ []) (p : V) :
    ∃ o, projectLine ix l p = .ok o ∧ Best (Proj.of p) Proj.distance (some o) (segs l) := by
  unfold projectLine
  split
  · have := distForAll_best (of := Proj.of p) (d := Proj.distance) (g := fun s => [s])
      (f := fun r a b => .ok (some (Proj.update p r (a, b)), (Proj.update p r (a, b)).distance))
      (proj_of_nonneg p) (fun r cs c d h => ⟨_, rfl, by rw [Proj.update_eq]; exact h.step _⟩) hl (r := none) (cs := []) (.inl ⟨rfl, rfl⟩)
    obtain ⟨o, h1, h2⟩ := this
    refine ⟨o, ?_, by simpa using h2⟩
    unfold projBruteForce
    rw [h1]; rfl
  · rename_i h
    have h := not_lt.mp h
    have e : treeSegs false l = segs l := treeSegs_eq (le_trans (by decide) h)
    have h3 := projTreeLoop_best hix p (ix.search (p, p) (treeSegs false l)) none [] (hix.sorted _ _) (.inl ⟨rfl, rfl⟩)
    rw [List.nil_append] at h3
    have h4 := Best.perm h3 (hix.perm _ _)
    rw [e] at h4 ⊢
    generalize projTreeLoop ix p none (ix.search (p, p) (segs l)) = r at h4 ⊢
    cases r with
    | none =>
      rcases h4 with ⟨-, h⟩ | ⟨c, -, h, -⟩
      · exact absurd h (segs_ne hl)
      · cases h
    | some o => exact ⟨o, rfl, h4⟩

/-! ### theorems -/

/-- C42: for every non-empty linestring, with and without index: the result is the projection on one of the segments; it is on the
linestring, and no point of the linestring is closer. -/
theorem projectLine_nearest {ix : Index F V} (hix : ix.Ok) {l : List V} (hl : l ≠ []) (p : V) :
    ∃ r, projectLine ix l p = .ok r ∧ r.segm ∈ segs l ∧ r.p = projectPoint r.segm.1 r.segm.2 p ∧ OnLine l r.p ∧
      ∀ x, OnLine l x → dist r.p p ≤ dist x p := by
  obtain ⟨r, h1, h2⟩ := projectLine_best hix hl p
  rcases h2 with ⟨h, -⟩ | ⟨c, hc, h, hmin⟩
  · cases h
  · have h := Option.some.inj h
    subst h
    refine ⟨_, h1, hc, rfl, ⟨c, hc, (projectPoint_nearest c.1 c.2 p).1⟩, ?_⟩
    rintro x ⟨s, hs, hx⟩
    exact le_trans (hmin s hs) ((projectPoint_nearest s.1 s.2 p).2 x hx)

/-- C42: the distance does not depend on the index. -/
theorem projectLine_index {ix ix' : Index F V} (hix : ix.Ok) (hix' : ix'.Ok) {l : List V} {p : V} {r r' : Proj F V}
    (h : projectLine ix l p = .ok r) (h' : projectLine ix' l p = .ok r') : dist r.p p = dist r'.p p := by
  by_cases hl : l = []
  · subst hl; cases h
  · obtain ⟨r1, h1, -, -, h2, h3⟩ := projectLine_nearest hix hl p
    obtain ⟨r2, h4, -, -, h5, h6⟩ := projectLine_nearest hix' hl p
    rw [h] at h1; rw [h'] at h4
    cases h1; cases h4
    exact le_antisymm (h3 _ h5) (h6 _ h2)

/-- the projection on a linestring without points is undefined behaviour -/
theorem projectLine_empty (ix : Index F V) (p : V) : projectLine ix [] p = .error .ub := rfl

/-- C42: two linestrings. The result is the one of two segments, with a smallest distance of all pairs of segments, on both
linestrings. With and without index; the first segment is the one of the linestring with fewer points. -/
theorem projectedPair_best {small : F} (hs : 0 < small) {ix : Index F V} (hix : ix.Ok) {l1 l2 : List V} (h1 : l1 ≠ []) (h2 : l2 ≠ []) :
    ∃ r, projectedPair small ix false l1 l2 = .ok r ∧ OnLine l1 r.p1 ∧ OnLine l2 r.p2 ∧ r.distance = dist r.p1 r.p2 ∧
      if l1.length < l2.length then
        r.segm1 ∈ segs l1 ∧ r.segm2 ∈ segs l2 ∧ (r.p1, r.p2) = projectSegments small r.segm1.1 r.segm1.2 r.segm2.1 r.segm2.2 ∧
        ∀ s1 ∈ segs l1, ∀ s2 ∈ segs l2, r.distance ≤ dist (projectSegments small s1.1 s1.2 s2.1 s2.2).1 (projectSegments small s1.1 s1.2 s2.1 s2.2).2
      else
        r.segm1 ∈ segs l1 ∧ r.segm2 ∈ segs l2 ∧ (r.p2, r.p1) = projectSegments small r.segm2.1 r.segm2.2 r.segm1.1 r.segm1.2 ∧
        ∀ s1 ∈ segs l1, ∀ s2 ∈ segs l2, r.distance ≤ dist (projectSegments small s2.1 s2.2 s1.1 s1.2).1 (projectSegments small s2.1 s2.2 s1.1 s1.2).2 := by
  unfold projectedPair
  split
  · obtain ⟨o, h3, h4⟩ := pairOrdered_best hs hix h1 h2
    rcases h4 with ⟨h, -⟩ | ⟨c, hc, h, hmin⟩
    · cases h
    · have h := Option.some.inj h
      subst h
      obtain ⟨hc1, hc2⟩ := mem_pairs.mp hc
      have hon := projectSegments_on hs c.1.1 c.1.2 c.2.1 c.2.2
      refine ⟨_, by rw [h3]; rfl, ⟨c.1, hc1, hon.1⟩, ⟨c.2, hc2, hon.2⟩, rfl, hc1, hc2, rfl, ?_⟩
      intro s1 hs1 s2 hs2
      exact hmin (s1, s2) (mem_pairs.mpr ⟨hs1, hs2⟩)
  · obtain ⟨o, h3, h4⟩ := pairOrdered_best hs hix h2 h1
    rcases h4 with ⟨h, -⟩ | ⟨c, hc, h, hmin⟩
    · cases h
    · have h := Option.some.inj h
      subst h
      obtain ⟨hc1, hc2⟩ := mem_pairs.mp hc
      have hon := projectSegments_on hs c.1.1 c.1.2 c.2.1 c.2.2
      refine ⟨(Pair.of small c.1 c.2).swap, by rw [h3]; rfl, ⟨c.2, hc2, hon.2⟩, ⟨c.1, hc1, hon.1⟩, dist_comm _ _, hc2, hc1, rfl, ?_⟩
      intro s1 hs1 s2 hs2
      exact hmin (s2, s1) (mem_pairs.mpr ⟨hs2, hs1⟩)

/-- C42: swapping linestrings of different size swaps the result. -/
theorem projectedPair_swap (small : F) (ix : Index F V) (closed : Bool) {l1 l2 : List V} (h : l1.length ≠ l2.length) :
    projectedPair small ix closed l2 l1 = (projectedPair small ix closed l1 l2).map Pair.swap := by
  unfold projectedPair
  rcases lt_or_gt_of_ne h with h | h
  · rw [if_neg (by omega), if_pos h]
    cases pairOrdered small ix closed l1 l2 with
    | error e => rfl
    | ok r => cases r <;> rfl
  · rw [if_pos h, if_neg (by omega)]
    cases pairOrdered small ix closed l2 l1 with
    | error e => rfl
    | ok r => cases r <;> rfl

/-- C42: an empty linestring is an error if it is the one with fewer points, i.e. always. -/
theorem projectedPair_empty (small : F) (ix : Index F V) (closed : Bool) {l1 l2 : List V} (h : l1 = [] ∨ l2 = []) :
    projectedPair small ix closed l1 l2 = .error .invalidInput := by
  unfold projectedPair
  split
  · rename_i hlt
    have : l1 = [] := by
      rcases h with h | h
      · exact h
      · rw [h] at hlt; simp at hlt
    rw [this]; rfl
  · rename_i hlt
    have : l2 = [] := by
      rcases h with h | h
      · rw [h] at hlt; simpa using hlt
      · exact h
    rw [this]; rfl

/-- no threshold comes into play by more than `ε`; Specification. -/
structure Fine (small ε : F) (l1 l2 : List V) : Prop where
  small_le : small ≤ ε
  /-- no segment is (nearly) degenerate -/
  seg1 : ∀ s ∈ segs l1, small ≤ ε * dot (s.2 - s.1) (s.2 - s.1)
  seg2 : ∀ s ∈ segs l2, small ≤ ε * dot (s.2 - s.1) (s.2 - s.1)
  /-- segments are parallel or enclose an angle that is not too small -/
  area : ∀ s1 ∈ segs l1, ∀ s2 ∈ segs l2,
    let area := dot (s1.2 - s1.1) (s1.2 - s1.1) * dot (s2.2 - s2.1) (s2.2 - s2.1) - dot (s1.2 - s1.1) (s2.2 - s2.1) * dot (s1.2 - s1.1) (s2.2 - s2.1)
    area = 0 ∨ (small ≤ area ∧ small ≤ ε * area)

/-- C42: no points of the two linestrings are closer than the returned ones, up to the error made by the thresholds (SmallNum) in the
code. Missing: degenerate and very short segments, for which the result is wrong, see the counterexamples. -/
theorem projectedPair_nearest_partial {small ε len : F} (hs : 0 < small) {ix : Index F V} (hix : ix.Ok) {l1 l2 : List V}
    (h1 : l1 ≠ []) (h2 : l2 ≠ []) (hf : Fine small ε l1 l2)
    (hl1 : ∀ s ∈ segs l1, dist s.1 s.2 ≤ len) (hl2 : ∀ s ∈ segs l2, dist s.1 s.2 ≤ len) :
    ∃ r, projectedPair small ix false l1 l2 = .ok r ∧ OnLine l1 r.p1 ∧ OnLine l2 r.p2 ∧
      ∀ x y, OnLine l1 x → OnLine l2 y → dist r.p1 r.p2 ≤ dist x y + 2 * ε * len := by
  have hε : 0 ≤ ε := le_trans hs.le hf.small_le
  have hne : ∀ s : V × V, small ≤ ε * dot (s.2 - s.1) (s.2 - s.1) → s.1 ≠ s.2 := by
    intro s h hc
    rw [hc, sub_self, dot_zero_left, mul_zero] at h
    exact absurd hs (not_lt.mpr h)
  obtain ⟨r, h3, h4, h5, h6, h7⟩ := projectedPair_best hs hix h1 h2
  refine ⟨r, h3, h4, h5, ?_⟩
  rintro x y ⟨s1, hs1, hx⟩ ⟨s2, hs2, hy⟩
  rw [← h6]
  have b1 := mul_le_mul_of_nonneg_left (hl1 s1 hs1) hε
  have b2 := mul_le_mul_of_nonneg_left (hl2 s2 hs2) hε
  split at h7
  · have h8 := h7.2.2.2 s1 hs1 s2 hs2
    have h9 := projectSegments_nearest_partial hs (hne s2 (hf.seg2 s2 hs2)) hf.small_le (.inr (hf.seg1 s1 hs1)) (hf.seg2 s2 hs2)
      (hf.area s1 hs1 s2 hs2) hx hy
    linarith
  · have h8 := h7.2.2.2 s1 hs1 s2 hs2
    have ha := hf.area s1 hs1 s2 hs2
    simp only at ha
    rw [mul_comm (dot (s1.2 - s1.1) (s1.2 - s1.1)), dot_comm (s1.2 - s1.1) (s2.2 - s2.1)] at ha
    have h9 := projectSegments_nearest_partial hs (hne s1 (hf.seg1 s1 hs1)) hf.small_le (.inr (hf.seg2 s2 hs2)) (hf.seg1 s1 hs1)
      ha hy hx
    rw [dist_comm y x] at h9
    linarith

end
end Verif.Geo
