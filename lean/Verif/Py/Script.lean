import Verif.Osm.Doc
import Mathlib.Tactic.ByContra
import Mathlib.Tactic.Convert
import Mathlib.Tactic.Tauto
import Verif.Osm.RegisterIds

/-!
Model of the script lanelet2_python/scripts/make_ids_positive.py: load a map, give new ids to all elements with negative ids, write the
map.

The elements of a layer are identified by the id under which the layer has them; this is their id before the script changes it. Elements
refer to each other by pointers, so that changing an id changes it wherever the element is referenced.
-/
namespace Verif.Py
open Verif.Osm Verif.Ids

variable {P D : Type}

/-- The layers of a map, in the order in which the script goes through them; make_ids_positive.py 28-33 -/
inductive Kind where
  | point
  | line
  | poly
  | lanelet
  | area
  | reg
  deriving DecidableEq

/-- The ids under which a layer has its elements, in the order of iteration; make_ids_positive.py 9, LaneletMap.h 116-141 -/
def keys (m : LMap P) : Kind → List Int
  | .point => m.points.map (·.1)
  | .line => m.lines.map (·.1)
  | .poly => m.polys.map (·.1)
  | .lanelet => m.lanelets.map (·.1)
  | .area => m.areas.map (·.1)
  | .reg => m.regs.map (·.1)

/-- make_positive, make_ids_positive.py 8-11: the ids of the elements and the counter of ids; uniqueId is utils::getId, LaneletMap.cpp
552-555 -/
def makePositive (s : (Int → Int) × Int) (layer : List Int) : (Int → Int) × Int :=
  layer.foldl (fun s k =>
    if s.1 k < 0 then (fun i => if i = k then (getIdSeq s.2).1 else s.1 i, (getIdSeq s.2).2) else s) s

/-- The ids of all elements after make_ids_positive.py 28-33, and the counter -/
def newIds (m : LMap P) (c : Int) : (Kind → Int → Int) × Int :=
  let pt := makePositive (id, c) (keys m .point)
  let ln := makePositive (id, pt.2) (keys m .line)
  let pg := makePositive (id, ln.2) (keys m .poly)
  let ll := makePositive (id, pg.2) (keys m .lanelet)
  let ar := makePositive (id, ll.2) (keys m .area)
  let rg := makePositive (id, ar.2) (keys m .reg)
  (fun k => match k with
    | .point => pt.1
    | .line => ln.1
    | .poly => pg.1
    | .lanelet => ll.1
    | .area => ar.1
    | .reg => rg.1, rg.2)

/-- A reference to an element whose id has changed; elements that are in no layer keep theirs; make_ids_positive.py 8-11 -/
def renRef (f : Int → Int) (r : Ref) : Ref := if r.dummy then r else { r with id := f r.id }

/-- Primitive.h 270 -/
def renPoint (R : Kind → Int → Int) (p : MPoint P) : MPoint P := { p with id := R .point p.id }

/-- Primitive.h 270; the points of a linestring are shared -/
def renLine (R : Kind → Int → Int) (l : MLine) : MLine := { l with id := R .line l.id, pts := l.pts.map (renRef (R .point)) }

/-- Primitive.h 270; the points of a polygon are shared -/
def renPoly (R : Kind → Int → Int) (l : MPoly) : MPoly := { l with id := R .poly l.id, pts := l.pts.map (renRef (R .point)) }

/-- Primitive.h 270; bounds and regulatory elements are shared -/
def renLanelet (R : Kind → Int → Int) (l : MLanelet) : MLanelet :=
  { l with
    id := R .lanelet l.id
    left := renRef (R .line) l.left
    right := renRef (R .line) l.right
    center := l.center.map (renRef (R .line))
    regs := l.regs.map (renRef (R .reg)) }

/-- Primitive.h 270; bounds and regulatory elements are shared -/
def renArea (R : Kind → Int → Int) (a : MArea) : MArea :=
  { a with
    id := R .area a.id
    outer := a.outer.map (renRef (R .line))
    inner := a.inner.map fun r => r.map (renRef (R .line))
    regs := a.regs.map (renRef (R .reg)) }

/-- The parameters of regulatory elements are shared; RegulatoryElement.h 90 -/
def renParam (R : Kind → Int → Int) : Param → Param
  | .point r => .point (renRef (R .point) r)
  | .line r => .line (renRef (R .line) r)
  | .poly r => .poly (renRef (R .poly) r)
  | .lanelet r => .lanelet (renRef (R .lanelet) r)
  | .area r => .area (renRef (R .area) r)
  | .expired => .expired

/-- RegulatoryElement.h 195: setId. -/
def renReg (R : Kind → Int → Int) (g : MReg) : MReg :=
  { g with id := R .reg g.id, params := g.params.map fun e => (e.1, e.2.map (renParam R)) }

/-- The map after make_ids_positive.py 28-33 and the counter: the layers still have the elements under their old ids -/
def script (m : LMap P) (c : Int) : LMap P × Int :=
  let R := (newIds m c).1
  (⟨m.points.map fun e => (e.1, renPoint R e.2), m.lines.map fun e => (e.1, renLine R e.2), m.polys.map fun e => (e.1, renPoly R e.2),
    m.lanelets.map fun e => (e.1, renLanelet R e.2), m.areas.map fun e => (e.1, renArea R e.2), m.regs.map fun e => (e.1, renReg R e.2)⟩,
    (newIds m c).2)

/-! ### Specification -/

/-- Specification: the same map with other ids: the element `i` of a layer has the id `R layer i` instead. -/
def renumber (R : Kind → Int → Int) (m : LMap P) : LMap P :=
  ⟨m.points.map fun e => (R .point e.1, renPoint R e.2), m.lines.map fun e => (R .line e.1, renLine R e.2),
    m.polys.map fun e => (R .poly e.1, renPoly R e.2), m.lanelets.map fun e => (R .lanelet e.1, renLanelet R e.2),
    m.areas.map fun e => (R .area e.1, renArea R e.2), m.regs.map fun e => (R .reg e.1, renReg R e.2)⟩

/-- Specification: negative ids become positive ids that the map does not use yet, each is given once, and no other id changes. -/
structure Positive (m : LMap P) (R : Kind → Int → Int) : Prop where
  keep : ∀ k, ∀ i ∈ keys m k, 0 ≤ i → R k i = i
  positive : ∀ k, ∀ i ∈ keys m k, i < 0 → 0 < R k i ∧ R k i ∉ m.ids
  once : ∀ k k', ∀ i ∈ keys m k, ∀ j ∈ keys m k', i < 0 → R k i = R k' j → k = k' ∧ i = j

/-- Specification: constructors of regulatory elements do not look at ids. -/
def IdBlind (env : Env P D) : Prop :=
  ∀ R name g, env.registry name g = some g → env.registry name (renReg R g) = some (renReg R g)

/-! ### Proofs: the new ids -/

/-- Helper of the proofs: what a layer gets from the counter. -/
structure Fresh (layer : List Int) (c : Int) (r : (Int → Int) × Int) : Prop where
  le : c ≤ r.2
  neg : ∀ i ∈ layer, i < 0 → c ≤ r.1 i ∧ r.1 i < r.2
  other : ∀ i, ¬ (i ∈ layer ∧ i < 0) → r.1 i = i
  inj : ∀ i j, i ∈ layer → j ∈ layer → i < 0 → j < 0 → r.1 i = r.1 j → i = j

theorem makePositive_fresh (layer : List Int) (c : Int) (hc : 0 < c) : Fresh layer c (makePositive (id, c) layer) := by
  unfold makePositive
  induction layer using List.reverseRecOn with
  | nil => exact ⟨Int.le_refl _, by simp, by simp, by simp⟩
  | append_singleton l k ih =>
    rw [List.foldl_append, List.foldl_cons, List.foldl_nil]
    generalize List.foldl _ (id, c) l = s at ih ⊢
    by_cases hk : s.1 k < 0
    · rw [if_pos hk]
      have hkl : ¬ (k ∈ l ∧ k < 0) := fun h => by have := (ih.neg k h.1 h.2).1; omega
      have hk0 : k < 0 := by rw [ih.other k hkl] at hk; exact hk
      have hkn : k ∉ l := fun h => hkl ⟨h, hk0⟩
      refine ⟨?_, ?_, ?_, ?_⟩
      · have := ih.le; simp only [getIdSeq]; omega
      · intro i hi h0
        simp only [getIdSeq]
        by_cases hik : i = k
        · rw [if_pos hik]; have := ih.le; omega
        · rw [if_neg hik]
          have hil : i ∈ l := by simpa [hik] using hi
          have := ih.neg i hil h0
          omega
      · intro i hi
        have hik : i ≠ k := fun e => hi ⟨by simp [e], e ▸ hk0⟩
        simp only [if_neg hik]
        exact ih.other i fun h => hi ⟨List.mem_append_left _ h.1, h.2⟩
      · intro i j hi hj hi0 hj0 h
        simp only [getIdSeq] at h
        simp only [List.mem_append, List.mem_singleton] at hi hj
        by_cases hik : i = k <;> by_cases hjk : j = k
        · rw [hik, hjk]
        · rw [if_pos hik, if_neg hjk] at h
          have := (ih.neg j (hj.resolve_right hjk) hj0).2
          omega
        · rw [if_neg hik, if_pos hjk] at h
          have := (ih.neg i (hi.resolve_right hik) hi0).2
          omega
        · rw [if_neg hik, if_neg hjk] at h
          exact ih.inj i j (hi.resolve_right hik) (hj.resolve_right hjk) hi0 hj0 h
    · rw [if_neg hk]
      have hneg : ∀ i, i ∈ l ++ [k] → i < 0 → i ∈ l := by
        intro i hi h0
        simp only [List.mem_append, List.mem_singleton] at hi
        rcases hi with hi | rfl
        · exact hi
        · by_cases hil : i ∈ l
          · exact hil
          · rw [ih.other i fun h => hil h.1] at hk; omega
      refine ⟨ih.le, fun i hi h0 => ih.neg i (hneg i hi h0) h0, fun i hi => ih.other i fun h => hi ⟨List.mem_append_left _ h.1, h.2⟩,
        fun i j hi hj hi0 hj0 h => ih.inj i j (hneg i hi hi0) (hneg j hj hj0) hi0 hj0 h⟩

/-- Helper of the proofs: ids below `c` that become equal are of the same element, or the same and unchanged. -/
structure RenOk (m : LMap P) (c : Int) (R : Kind → Int → Int) : Prop where
  keep : ∀ k i, ¬ (i ∈ keys m k ∧ i < 0) → R k i = i
  neg : ∀ k i, i ∈ keys m k → i < 0 → c ≤ R k i
  once : ∀ k k' i j, i ∈ keys m k → i < 0 → j ∈ keys m k' → j < 0 → R k i = R k' j → k = k' ∧ i = j

theorem newIds_ok (m : LMap P) (c : Int) (hc : 0 < c) : RenOk m c (newIds m c).1 ∧ c ≤ (newIds m c).2 := by
  have h1 := makePositive_fresh (keys m .point) c hc
  have h2 := makePositive_fresh (keys m .line) _ (Int.lt_of_lt_of_le hc h1.le)
  have c2 := Int.le_trans h1.le h2.le
  have h3 := makePositive_fresh (keys m .poly) _ (Int.lt_of_lt_of_le hc c2)
  have c3 := Int.le_trans c2 h3.le
  have h4 := makePositive_fresh (keys m .lanelet) _ (Int.lt_of_lt_of_le hc c3)
  have c4 := Int.le_trans c3 h4.le
  have h5 := makePositive_fresh (keys m .area) _ (Int.lt_of_lt_of_le hc c4)
  have c5 := Int.le_trans c4 h5.le
  have h6 := makePositive_fresh (keys m .reg) _ (Int.lt_of_lt_of_le hc c5)
  refine ⟨⟨?_, ?_, ?_⟩, Int.le_trans c5 h6.le⟩
  · intro k i hi
    cases k
    · exact h1.other i hi
    · exact h2.other i hi
    · exact h3.other i hi
    · exact h4.other i hi
    · exact h5.other i hi
    · exact h6.other i hi
  · intro k i hi h0
    cases k
    · exact (h1.neg i hi h0).1
    · exact Int.le_trans h1.le (h2.neg i hi h0).1
    · exact Int.le_trans c2 (h3.neg i hi h0).1
    · exact Int.le_trans c3 (h4.neg i hi h0).1
    · exact Int.le_trans c4 (h5.neg i hi h0).1
    · exact Int.le_trans c5 (h6.neg i hi h0).1
  · obtain ⟨a1, a2, a3, a4, a5, a6, l1, l2, l3, l4, l5, rng⟩ : ∃ a1 a2 a3 a4 a5 a6 : Int, c ≤ a1 ∧ a1 ≤ a2 ∧ a2 ≤ a3 ∧ a3 ≤ a4 ∧
        a4 ≤ a5 ∧ ∀ (k : Kind) (i : Int), i ∈ keys m k → i < 0 →
          (match k with
            | .point => c
            | .line => a1
            | .poly => a2
            | .lanelet => a3
            | .area => a4
            | .reg => a5) ≤ (newIds m c).1 k i ∧ (newIds m c).1 k i < (match k with
            | .point => a1
            | .line => a2
            | .poly => a3
            | .lanelet => a4
            | .area => a5
            | .reg => a6) := by
      refine ⟨_, _, _, _, _, (newIds m c).2, h1.le, h2.le, h3.le, h4.le, h5.le, ?_⟩
      intro k i hi hi0
      cases k
      · exact h1.neg i hi hi0
      · exact h2.neg i hi hi0
      · exact h3.neg i hi hi0
      · exact h4.neg i hi hi0
      · exact h5.neg i hi hi0
      · exact h6.neg i hi hi0
    intro k k' i j hi hi0 hj hj0 h
    have a := rng k i hi hi0
    have b := rng k' j hj hj0
    rw [← h] at b
    generalize hx : (newIds m c).1 k i = x at a b
    cases k <;> cases k'
    all_goals first
      | exact ⟨rfl, h1.inj i j hi hj hi0 hj0 h⟩
      | exact ⟨rfl, h2.inj i j hi hj hi0 hj0 h⟩
      | exact ⟨rfl, h3.inj i j hi hj hi0 hj0 h⟩
      | exact ⟨rfl, h4.inj i j hi hj hi0 hj0 h⟩
      | exact ⟨rfl, h5.inj i j hi hj hi0 hj0 h⟩
      | exact ⟨rfl, h6.inj i j hi hj hi0 hj0 h⟩
      | (exfalso; simp only at a b; omega)

/-! ### Proofs: maps with other ids -/

/-- Helper of the proofs: different ids below `c` stay different, across all layers. -/
def InjBelow (c : Int) (R : Kind → Int → Int) : Prop := ∀ k k' (i j : Int), i < c → j < c → R k i = R k' j → i = j

theorem RenOk.inj {m : LMap P} {c : Int} {R : Kind → Int → Int} (h : RenOk m c R) : InjBelow c R := by
  intro k k' i j hi hj e
  by_cases h1 : i ∈ keys m k ∧ i < 0 <;> by_cases h2 : j ∈ keys m k' ∧ j < 0
  · exact (h.once k k' i j h1.1 h1.2 h2.1 h2.2 e).2
  · have := h.neg k i h1.1 h1.2; rw [e, h.keep k' j h2] at this; omega
  · have := h.neg k' j h2.1 h2.2; rw [← e, h.keep k i h1] at this; omega
  · rw [h.keep k i h1, h.keep k' j h2] at e; exact e

section layers
variable {V W : Type} {f : Int → Int} {c : Int} (hf : ∀ i j : Int, i < c → j < c → f i = f j → i = j) {l : AMap Int V} (g : V → W)

include hf in
theorem get_ren (hl : ∀ e ∈ l, e.1 < c) {i : Int} (hi : i < c) :
    AMap.get (l.map fun e => (f e.1, g e.2)) (f i) = (l.get i).map g := by
  induction l with
  | nil => rfl
  | cons e l ih =>
    rw [List.map_cons, AMap.get_cons, AMap.get_cons, ih fun e he => hl e (List.mem_cons_of_mem _ he)]
    by_cases h : e.1 = i
    · simp [h]
    · have : ¬ f e.1 = f i := fun he => h (hf _ _ (hl e (by simp)) hi he)
      simp [h, this]

theorem get_ren_some {k : Int} {w : W} (h : AMap.get (l.map fun e => (f e.1, g e.2)) k = some w) : ∃ e ∈ l, k = f e.1 ∧ w = g e.2 := by
  have := AMap.mem_of_get h
  obtain ⟨e, he, h1⟩ := List.mem_map.mp this
  simp only [Prod.mk.injEq] at h1
  exact ⟨e, he, h1.1.symm, h1.2.symm⟩

include hf in
theorem has_ren (hl : ∀ e ∈ l, e.1 < c) {i : Int} (hi : i < c) : AMap.has (l.map fun e => (f e.1, g e.2)) (f i) = l.has i := by
  rw [AMap.has_eq, AMap.has_eq, get_ren hf g hl hi, Option.isSome_map]

theorem has_ren_some {k : Int} (h : AMap.has (l.map fun e => (f e.1, g e.2)) k = true) : ∃ e ∈ l, k = f e.1 := by
  obtain ⟨w, hw⟩ := has_get.mp h
  obtain ⟨e, he, h1, -⟩ := get_ren_some g hw
  exact ⟨e, he, h1⟩

include hf in
theorem nodup_ren (hl : ∀ e ∈ l, e.1 < c) (h : (l.map (·.1)).Nodup) : ((l.map fun e => (f e.1, g e.2)).map (·.1)).Nodup := by
  rw [List.map_map]
  induction l with
  | nil => exact List.nodup_nil
  | cons e l ih =>
    rw [List.map_cons, List.nodup_cons] at h ⊢
    refine ⟨fun hm => h.1 ?_, ih (fun e he => hl e (List.mem_cons_of_mem _ he)) h.2⟩
    obtain ⟨x, hx, h1⟩ := List.mem_map.mp hm
    simp only [Function.comp] at h1
    exact List.mem_map.mpr ⟨x, hx, hf _ _ (hl x (by simp [hx])) (hl e (by simp)) h1⟩

end layers

/-- Helper of the proofs: all ids of layers and references are below `c`. -/
def Below (c : Int) (m : LMap P) : Prop := ∀ i ∈ m.ids, i < c

section below
variable {c : Int} {m : LMap P} (h : Below c m)
include h

theorem Below.points : ∀ e ∈ m.points, e.1 < c := fun e he => h _ (by
  simp only [LMap.ids, List.mem_append, List.mem_flatMap]
  exact .inl (.inl (.inl (.inl (.inl ⟨e, he, by simp⟩)))))
theorem Below.lines : ∀ e ∈ m.lines, e.1 < c ∧ ∀ r ∈ e.2.pts, r.id < c := fun e he => by
  have key : ∀ i ∈ e.1 :: e.2.id :: e.2.pts.map (·.id), i < c := fun i hi => h _ (by
    simp only [LMap.ids, List.mem_append, List.mem_flatMap]
    exact .inl (.inl (.inl (.inl (.inr ⟨e, he, hi⟩)))))
  exact ⟨key _ (by simp), fun r hr => key _ (by simp only [List.mem_cons, List.mem_map]; exact .inr (.inr ⟨r, hr, rfl⟩))⟩
theorem Below.polys : ∀ e ∈ m.polys, e.1 < c ∧ ∀ r ∈ e.2.pts, r.id < c := fun e he => by
  have key : ∀ i ∈ e.1 :: e.2.id :: e.2.pts.map (·.id), i < c := fun i hi => h _ (by
    simp only [LMap.ids, List.mem_append, List.mem_flatMap]
    exact .inl (.inl (.inl (.inr ⟨e, he, hi⟩))))
  exact ⟨key _ (by simp), fun r hr => key _ (by simp only [List.mem_cons, List.mem_map]; exact .inr (.inr ⟨r, hr, rfl⟩))⟩
theorem Below.lanelets : ∀ e ∈ m.lanelets, e.1 < c ∧ ∀ r ∈ e.2.left :: e.2.right :: (e.2.center.toList ++ e.2.regs), r.id < c :=
  fun e he => by
    have key : ∀ i ∈ e.1 :: e.2.id :: e.2.left.id :: e.2.right.id :: (e.2.center.toList ++ e.2.regs).map (·.id), i < c := fun i hi => h _ (by
      simp only [LMap.ids, List.mem_append, List.mem_flatMap]
      exact .inl (.inl (.inr ⟨e, he, hi⟩)))
    refine ⟨key _ (by simp), fun r hr => key _ ?_⟩
    have : r.id ∈ (e.2.left :: e.2.right :: (e.2.center.toList ++ e.2.regs)).map (·.id) := List.mem_map.mpr ⟨r, hr, rfl⟩
    rw [List.map_cons, List.map_cons] at this
    exact List.mem_cons_of_mem _ (List.mem_cons_of_mem _ this)
theorem Below.areas : ∀ e ∈ m.areas, e.1 < c ∧ ∀ r ∈ e.2.outer ++ e.2.inner.flatten ++ e.2.regs, r.id < c := fun e he => by
  have key : ∀ i ∈ e.1 :: e.2.id :: (e.2.outer ++ e.2.inner.flatten ++ e.2.regs).map (·.id), i < c := fun i hi => h _ (by
    simp only [LMap.ids, List.mem_append, List.mem_flatMap]
    exact .inl (.inr ⟨e, he, by simpa using hi⟩))
  exact ⟨key _ (by simp), fun r hr => key _ (List.mem_cons_of_mem _ (List.mem_cons_of_mem _ (List.mem_map.mpr ⟨r, hr, rfl⟩)))⟩
theorem Below.regs : ∀ e ∈ m.regs, e.1 < c ∧ ∀ p ∈ paramsOf e.2, ∀ i ∈ p.ids, i < c := fun e he => by
  have key : ∀ i ∈ e.1 :: e.2.id :: (paramsOf e.2).flatMap Param.ids, i < c := fun i hi => h _ (by
    simp only [LMap.ids, List.mem_append, List.mem_flatMap]
    exact .inr ⟨e, he, hi⟩)
  exact ⟨key _ (by simp), fun p hp i hi => key _ (List.mem_cons_of_mem _ (List.mem_cons_of_mem _ (List.mem_flatMap.mpr ⟨p, hp, hi⟩)))⟩

end below

/-- Only the elements are written, not the ids under which the layers have them. -/
theorem writeMap_values (reverse : P → Option (D × D × D)) (front : Nat → Nat → Bool) {m m' : LMap P}
    (h1 : m.points.map (·.2) = m'.points.map (·.2)) (h2 : m.lines.map (·.2) = m'.lines.map (·.2))
    (h3 : m.polys.map (·.2) = m'.polys.map (·.2)) (h4 : m.lanelets.map (·.2) = m'.lanelets.map (·.2))
    (h5 : m.areas.map (·.2) = m'.areas.map (·.2)) (h6 : m.regs.map (·.2) = m'.regs.map (·.2)) :
    writeMap reverse front m = writeMap reverse front m' := by
  have fold : ∀ {V S : Type} (l l' : AMap Int V) (f : S → V → S) (s : S), l.map (·.2) = l'.map (·.2) →
      l.foldl (fun s e => f s e.2) s = l'.foldl (fun s e => f s e.2) s := by
    intro V S l l' f s h
    rw [← List.foldl_map (f := fun e : Int × V => e.2) (g := f), ← List.foldl_map (f := fun e : Int × V => e.2) (g := f), h]
  have e1 : writeNodes reverse m = writeNodes reverse m' := fold _ _ _ _ h1
  have e2 : ∀ nodes : AMap Int (Node D), writeWays nodes m = writeWays nodes m' := by
    intro nodes
    unfold writeWays
    rw [fold m.lines m'.lines (writeLine nodes) _ h2, fold m.polys m'.polys (writePoly nodes) _ h3]
  have e3 : ∀ (nodes : AMap Int (Node D)) ways, appendAll nodes ways m = appendAll nodes ways m' := by
    intro nodes ways
    unfold appendAll
    simp only []
    rw [fold m.regs m'.regs (appendReg nodes ways) _ h6, fold m.lanelets m'.lanelets (appendLanelet ways) _ h4,
      fold m.areas m'.areas (appendArea ways) _ h5]
  unfold writeMap
  simp only [e1, e2, e3]

section renumber
variable {c : Int} {R : Kind → Int → Int} {m : LMap P} (hR : InjBelow c R) (hb : Below c m)

include hR hb in
theorem renumber_ok (h : MapOk m) : MapOk (renumber R m) := by
  have layer : ∀ {V : Type} {l : AMap Int V} {idf : V → Int} (k : Kind) (g : V → V), (∀ v, idf (g v) = R k (idf v)) → (∀ e ∈ l, e.1 < c) →
      Layer idf l → Layer idf (l.map fun e => (R k e.1, g e.2)) := by
    intro V l idf k g hg hl h
    refine ⟨nodup_ren (hR k k) g hl h.nodup, fun e he => ?_⟩
    obtain ⟨x, hx, rfl⟩ := List.mem_map.mp he
    simp only [hg, h.key x hx]
  have attrs : ∀ {V : Type} {l : AMap Int V} {a : V → Attrs} (f : Int → Int) (g : V → V), (∀ v, a (g v) = a v) → (∀ e ∈ l, (a e.2).Ok) →
      ∀ e ∈ l.map fun e => (f e.1, g e.2), (a e.2).Ok := by
    intro V l a f g hg h e he
    obtain ⟨x, hx, rfl⟩ := List.mem_map.mp he
    simp only [hg]; exact h x hx
  exact ⟨layer .point _ (fun _ => rfl) hb.points h.points, layer .line _ (fun _ => rfl) (fun e he => (hb.lines e he).1) h.lines,
    layer .poly _ (fun _ => rfl) (fun e he => (hb.polys e he).1) h.polys,
    layer .lanelet _ (fun _ => rfl) (fun e he => (hb.lanelets e he).1) h.lanelets,
    layer .area _ (fun _ => rfl) (fun e he => (hb.areas e he).1) h.areas, layer .reg _ (fun _ => rfl) (fun e he => (hb.regs e he).1) h.regs,
    attrs (a := MPoint.attrs) _ _ (fun _ => rfl) h.pointAttrs, attrs (a := MLine.attrs) _ _ (fun _ => rfl) h.lineAttrs,
    attrs (a := MPoly.attrs) _ _ (fun _ => rfl) h.polyAttrs, attrs (a := MLanelet.attrs) _ _ (fun _ => rfl) h.laneletAttrs,
    attrs (a := MArea.attrs) _ _ (fun _ => rfl) h.areaAttrs, attrs (a := MReg.attrs) _ _ (fun _ => rfl) h.regAttrs⟩

theorem renRef_plain {r : Ref} (h : r.dummy = false) (f : Int → Int) : renRef f r = { r with id := f r.id } := by
  simp [renRef, h]

theorem renRef_inv (f : Int → Int) (r : Ref) : (renRef f r).inv = r.inv := by
  unfold renRef; split <;> rfl

theorem renRef_dummy (f : Int → Int) (r : Ref) : (renRef f r).dummy = r.dummy := by
  unfold renRef; split <;> rfl

theorem paramsOf_ren (g : MReg) : paramsOf (renReg R g) = (paramsOf g).map (renParam R) := by
  unfold paramsOf renReg
  simp only [List.flatMap_map, List.map_flatMap]

include hR hb in
theorem renumber_inLayer {V W : Type} {l : AMap Int V} (k : Kind) (g : V → W) (hl : ∀ e ∈ l, e.1 < c) {r : Ref}
    (h : InLayer l r) : InLayer (l.map fun e => (R k e.1, g e.2)) (renRef (R k) r) := by
  obtain ⟨h1, h2⟩ := h
  rw [renRef_plain h1]
  refine ⟨h1, ?_⟩
  obtain ⟨v, hv⟩ := has_get.mp h2
  exact (has_ren (hR k k) g hl (hl _ (AMap.mem_of_get hv))).trans h2

include hR hb in
theorem renumber_selfContained (ok : MapOk m) (h : SelfContained m) : SelfContained (renumber R m) := by
  have get : ∀ {V : Type} {l : AMap Int V}, (l.map (·.1)).Nodup → ∀ e ∈ l, l.get e.1 = some e.2 := fun hn e he => AMap.get_of_mem hn he
  have pt : ∀ {r}, InLayer m.points r → InLayer (renumber R m).points (renRef (R .point) r) := fun h =>
    renumber_inLayer hR hb .point _ hb.points h
  have ln : ∀ {r}, InLayer m.lines r → InLayer (renumber R m).lines (renRef (R .line) r) := fun h =>
    renumber_inLayer hR hb .line _ (fun e he => (hb.lines e he).1) h
  have pg : ∀ {r}, InLayer m.polys r → InLayer (renumber R m).polys (renRef (R .poly) r) := fun h =>
    renumber_inLayer hR hb .poly _ (fun e he => (hb.polys e he).1) h
  have ll : ∀ {r}, InLayer m.lanelets r → InLayer (renumber R m).lanelets (renRef (R .lanelet) r) := fun h =>
    renumber_inLayer hR hb .lanelet _ (fun e he => (hb.lanelets e he).1) h
  have ar : ∀ {r}, InLayer m.areas r → InLayer (renumber R m).areas (renRef (R .area) r) := fun h =>
    renumber_inLayer hR hb .area _ (fun e he => (hb.areas e he).1) h
  have rg : ∀ {r}, InLayer m.regs r → InLayer (renumber R m).regs (renRef (R .reg) r) := fun h =>
    renumber_inLayer hR hb .reg _ (fun e he => (hb.regs e he).1) h
  refine ⟨?_, ?_, ?_, ?_, ?_⟩
  · intro i l hl r hr
    obtain ⟨e, he, -, rfl⟩ := get_ren_some _ hl
    obtain ⟨x, hx, rfl⟩ := List.mem_map.mp hr
    exact pt (h.lines _ _ (get ok.lines.nodup e he) x hx)
  · intro i l hl r hr
    obtain ⟨e, he, -, rfl⟩ := get_ren_some _ hl
    obtain ⟨x, hx, rfl⟩ := List.mem_map.mp hr
    exact pt (h.polys _ _ (get ok.polys.nodup e he) x hx)
  · intro i l hl
    obtain ⟨e, he, -, rfl⟩ := get_ren_some _ hl
    have h1 := h.lanelets _ _ (get ok.lanelets.nodup e he)
    refine ⟨fun r hr => ?_, fun r hr => ?_⟩
    · have : r ∈ (e.2.left :: e.2.right :: e.2.center.toList).map (renRef (R .line)) := by
        simpa [renLanelet] using hr
      obtain ⟨x, hx, rfl⟩ := List.mem_map.mp this
      exact ln (h1.1 x hx)
    · obtain ⟨x, hx, rfl⟩ := List.mem_map.mp hr
      exact rg (h1.2 x hx)
  · intro i l hl
    obtain ⟨e, he, -, rfl⟩ := get_ren_some _ hl
    have h1 := h.areas _ _ (get ok.areas.nodup e he)
    refine ⟨fun r hr => ?_, fun r hr => ?_⟩
    · have : r ∈ (e.2.outer ++ e.2.inner.flatten).map (renRef (R .line)) := by
        simpa [renArea, List.map_flatten] using hr
      obtain ⟨x, hx, rfl⟩ := List.mem_map.mp this
      exact ln (h1.1 x hx)
    · obtain ⟨x, hx, rfl⟩ := List.mem_map.mp hr
      exact rg (h1.2 x hx)
  · intro i l hl p hp
    obtain ⟨e, he, -, rfl⟩ := get_ren_some _ hl
    rw [paramsOf_ren] at hp
    obtain ⟨x, hx, rfl⟩ := List.mem_map.mp hp
    have h1 := h.regs _ _ (get ok.regs.nodup e he) x hx
    cases x with
    | point r => exact pt h1
    | line r => exact ln h1
    | poly r => exact pg h1
    | lanelet r => exact ll h1
    | area r => exact ar h1
    | expired => exact h1

include hR hb in
theorem renumber_distinct (ok : MapOk m) (hs : SelfContained m) (h : Distinct m) : Distinct (renumber R m) := by
  have get : ∀ {V : Type} {l : AMap Int V}, (l.map (·.1)).Nodup → ∀ e ∈ l, l.get e.1 = some e.2 := fun hn e he => AMap.get_of_mem hn he
  -- an element of another layer with the same new id has the same old id
  have far : ∀ {V W : Type} {l : AMap Int V} (k k' : Kind) (g : V → W) {i : Int}, (∀ e ∈ l, e.1 < c) → i < c → l.has i = false →
      AMap.has (l.map fun e => (R k e.1, g e.2)) (R k' i) = false := by
    intro V W l k k' g i hl hi hn
    by_contra hh
    obtain ⟨e, he, h1⟩ := has_ren_some g (by simpa using hh)
    have := hR k' k i e.1 hi (hl e he) h1
    rw [this] at hn
    have hm : l.has e.1 = true := (AMap.has_iff_mem _ _).mpr (List.mem_map.mpr ⟨e, he, rfl⟩)
    rw [hm] at hn; cases hn
  have hin : ∀ {V : Type} {l : AMap Int V}, ∀ e ∈ l, l.has e.1 = true := fun e he =>
    (AMap.has_iff_mem _ _).mpr (List.mem_map.mpr ⟨e, he, rfl⟩)
  have bl := fun e he => (hb.lines e he).1
  have bp := fun e he => (hb.polys e he).1
  have bll := fun e he => (hb.lanelets e he).1
  have ba := fun e he => (hb.areas e he).1
  have br := fun e he => (hb.regs e he).1
  have id_of : ∀ {V : Type} {l : AMap Int V} {r : Ref} (f : Int → Int), InLayer l r → (renRef f r).id = f r.id := fun f hr => by
    rw [renRef_plain hr.1]
  refine ⟨?_, ?_, ?_, ?_, ?_, ?_, ?_, ?_, ?_, ?_, ?_⟩
  · intro i hi
    obtain ⟨e, he, rfl⟩ := has_ren_some _ hi
    exact far .poly .line _ bp (bl e he) (h.lines _ (hin e he))
  · intro i hi
    obtain ⟨e, he, rfl⟩ := has_ren_some _ hi
    exact ⟨far .lanelet .reg _ bll (br e he) (h.regs _ (hin e he)).1, far .area .reg _ ba (br e he) (h.regs _ (hin e he)).2⟩
  · intro i hi
    obtain ⟨e, he, rfl⟩ := has_ren_some _ hi
    exact far .area .lanelet _ ba (bll e he) (h.lanelets _ (hin e he))
  · intro e' he' r hr
    obtain ⟨e, he, rfl⟩ := List.mem_map.mp he'
    have : r ∈ (e.2.left :: e.2.right :: e.2.center.toList).map (renRef (R .line)) := by
      simpa [renLanelet] using hr
    obtain ⟨x, hx, rfl⟩ := List.mem_map.mp this
    rw [id_of _ ((hs.lanelets _ _ (get ok.lanelets.nodup e he)).1 x hx)]
    refine far .poly .line _ bp ((hb.lanelets e he).2 x ?_) (h.bounds e he x hx)
    simp only [List.mem_cons, List.mem_append] at hx ⊢; tauto
  · intro e' he' r hr
    obtain ⟨e, he, rfl⟩ := List.mem_map.mp he'
    have : r ∈ (e.2.outer ++ e.2.inner.flatten).map (renRef (R .line)) := by
      simpa [renArea, List.map_flatten] using hr
    obtain ⟨x, hx, rfl⟩ := List.mem_map.mp this
    rw [id_of _ ((hs.areas _ _ (get ok.areas.nodup e he)).1 x hx)]
    exact far .poly .line _ bp ((hb.areas e he).2 x (List.mem_append_left _ hx)) (h.areaBounds e he x hx)
  · intro e' he' r hr
    obtain ⟨e, he, rfl⟩ := List.mem_map.mp he'
    obtain ⟨x, hx, rfl⟩ := List.mem_map.mp hr
    rw [id_of _ ((hs.lanelets _ _ (get ok.lanelets.nodup e he)).2 x hx)]
    have hlt := (hb.lanelets e he).2 x (by simp only [List.mem_cons, List.mem_append]; tauto)
    exact ⟨far .lanelet .reg _ bll hlt (h.laneletRegs e he x hx).1, far .area .reg _ ba hlt (h.laneletRegs e he x hx).2⟩
  · intro e' he' r hr
    obtain ⟨e, he, rfl⟩ := List.mem_map.mp he'
    obtain ⟨x, hx, rfl⟩ := List.mem_map.mp hr
    rw [id_of _ ((hs.areas _ _ (get ok.areas.nodup e he)).2 x hx)]
    have hlt := (hb.areas e he).2 x (by simp only [List.mem_append]; tauto)
    exact ⟨far .lanelet .reg _ bll hlt (h.areaRegs e he x hx).1, far .area .reg _ ba hlt (h.areaRegs e he x hx).2⟩
  all_goals
    intro e' he' r hr
    obtain ⟨e, he, rfl⟩ := List.mem_map.mp he'
    rw [paramsOf_ren] at hr
    obtain ⟨x, hx, h2⟩ := List.mem_map.mp hr
    have h1 := hs.regs _ _ (get ok.regs.nodup e he) x hx
    have hlt := (hb.regs e he).2 x hx
    cases x <;> simp only [renParam, reduceCtorEq, Param.line.injEq, Param.poly.injEq, Param.lanelet.injEq, Param.area.injEq] at h2
    subst h2
    rw [id_of _ h1]
    have hlt := hlt _ (List.mem_singleton_self _)
  · exact far .poly .line _ bp hlt (h.lineParams e he _ hx)
  · exact far .line .poly _ bl hlt (h.polyParams e he _ hx)
  · exact ⟨far .reg .lanelet _ br hlt (h.laneletParams e he _ hx).1, far .area .lanelet _ ba hlt (h.laneletParams e he _ hx).2⟩
  · exact ⟨far .reg .area _ br hlt (h.areaParams e he _ hx).1, far .lanelet .area _ bll hlt (h.areaParams e he _ hx).2⟩

theorem renumber_noEle (ok : MapOk m) (h : NoEle m) : NoEle (renumber R m) := by
  have get : ∀ {V : Type} {l : AMap Int V}, (l.map (·.1)).Nodup → ∀ e ∈ l, l.get e.1 = some e.2 := fun hn e he => AMap.get_of_mem hn he
  refine ⟨?_, ?_, ?_, ?_, ?_, ?_⟩ <;> intro i v hv <;> obtain ⟨e, he, -, rfl⟩ := get_ren_some _ hv
  · have := h.points _ _ (get ok.points.nodup e he); exact this
  · have := h.lines _ _ (get ok.lines.nodup e he); exact this
  · have := h.polys _ _ (get ok.polys.nodup e he); exact this
  · have := h.lanelets _ _ (get ok.lanelets.nodup e he); exact this
  · have := h.areas _ _ (get ok.areas.nodup e he); exact this
  · have := h.regs _ _ (get ok.regs.nodup e he); exact this

/-- Helper of the proofs: a linestring whose points have other ids. -/
def renL (f g : Int → Int) (l : Line) : Line := ⟨f l.id, l.pts.map g, l.inv⟩

section rings
variable {f g : Int → Int}

theorem renL_view (l : Line) : (renL f g l).view = l.view.map g := by
  unfold renL Line.view
  split <;> simp [List.map_reverse]

theorem renL_front (l : Line) : (renL f g l).front = l.front.map g := by
  unfold Line.front; rw [renL_view, List.head?_map]

theorem renL_back (l : Line) : (renL f g l).back = l.back.map g := by
  unfold Line.back; rw [renL_view, List.getLast?_map]

theorem isRing_ren {r : List Line} (h : IsRing r) : IsRing (r.map (renL f g)) := by
  obtain ⟨h1, a, b, p, h2, h3, h4, h5⟩ := h
  refine ⟨?_, renL f g a, renL f g b, g p, by rw [List.head?_map, h2]; rfl, by rw [List.getLast?_map, h3]; rfl,
    by rw [renL_front, h4]; rfl, by rw [renL_back, h5]; rfl⟩
  unfold Connected at h1 ⊢
  rw [List.isChain_map]
  refine h1.imp fun a b hab => ?_
  obtain ⟨p, h1, h2⟩ := hab
  exact ⟨g p, by rw [renL_back, h1]; rfl, by rw [renL_front, h2]; rfl⟩

theorem front_mem {l : Line} {p : Int} (h : l.front = some p) : p ∈ l.pts := by
  have := List.mem_of_head? (l := l.view) h
  unfold Line.view at this
  split at this
  · simpa using this
  · exact this

theorem simpleRings_ren {rings : List (List Line)} {S : Int → Prop} (hg : ∀ i j, S i → S j → g i = g j → i = j)
    (hS : ∀ r ∈ rings, ∀ l ∈ r, ∀ i ∈ l.pts, S i) (h : SimpleRings rings) : SimpleRings (rings.map fun r => r.map (renL f g)) := by
  refine ⟨?_, ?_, ?_⟩
  · intro r hr
    obtain ⟨x, hx, rfl⟩ := List.mem_map.mp hr
    exact isRing_ren (h.ring x hx)
  · intro r hr l hl
    obtain ⟨x, hx, rfl⟩ := List.mem_map.mp hr
    obtain ⟨y, hy, rfl⟩ := List.mem_map.mp hl
    have := h.points x hx y hy
    simpa [renL] using this
  · have hd := h.distinct
    have hfl : (rings.map fun r => r.map (renL f g)).flatten = rings.flatten.map (renL f g) := by rw [List.map_flatten]
    rw [hfl, List.map_map]
    have hS' : ∀ l ∈ rings.flatten, ∀ i ∈ l.pts, S i := by
      intro l hl i hi
      obtain ⟨r, hr, hl⟩ := List.mem_flatten.mp hl
      exact hS r hr l hl i hi
    generalize rings.flatten = ls at hd hS'
    induction ls with
    | nil => exact List.nodup_nil
    | cons l ls ih =>
      rw [List.map_cons, List.nodup_cons] at hd ⊢
      refine ⟨fun hm => hd.1 ?_, ih hd.2 fun l hl => hS' l (List.mem_cons_of_mem _ hl)⟩
      obtain ⟨x, hx, h1⟩ := List.mem_map.mp hm
      simp only [Function.comp, renL_front] at h1
      refine List.mem_map.mpr ⟨x, hx, ?_⟩
      cases hxf : x.front with
      | none =>
        rw [hxf] at h1
        cases hlf : l.front with
        | none => rfl
        | some p => rw [hlf] at h1; cases h1
      | some q =>
        cases hlf : l.front with
        | none => rw [hxf, hlf] at h1; cases h1
        | some p =>
          rw [hxf, hlf] at h1
          simp only [Option.map_some, Option.some.injEq] at h1
          rw [hg q p (hS' x (List.mem_cons_of_mem _ hx) q (front_mem hxf)) (hS' l (by simp) p (front_mem hlf)) h1]

theorem startsInverted_ren (r : List Line) : startsInverted (r.map (renL f g)) = startsInverted r := by
  unfold startsInverted
  rw [List.head?_map]
  cases r.head? <;> rfl

theorem normalRing_ren (r : List Line) : normalRing (r.map (renL f g)) = (normalRing r).map (renL f g) := by
  unfold normalRing
  rw [startsInverted_ren]
  split <;> simp [List.map_take, List.map_tail]

theorem reverseRing_ren (r : List Line) : reverseRing (r.map (renL f g)) = (reverseRing r).map (renL f g) := by
  unfold reverseRing
  simp only [List.map_map, List.map_reverse]
  rfl

theorem normalRing_mem {r : List Line} {l : Line} (h : l ∈ normalRing r) : l ∈ r := by
  unfold normalRing at h
  split at h
  · rcases List.mem_append.mp h with h | h
    · exact List.mem_of_mem_tail h
    · exact List.mem_of_mem_take h
  · exact h

theorem reverseRing_mem {r : List Line} {l : Line} (h : l ∈ reverseRing r) : ∃ l' ∈ r, l.pts = l'.pts := by
  unfold reverseRing at h
  rw [List.mem_reverse] at h
  obtain ⟨x, hx, rfl⟩ := List.mem_map.mp h
  exact ⟨x, hx, rfl⟩

theorem ringValid_ren {env : Env P D} {points points' : AMap Int (MPoint P)} {r : List Line}
    (h : ∀ l ∈ r, ∀ i ∈ l.pts, posOf env points' (g i) = posOf env points i) :
    ringValid env points' (r.map (renL f g)) = ringValid env points r := by
  unfold ringValid
  congr 1
  rw [List.flatMap_map]
  induction r with
  | nil => rfl
  | cons l r ih =>
    rw [List.flatMap_cons, List.flatMap_cons, ih fun l hl => h l (List.mem_cons_of_mem _ hl)]
    congr 1
    rw [renL_view, List.map_map]
    apply List.map_congr_left
    intro i hi
    refine h l (by simp) i ?_
    unfold Line.view at hi
    split at hi
    · simpa using hi
    · exact hi

theorem orientedRing_ren {env : Env P D} {points points' : AMap Int (MPoint P)} {r : List Line}
    (h : ∀ l ∈ r, ∀ i ∈ l.pts, posOf env points' (g i) = posOf env points i) (ho : OrientedRing (ringValid env points) r) :
    OrientedRing (ringValid env points') (r.map (renL f g)) := by
  unfold OrientedRing at ho ⊢
  rw [startsInverted_ren, normalRing_ren, reverseRing_ren, ringValid_ren fun l hl => h l (normalRing_mem hl),
    ringValid_ren fun l hl i hi => by
      obtain ⟨x, hx, e⟩ := reverseRing_mem hl
      rw [e] at hi
      exact h x (normalRing_mem hx) i hi]
  exact ho

end rings

include hR hb in
theorem renumber_representable {env : Env P D} {reverse : P → Option (D × D × D)} {rt : P → P} (ok : MapOk m) (hs : SelfContained m)
    (hblind : IdBlind env) (h : Representable env reverse rt m) : Representable env reverse rt (renumber R m) := by
  have get : ∀ {V : Type} {l : AMap Int V}, (l.map (·.1)).Nodup → ∀ e ∈ l, l.get e.1 = some e.2 := fun hn e he => AMap.get_of_mem hn he
  have bl := fun e he => (hb.lines e he).1
  -- positions
  have pos : ∀ i : Int, i < c → posOf env (moved rt (renumber R m)).points (R .point i) = posOf env (moved rt m).points i := by
    intro i hi
    have e1 : (moved rt (renumber R m)).points = (moved rt m).points.map fun e => (R .point e.1, renPoint R e.2) := by
      simp [moved, renumber, renPoint]
    have hl : ∀ e ∈ (moved rt m).points, e.1 < c := by
      intro e he
      obtain ⟨x, hx, rfl⟩ := List.mem_map.mp he
      exact hb.points x hx
    unfold posOf
    rw [e1, get_ren (hR .point .point) _ hl hi]
    cases (moved rt m).points.get i <;> rfl
  have ptlt : ∀ {i : Int} {l : MLine}, m.lines.get i = some l → ∀ r ∈ l.pts, r.id < c := fun hl => (hb.lines _ (AMap.mem_of_get hl)).2
  have ids : ∀ {i : Int} {l : MLine}, m.lines.get i = some l → (renLine R l).pts.map (·.id) = (l.pts.map (·.id)).map (R .point) := by
    intro i l hl
    simp only [renLine, List.map_map]
    apply List.map_congr_left
    intro r hr
    simp only [Function.comp, renRef_plain (hs.lines _ _ hl r hr).1]
  have lpos : ∀ i : Int, i < c → linePositions env (moved rt (renumber R m)) (R .line i) = linePositions env (moved rt m) i := by
    intro i hi
    unfold linePositions
    have e1 : (moved rt (renumber R m)).lines = m.lines.map fun e => (R .line e.1, renLine R e.2) := rfl
    have e2 : (moved rt m).lines = m.lines := rfl
    rw [e1, e2, get_ren (hR .line .line) _ bl hi]
    cases hl : m.lines.get i with
    | none => rfl
    | some l =>
      simp only [Option.map_some, Option.getD_some]
      have hx := ids hl
      have : (renLine R l).pts.map (fun p => posOf env (moved rt (renumber R m)).points p.id) =
          ((renLine R l).pts.map (·.id)).map (posOf env (moved rt (renumber R m)).points) := by rw [List.map_map]; rfl
      rw [this, hx, List.map_map, List.map_map]
      apply List.map_congr_left
      intro r hr
      exact pos r.id (ptlt hl r hr)
  have rline : ∀ r : Ref, InLayer m.lines r → refLine (renumber R m).lines (renRef (R .line) r) = renL (R .line) (R .point) (refLine m.lines r) := by
    intro r hr
    obtain ⟨l, hl⟩ := has_get.mp hr.2
    have hi : r.id < c := bl _ (AMap.mem_of_get hl)
    unfold refLine renL
    rw [renRef_plain hr.1]
    have e1 : (renumber R m).lines = m.lines.map fun e => (R .line e.1, renLine R e.2) := rfl
    simp only [e1, get_ren (hR .line .line) _ bl hi, hl, Option.map_some, Option.getD_some, ids hl]
  have rpts : ∀ r : Ref, ∀ i ∈ (refLine m.lines r).pts, i < c := by
    intro r i hi
    unfold refLine at hi
    cases hl : m.lines.get r.id with
    | none => simp [hl] at hi
    | some l =>
      simp only [hl, Option.map_some, Option.getD_some] at hi
      obtain ⟨x, hx, rfl⟩ := List.mem_map.mp hi
      exact ptlt hl x hx
  have rring : ∀ rs : List Ref, (∀ r ∈ rs, InLayer m.lines r) →
      (rs.map (renRef (R .line))).map (refLine (renumber R m).lines) = (rs.map (refLine m.lines)).map (renL (R .line) (R .point)) := by
    intro rs hrs
    rw [List.map_map, List.map_map]
    apply List.map_congr_left
    intro r hr
    exact rline r (hrs r hr)
  have simple : ∀ rings : List (List Ref), (∀ rs ∈ rings, ∀ r ∈ rs, InLayer m.lines r) →
      SimpleRings (rings.map fun r => r.map (refLine m.lines)) →
      SimpleRings ((rings.map fun r => r.map (renRef (R .line))).map fun r => r.map (refLine (renumber R m).lines)) := by
    intro rings hin hsim
    have := simpleRings_ren (f := R .line) (g := R .point) (S := (· < c)) (hR .point .point) (by
      intro r hr l hl i hi
      obtain ⟨x, -, rfl⟩ := List.mem_map.mp hr
      obtain ⟨y, -, rfl⟩ := List.mem_map.mp hl
      exact rpts y i hi) hsim
    rw [List.map_map] at this ⊢
    convert this using 1
    apply List.map_congr_left
    intro rs hrs
    exact rring rs (hin rs hrs)
  have orient : ∀ rs : List Ref, (∀ r ∈ rs, InLayer m.lines r) → OrientedRing (ringValid env (moved rt m).points) (rs.map (refLine m.lines)) →
      OrientedRing (ringValid env (moved rt (renumber R m)).points) ((rs.map (renRef (R .line))).map (refLine (renumber R m).lines)) := by
    intro rs hin ho
    rw [rring rs hin]
    refine orientedRing_ren (fun l hl i hi => pos i ?_) ho
    obtain ⟨y, -, rfl⟩ := List.mem_map.mp hl
    exact rpts y i hi
  constructor
  · intro i p hp
    obtain ⟨e, he, -, rfl⟩ := get_ren_some _ hp
    have := h.project _ _ (get ok.points.nodup e he)
    exact this
  · intro i l hl
    obtain ⟨e, he, -, rfl⟩ := get_ren_some _ hl
    have h1 := h.linePts _ _ (get ok.lines.nodup e he)
    refine ⟨by simpa [renLine] using h1.1, fun r hr => ?_⟩
    obtain ⟨x, hx, rfl⟩ := List.mem_map.mp hr
    rw [renRef_inv]; exact h1.2 x hx
  · intro i l hl
    obtain ⟨e, he, -, rfl⟩ := get_ren_some _ hl
    have h1 := h.polyPts _ _ (get ok.polys.nodup e he)
    refine ⟨by simpa [renPoly] using h1.1, fun r hr => ?_⟩
    obtain ⟨x, hx, rfl⟩ := List.mem_map.mp hr
    rw [renRef_inv]; exact h1.2 x hx
  · intro i l hl
    obtain ⟨e, he, -, rfl⟩ := get_ren_some _ hl
    have := h.lineArea _ _ (get ok.lines.nodup e he)
    exact this
  · intro i l hl
    obtain ⟨e, he, -, rfl⟩ := get_ren_some _ hl
    have := h.polyArea _ _ (get ok.polys.nodup e he)
    exact this
  · intro i l hl
    obtain ⟨e, he, -, rfl⟩ := get_ren_some _ hl
    have := h.laneletType _ _ (get ok.lanelets.nodup e he)
    exact this
  · intro i l hl
    obtain ⟨e, he, -, rfl⟩ := get_ren_some _ hl
    have := h.areaType _ _ (get ok.areas.nodup e he)
    exact this
  · intro i l hl
    obtain ⟨e, he, -, rfl⟩ := get_ren_some _ hl
    have := h.regType _ _ (get ok.regs.nodup e he)
    exact this
  · intro i l hl
    obtain ⟨e, he, -, rfl⟩ := get_ren_some _ hl
    have h1 := h.bounds _ _ (get ok.lanelets.nodup e he)
    have h2 := (hs.lanelets _ _ (get ok.lanelets.nodup e he)).1
    have hl := h2 e.2.left (by simp)
    have hr := h2 e.2.right (by simp)
    simp only [renLanelet, renRef_plain hl.1, renRef_plain hr.1]
    rw [lpos _ ((hb.lanelets e he).2 _ (by simp)), lpos _ ((hb.lanelets e he).2 _ (by simp))]
    exact h1
  · intro i l hl r hr
    obtain ⟨e, he, -, rfl⟩ := get_ren_some _ hl
    have h1 := h.laneletRefs _ _ (get ok.lanelets.nodup e he)
    rcases List.mem_append.mp hr with hr | hr
    · have : r ∈ e.2.center.toList.map (renRef (R .line)) := by simpa [renLanelet] using hr
      obtain ⟨x, hx, rfl⟩ := List.mem_map.mp this
      rw [renRef_inv]; exact h1 x (List.mem_append_left _ hx)
    · obtain ⟨x, hx, rfl⟩ := List.mem_map.mp hr
      rw [renRef_inv]; exact h1 x (List.mem_append_right _ hx)
  · intro i a ha
    obtain ⟨e, he, -, rfl⟩ := get_ren_some _ ha
    have h1 := h.outer _ _ (get ok.areas.nodup e he)
    have h2 := (hs.areas _ _ (get ok.areas.nodup e he)).1
    have hin : ∀ r ∈ e.2.outer, InLayer m.lines r := fun r hr => h2 r (List.mem_append_left _ hr)
    exact ⟨simple [e.2.outer] (by simpa using hin) h1.1, orient _ hin h1.2⟩
  · intro i a ha
    obtain ⟨e, he, -, rfl⟩ := get_ren_some _ ha
    have h1 := h.inner _ _ (get ok.areas.nodup e he)
    have h2 := (hs.areas _ _ (get ok.areas.nodup e he)).1
    have hin : ∀ rs ∈ e.2.inner, ∀ r ∈ rs, InLayer m.lines r := fun rs hrs r hr =>
      h2 r (List.mem_append_right _ (List.mem_flatten.mpr ⟨rs, hrs, hr⟩))
    refine ⟨simple e.2.inner hin h1.1, fun rs hrs => ?_⟩
    obtain ⟨x, hx, rfl⟩ := List.mem_map.mp hrs
    exact orient x (hin x hx) (h1.2 x hx)
  · intro i a ha r hr
    obtain ⟨e, he, -, rfl⟩ := get_ren_some _ ha
    obtain ⟨x, hx, rfl⟩ := List.mem_map.mp hr
    rw [renRef_inv]; exact h.areaRefs _ _ (get ok.areas.nodup e he) x hx
  · intro i g hg
    obtain ⟨e, he, -, rfl⟩ := get_ren_some _ hg
    obtain ⟨s, h1, h2, h3⟩ := h.registry _ _ (get ok.regs.nodup e he)
    exact ⟨s, h1, h2, hblind R s _ h3⟩
  · intro i g hg
    obtain ⟨e, he, -, rfl⟩ := get_ren_some _ hg
    obtain ⟨h1, h2, h3⟩ := h.params _ _ (get ok.regs.nodup e he)
    refine ⟨?_, ?_, ?_⟩
    · simpa [renReg, List.map_map, Function.comp_def] using h1
    · intro x hx
      obtain ⟨y, hy, rfl⟩ := List.mem_map.mp hx
      simpa using h2 y hy
    · intro p hp
      rw [paramsOf_ren] at hp
      obtain ⟨x, hx, rfl⟩ := List.mem_map.mp hp
      have := h3 x hx
      cases x <;> simp only [renParam, Param.plain, renRef_inv] at this ⊢ <;> exact this

end renumber

theorem keys_ids {m : LMap P} {k : Kind} {i : Int} (h : i ∈ keys m k) : i ∈ m.ids := by
  unfold LMap.ids
  cases k <;> obtain ⟨e, he, rfl⟩ := List.mem_map.mp h <;> simp only [List.mem_append, List.mem_flatMap]
  · exact .inl (.inl (.inl (.inl (.inl ⟨e, he, by simp⟩))))
  · exact .inl (.inl (.inl (.inl (.inr ⟨e, he, by simp⟩))))
  · exact .inl (.inl (.inl (.inr ⟨e, he, by simp⟩)))
  · exact .inl (.inl (.inr ⟨e, he, by simp⟩))
  · exact .inl (.inr ⟨e, he, by simp⟩)
  · exact .inr ⟨e, he, by simp⟩

theorem positive_of_ok {m : LMap P} {c : Int} {R : Kind → Int → Int} (hc : 0 < c) (hb : Below c m) (h : RenOk m c R) : Positive m R := by
  refine ⟨fun k i _ h0 => h.keep k i (by omega), fun k i hi h0 => ⟨?_, fun hm => ?_⟩, fun k k' i hi j hj h0 e => ?_⟩
  · have := h.neg k i hi h0; omega
  · have h1 := h.neg k i hi h0
    exact absurd (hb _ hm) (Int.not_lt.mpr h1)
  · by_cases hj0 : j < 0
    · exact h.once k k' i j hi h0 hj hj0 e
    · have h1 := h.neg k i hi h0
      rw [e, h.keep k' j (by omega)] at h1
      exact absurd (hb _ (keys_ids hj)) (Int.not_lt.mpr h1)

/-- **C80.** After the script has changed the ids, writing the map succeeds, and loading the file gives the same map (positions, attributes,
who refers to what and in which direction), in which all elements with negative ids have new, positive and distinct ids that were not
used before, and all other elements their old ones. The counter of ids is above all ids in the map, as after loading it. -/
theorem script_written {env : Env P D} {reverse : P → Option (D × D × D)} {rt : P → P} (f : Numbers D) (front front' : Nat → Nat → Bool)
    (hblind : IdBlind env) {m : LMap P} {c : Int} (hc : 0 < c) (hb : ∀ i ∈ m.ids, i < c) (hok : MapOk m) (hd : Distinct m)
    (hs : SelfContained m) (he : NoEle m) (hr : Representable env (f.reverse reverse) rt m) :
    ∃ file doc r R, writeMap reverse front (script m c).1 = some (file, []) ∧ writeDoc f file = some doc ∧
      parse f.zero f.num front' env doc = some r ∧ r.readErrors = [] ∧ r.loadErrors = [] ∧
      Positive m R ∧ SameMap rt (renumber R m) r.map ∧ ∀ k, ∀ i ∈ keys r.map k, 0 ≤ i := by
  obtain ⟨hR, -⟩ := newIds_ok m c hc
  have hi := hR.inj
  have hpos := positive_of_ok hc hb hR
  obtain ⟨file, doc, r, h1, h2, h3, h4, h5, h6⟩ := text_round_trip f front front' (renumber_ok hi hb hok)
    (renumber_distinct hi hb hok hs hd) (renumber_selfContained hi hb hok hs) (renumber_noEle hok he)
    (renumber_representable hi hb hok hs hblind hr)
  refine ⟨file, doc, r, (newIds m c).1, ?_, h2, h3, h4, h5, hpos, h6, ?_⟩
  · rw [← h1]
    apply writeMap_values <;> simp [script, renumber]
  · have nonneg : ∀ k, ∀ i ∈ keys m k, 0 ≤ (newIds m c).1 k i := by
      intro k i hi
      by_cases h0 : i < 0
      · have := (hpos.positive k i hi h0).1; omega
      · rw [hpos.keep k i hi (by omega)]; omega
    have key : ∀ {V W : Type} {l : AMap Int V} {l' : AMap Int W} (k : Kind) (g : V → V) (g' : V → W), keys m k = l.map (·.1) →
        (∀ i, l'.get i = (AMap.get (l.map fun e => ((newIds m c).1 k e.1, g e.2)) i).map g') → ∀ i ∈ l'.map (·.1), 0 ≤ i := by
      intro V W l l' k g g' hk hget i hi
      obtain ⟨w, hw⟩ := has_get.mp ((AMap.has_iff_mem _ _).mpr hi)
      rw [hget] at hw
      obtain ⟨v, hv, -⟩ := Option.map_eq_some_iff.mp hw
      obtain ⟨e, he, rfl, -⟩ := get_ren_some _ hv
      exact nonneg k e.1 (by rw [hk]; exact List.mem_map.mpr ⟨e, he, rfl⟩)
    intro k i hi
    cases k
    · exact key .point _ _ rfl h6.points i hi
    · exact key .line _ _ rfl h6.lines i hi
    · exact key .poly _ _ rfl h6.polys i hi
    · exact key .lanelet _ _ rfl h6.lanelets i hi
    · exact key .area _ _ rfl h6.areas i hi
    · exact key .reg _ _ rfl h6.regs i hi

/-- **C80**, the whole script in a process whose counter of ids is `c` (1000, if nothing else happened): loading a document, changing the
ids and writing the map. -/
theorem make_ids_positive {env : Env P D} {reverse : P → Option (D × D × D)} {rt : P → P} (f : Numbers D)
    (front front' front'' : Nat → Nat → Bool) (hreg : RegistryOk env) (hblind : IdBlind env) (doc : Doc) {c : Int} (hc : 0 < c)
    {r : Parsed P} (hload : parse f.zero f.num front env doc = some r) (hok : MapOk r.map) (hd : Distinct r.map)
    (hs : SelfContained r.map) (he : NoEle r.map) (hr : Representable env (f.reverse reverse) rt r.map) :
    ∃ file doc' r' R, writeMap reverse front' (script r.map (counterAfter c r.registered)).1 = some (file, []) ∧
      writeDoc f file = some doc' ∧ parse f.zero f.num front'' env doc' = some r' ∧ r'.readErrors = [] ∧ r'.loadErrors = [] ∧
      Positive r.map R ∧ SameMap rt (renumber R r.map) r'.map ∧ ∀ k, ∀ i ∈ keys r'.map k, 0 ≤ i := by
  obtain ⟨r0, h1, h2, h3⟩ := counter_after_parse f.zero f.num front env hreg doc c
  rw [hload] at h1
  obtain rfl := Option.some.inj h1
  exact script_written f front' front'' hblind (Int.lt_of_lt_of_le hc h2) h3 hok hd hs he hr

/-- The layers of the map in memory still have the elements under their old ids: looking up a new id does not find the element. -/
theorem script_lookup (m : LMap P) (c : Int) (i : Int) :
    (script m c).1.points.get i = (m.points.get i).map (renPoint (newIds m c).1) := by
  simp only [script]
  induction m.points with
  | nil => rfl
  | cons e l ih =>
    rw [List.map_cons, AMap.get_cons, AMap.get_cons, ih]
    split <;> rfl

/-! ### Example -/

/-- Example: a map with negative ids only: a road with a lanelet, an area, a polygon and a regulatory element. -/
def negMap : LMap (Int × Int) := renumber (fun _ i => -i) tripMap

theorem negIds : InjBelow 1000 fun _ i => -i := by
  intro k k' i j _ _ h
  simp only [neg_inj] at h
  exact h

theorem tripBelow : Below 1000 tripMap := by
  unfold Below
  decide

theorem tripBlind : IdBlind tripEnv := by
  intro R name g h
  simp only [tripEnv] at h ⊢
  split at h
  · rename_i hn; rw [if_pos hn]
  · cases h

/-- Case for `script_written`: all elements of the map have negative ids; the first point gets the id 1000. -/
example : (newIds negMap 1000).1 .point (-1) = 1000 ∧ ∃ file doc r R,
    writeMap tripReverse (fun _ _ => true) (script negMap 1000).1 = some (file, []) ∧ writeDoc intNumbers file = some doc ∧
    parse 0 intNumbers.num (fun _ _ => false) tripEnv doc = some r ∧ r.readErrors = [] ∧ r.loadErrors = [] ∧
    Positive negMap R ∧ SameMap id (renumber R negMap) r.map ∧ ∀ k, ∀ i ∈ keys r.map k, 0 ≤ i := by
  refine ⟨by decide, ?_⟩
  have hrep : Representable tripEnv (intNumbers.reverse tripReverse) id tripMap := by rw [intNumbers_reverse]; exact tripMap_representable
  refine script_written intNumbers _ _ tripBlind (by decide) (by decide) (renumber_ok negIds tripBelow tripMap_ok)
    (renumber_distinct negIds tripBelow tripMap_ok tripMap_contained tripMap_distinct)
    (renumber_selfContained negIds tripBelow tripMap_ok tripMap_contained) (renumber_noEle tripMap_ok ?_)
    (renumber_representable negIds tripBelow tripMap_ok tripMap_contained tripBlind hrep)
  constructor <;> exact get_keys (by decide)

/-- Example: a file with two nodes and a way with negative ids. -/
def negFile : File Int :=
  ⟨[(-1, ⟨-1, [], 0, 0, 0⟩), (5, ⟨5, [], 3, 2, 0⟩)], [(-1, ⟨-1, [("type", "curb")], [-1, 5]⟩)], []⟩

/-- Example: the map of this file. -/
def negParsed : Parsed (Int × Int) :=
  ⟨⟨[(-1, ⟨-1, [], (0, 0)⟩), (5, ⟨5, [], (2, 3)⟩)], [(-1, ⟨-1, [("type", "curb")], [{ id := -1 }, { id := 5 }], false⟩)], [], [], [], []⟩,
    [], [], [5, -1]⟩

theorem negParsed_load : ∃ doc, writeDoc intNumbers negFile = some doc ∧ parse 0 intNumbers.num (fun _ _ => true) tripEnv doc = some negParsed := by
  refine ⟨_, rfl, ?_⟩
  have h : ∀ (nodes : AMap Int (Node Int)) ways, readRelations (fun _ _ => true) nodes ways [] = some ([], []) := by
    intro nodes ways
    unfold readRelations
    have h2 : resolveAll true (fun _ _ => true) [] [] [] = some ([], []) := by rw [resolveAll]
    simp only [List.foldl_nil, h2]
    rfl
  unfold parse Osm.read
  simp only [List.reverse_nil]
  rw [h]
  rfl

/-- Case for `make_ids_positive`. -/
example : ∃ doc, parse 0 intNumbers.num (fun _ _ => true) tripEnv doc = some negParsed ∧
    ∃ file doc' r' R, writeMap tripReverse (fun _ _ => true) (script negParsed.map (counterAfter 1000 negParsed.registered)).1 = some (file, []) ∧
      writeDoc intNumbers file = some doc' ∧ parse 0 intNumbers.num (fun _ _ => true) tripEnv doc' = some r' ∧ r'.readErrors = [] ∧
      r'.loadErrors = [] ∧ Positive negParsed.map R ∧ SameMap id (renumber R negParsed.map) r'.map ∧ ∀ k, ∀ i ∈ keys r'.map k, 0 ≤ i := by
  obtain ⟨doc, -, h⟩ := negParsed_load
  refine ⟨doc, h, make_ids_positive intNumbers _ _ _ ?_ tripBlind doc (by decide) h ?_ ?_ ?_ ?_ ?_⟩
  · intro name d g hg
    simp only [tripEnv] at hg
    split at hg
    · cases hg; exact ⟨rfl, fun p hp => hp⟩
    · cases hg
  · constructor <;> first | (constructor <;> decide) | (simp only [Attrs.Ok]; decide)
  · refine ⟨fun i _ => rfl, ?_, ?_, ?_, ?_, ?_, ?_, ?_, ?_, ?_, ?_⟩ <;> intro e he <;> cases he
  · refine ⟨get_keys (p := fun _ (l : MLine) => ∀ r ∈ l.pts, InLayer negParsed.map.points r) (by unfold InLayer; decide), ?_, ?_, ?_, ?_⟩ <;>
      intro i l hl <;> cases hl
  · constructor <;> exact get_keys (by decide)
  · rw [intNumbers_reverse]
    constructor
    case project => exact fun i p _ => ⟨_, rfl, rfl⟩
    case linePts => exact get_keys (p := fun _ (l : MLine) => l.pts ≠ [] ∧ ∀ r ∈ l.pts, r.inv = false) (by decide)
    case lineArea => exact get_keys (p := fun _ (l : MLine) => (l.attrs.get "area").bind tripEnv.asBool ≠ some true) (by decide)
    all_goals intro i l hl <;> cases hl

/-! ### print_ids.py -/

/-- What print_ids.py prints (9-10, 30, 33), or the TypeError that it raises -/
inductive Printed where
  | layer (k : Kind) (ids : List Int)
  | found (i : Int) (k : Kind)
  | missing (i : Int)
  | typeError
  deriving DecidableEq

/-- The dict of layers, print_ids.py 21-22 -/
def layers : List Kind := [.point, .line, .poly, .lanelet, .area, .reg]

/-- `int` as a condition: 0 is false; print_ids.py 25, 32 -/
def truthy : Option Int → Bool
  | none => false
  | some i => i != 0

/-- The loop over the layers with an id that is looked for: the first layer that has it; print_ids.py 24-31. sys.exit ends the script. -/
def findLayer (m : LMap P) (i : Int) : Option Kind := layers.find? fun k => (keys m k).any fun j => j == i

/-- print_ids.py 24-33. The message of line 33 is `"ID " + args.has_id + …`, a str and an int. -/
def printIds (m : LMap P) (hasId : Option Int) : List Printed :=
  match hasId, truthy hasId with
  | some i, true => match findLayer m i with
    | some k => [.found i k]
    | none => [.typeError]
  | _, _ => layers.map fun k => .layer k ((keys m k).mergeSort (· ≤ ·))

/-- **C81, the part that holds.** Without `--has-id` the script prints the ids of all layers, sorted and each as often as it occurs. With an
id other than 0 that is in the map it prints a layer that has it. Missing: other ids. -/
theorem printIds_partial (m : LMap P) :
    (∃ f : Kind → List Int, printIds m none = [.layer .point (f .point), .layer .line (f .line), .layer .poly (f .poly),
      .layer .lanelet (f .lanelet), .layer .area (f .area), .layer .reg (f .reg)] ∧
      ∀ k, (f k).Pairwise (· ≤ ·) ∧ ∀ i, (f k).count i = (keys m k).count i) ∧
    ∀ i, i ≠ 0 → (∃ k, i ∈ keys m k) → ∃ k, printIds m (some i) = [.found i k] ∧ i ∈ keys m k := by
  constructor
  · refine ⟨fun k => (keys m k).mergeSort (· ≤ ·), rfl, fun k => ⟨?_, fun i => (List.mergeSort_perm _ _).count_eq i⟩⟩
    have := List.pairwise_mergeSort (le := fun a b : Int => decide (a ≤ b)) (by simp; omega) (by simp; omega) (keys m k)
    simpa using this
  · rintro i h0 ⟨k, hk⟩
    have : truthy (some i) = true := by simp [truthy, h0]
    cases hf : findLayer m i with
    | none =>
      have := List.find?_eq_none.mp hf k (by cases k <;> decide)
      simp at this
      exact absurd hk this
    | some k' =>
      refine ⟨k', by simp only [printIds, this, hf], ?_⟩
      simpa using List.find?_some hf

/-- Disagreement: if the id is not in the map, print_ids.py does not say so but raises a TypeError, because it adds a number to a text. -/
theorem printIds_missing_counterexample (m : LMap P) (i : Int) (h0 : i ≠ 0) (h : ∀ k, i ∉ keys m k) : printIds m (some i) = [.typeError] := by
  have : truthy (some i) = true := by simp [truthy, h0]
  have hf : findLayer m i = none := by
    refine List.find?_eq_none.mpr fun k _ => ?_
    simp [h k]
  simp only [printIds, this, hf]

/-- Disagreement: print_ids.py `--has-id 0` prints all ids of the map as if no id had been asked for. -/
theorem printIds_zero_counterexample (m : LMap P) : printIds m (some 0) = printIds m none := rfl

/-- Case: the linestring 12 is found, 77 is not. -/
example : printIds tripMap (some 12) = [.found 12 .line] ∧ printIds tripMap (some 77) = [.typeError] ∧
    (printIds negMap none).length = 6 ∧ ∃ k, printIds negMap (some (-21)) = [.found (-21) k] ∧ -21 ∈ keys negMap k :=
  ⟨by decide, by decide, rfl, (printIds_partial negMap).2 (-21) (by decide) ⟨.reg, by decide⟩⟩

end Verif.Py
