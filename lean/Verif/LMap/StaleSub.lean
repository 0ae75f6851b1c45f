import Verif.LMap.Stale

/-!
The index of a layer of a submap and later changes of the primitives, as Verif.LMap.Stale for maps. `LaneletSubmap::add` (LaneletMap.cpp 685-716)
does not ask whether the layer already has the primitive: the index gets one more entry each time.
-/
namespace Verif.LMap.Stale
open Verif.BBox Verif.LineStr

variable {F : Type} [LinearOrder F]

/-! ### Model -/

/-- LaneletSubmap::add, LaneletMap.cpp 685-716, with PrimitiveLayer::add, 382-410, and Tree::insert, 294-299, 322. The map of elements keeps the
element it has. -/
def Layer.applySub (lo hi : F) (w : World F) (y : Layer F) : Op F → Layer F
  | .add x =>
    ⟨if x ∈ y.elements then y.elements else x :: y.elements,
      if (box lo hi w x).isEmpty then y.tree else (box lo hi w x, x) :: y.tree,
      (owned w x).map (·, x) ++ y.usage⟩
  | _ => y

/-- A program that adds to a submap and changes primitives; stands for any code that uses the functions cited at `Op` -/
def runSub (lo hi : F) : List (Op F) → World F → Layer F → World F × Layer F
  | [], w, y => (w, y)
  | o :: os, w, y => runSub lo hi os (w.apply o) (y.applySub lo hi w o)

/-! ### Specification -/

/-- Specification. The primitive is added by the operation behind `a`, not necessarily for the first time. -/
def AddedAt (os : List (Op F)) (x : Prim) (a : List (Op F)) : Prop := ∃ b, os = a ++ .add x :: b

/-! ### Proofs -/

theorem runSub_fst (lo hi : F) (os : List (Op F)) (w : World F) (y : Layer F) : (runSub lo hi os w y).1 = after w os := by
  induction os generalizing w y with
  | nil => rfl
  | cons o os ih => exact ih _ _

theorem runSub_append (lo hi : F) (os ps : List (Op F)) (w : World F) (y : Layer F) :
    runSub lo hi (os ++ ps) w y = runSub lo hi ps (after w os) (runSub lo hi os w y).2 := by
  induction os generalizing w y with
  | nil => rfl
  | cons o os ih => exact ih _ _

omit [LinearOrder F] in
theorem addedAt_snoc (os : List (Op F)) (o : Op F) (x : Prim) (a : List (Op F)) :
    AddedAt (os ++ [o]) x a ↔ AddedAt os x a ∨ (a = os ∧ o = .add x) := by
  constructor
  · rintro ⟨b, hb⟩
    rcases List.eq_nil_or_concat b with rfl | ⟨b', o', rfl⟩
    · obtain ⟨h1, h2⟩ := List.append_inj' hb rfl
      right
      subst h1
      exact ⟨rfl, by simpa using h2⟩
    · left
      refine ⟨b', ?_⟩
      have : os ++ [o] = (a ++ .add x :: b') ++ [o'] := by rw [hb]; simp
      exact (List.append_inj' this rfl).1
  · rintro (⟨b, rfl⟩ | ⟨rfl, rfl⟩)
    · exact ⟨b ++ [o], by simp⟩
    · exact ⟨[], rfl⟩

/-- The state of the layer in terms of the program: an entry for each time the primitive was added. -/
theorem runSub_snd (lo hi : F) (w : World F) (os : List (Op F)) :
    (∀ x, x ∈ (runSub lo hi os w empty).2.elements ↔ Op.add x ∈ os) ∧
    (∀ b x, (b, x) ∈ (runSub lo hi os w empty).2.tree ↔ b.isEmpty = false ∧ ∃ a, AddedAt os x a ∧ b = box lo hi (after w a) x) ∧
    ∀ k x, (k, x) ∈ (runSub lo hi os w empty).2.usage ↔ ∃ a, AddedAt os x a ∧ k ∈ owned (after w a) x := by
  induction os using List.reverseRecOn with
  | nil => simp [runSub, empty, AddedAt]
  | append_singleton os o ih =>
    obtain ⟨h1, h2, h3⟩ := ih
    rw [runSub_append]
    simp only [addedAt_snoc]
    have other : (∀ x, o ≠ .add x) → (runSub lo hi [o] (after w os) (runSub lo hi os w empty).2).2 = (runSub lo hi os w empty).2 := by
      intro h
      cases o with
      | add x => exact absurd rfl (h x)
      | _ => rfl
    by_cases ho : ∃ z, o = .add z
    · obtain ⟨z, rfl⟩ := ho
      have hl : (runSub lo hi [.add z] (after w os) (runSub lo hi os w empty).2).2 =
          Layer.applySub lo hi (after w os) (runSub lo hi os w empty).2 (.add z) := rfl
      rw [hl]
      generalize (runSub lo hi os w empty).2 = y at h1 h2 h3
      simp only [Layer.applySub, Op.add.injEq]
      refine ⟨fun x => ?_, fun b x => ?_, fun k x => ?_⟩
      · split
        · rename_i hz
          rw [h1, List.mem_append]
          constructor
          · exact .inl
          · rintro (h | h)
            · exact h
            · obtain rfl : x = z := by simpa using h
              exact (h1 x).1 hz
        · simp only [List.mem_cons, h1, List.mem_append, List.not_mem_nil, or_false, Op.add.injEq]
          exact Or.comm
      · have hr : (b.isEmpty = false ∧ ∃ a, (AddedAt os x a ∨ a = os ∧ z = x) ∧ b = box lo hi (after w a) x) ↔
            (b, x) ∈ y.tree ∨ (b.isEmpty = false ∧ z = x ∧ b = box lo hi (after w os) x) := by
          rw [h2]
          constructor
          · rintro ⟨he, a, ha | ⟨rfl, hz⟩, hb⟩
            · exact .inl ⟨he, a, ha, hb⟩
            · exact .inr ⟨he, hz, hb⟩
          · rintro (⟨he, a, ha, hb⟩ | ⟨he, hz, hb⟩)
            · exact ⟨he, a, .inl ha, hb⟩
            · exact ⟨he, os, .inr ⟨rfl, hz⟩, hb⟩
        rw [hr]
        split
        · rename_i he
          constructor
          · exact .inl
          · rintro (h | ⟨h5, rfl, rfl⟩)
            · exact h
            · rw [he] at h5; cases h5
        · rename_i he
          simp only [List.mem_cons, Prod.mk.injEq]
          constructor
          · rintro (⟨rfl, rfl⟩ | h)
            · exact .inr ⟨by simpa using he, rfl, rfl⟩
            · exact .inl h
          · rintro (h | ⟨_, rfl, rfl⟩)
            · exact .inr h
            · exact .inl ⟨rfl, rfl⟩
      · simp only [List.mem_append, List.mem_map, Prod.mk.injEq, h3]
        constructor
        · rintro (⟨j, hj, rfl, rfl⟩ | ⟨a, ha, hk⟩)
          · exact ⟨os, .inr ⟨rfl, rfl⟩, hj⟩
          · exact ⟨a, .inl ha, hk⟩
        · rintro ⟨a, ha | ⟨rfl, rfl⟩, hk⟩
          · exact .inr ⟨a, ha, hk⟩
          · exact .inl ⟨k, hk, rfl, rfl⟩
    · have ho' : ∀ z, o ≠ .add z := fun z e => ho ⟨z, e⟩
      rw [other ho']
      simp only [ho', and_false, or_false, List.mem_append, List.mem_singleton]
      have ho2 : ∀ z, (Op.add z = o) = False := fun z => eq_false fun e => ho' z e.symm
      simp only [ho2, or_false]
      exact ⟨h1, h2, h3⟩

/-- C99. What search over a layer of a submap gives for every program: the primitives whose points were around the area at one of the times when they
were added. -/
theorem submap_search_when_added (lo hi : F) (hlh : lo < hi) (w : World F) (os : List (Op F)) (hf : Finite lo hi w os) (area : Box 2 F)
    (x : Prim) :
    x ∈ (runSub lo hi os w empty).2.search area ↔ ∃ a, AddedAt os x a ∧ Meets (after w a) area x := by
  simp only [Layer.search, List.mem_map, List.mem_filter, Prod.exists, exists_eq_right]
  constructor
  · rintro ⟨b, h1, h2⟩
    obtain ⟨h3, a, ⟨c, e⟩, rfl⟩ := ((runSub_snd lo hi w os).2.1 b x).1 h1
    exact ⟨a, ⟨c, e⟩, (box_meets _ (finite_prefix hf e) hlh x area).1 ⟨h3, h2⟩⟩
  · rintro ⟨a, ⟨c, e⟩, h1⟩
    have h2 := (box_meets _ (finite_prefix hf e) hlh x area).2 h1
    exact ⟨_, ((runSub_snd lo hi w os).2.1 _ x).2 ⟨h2.1, a, ⟨c, e⟩, rfl⟩, h2.2⟩

/-- C99. What findUsages of a layer of a submap gives for every program: the primitives that referred to the key at one of the times when they were
added. -/
theorem submap_findUsages_when_added (lo hi : F) (w : World F) (os : List (Op F)) (k : Key) (x : Prim) :
    x ∈ (runSub lo hi os w empty).2.findUsages k ↔ ∃ a, AddedAt os x a ∧ UsesKey (after w a) k x := by
  simp only [← mem_owned]
  simp only [Layer.findUsages, List.mem_map, List.mem_filter, Prod.exists, exists_eq_right, beq_iff_eq]
  rw [← (runSub_snd lo hi w os).2.2]

/-- C99. As long as nothing that was added is moved, search over a layer of a submap gives exactly its elements whose points are around the area now. -/
theorem submap_search_exact (lo hi : F) (hlh : lo < hi) (w : World F) (os : List (Op F)) (hf : Finite lo hi w os) (h : Calm w os)
    (area : Box 2 F) (x : Prim) :
    x ∈ (runSub lo hi os w empty).2.search area ↔ x ∈ (runSub lo hi os w empty).2.elements ∧ Meets (after w os) area x := by
  have key : ∀ a, AddedAt os x a → box lo hi (after w os) x = box lo hi (after w a) x := by
    rintro a ⟨b, rfl⟩
    have h1 := after_keeps (fun v => box lo hi v x) (after w (a ++ [.add x])) b (by
      rintro b1 o b2 rfl
      refine box_apply lo hi _ o x ?_
      have := h x a o b1 b2 (by simp)
      rw [← after_append]
      simpa using this)
    rw [← after_append] at h1
    simp only [List.append_assoc, List.singleton_append] at h1
    rw [h1, after_append]
    rfl
  rw [submap_search_when_added lo hi hlh w os hf, (runSub_snd lo hi w os).1,
    ← box_meets _ (finite_prefix hf (List.append_nil os).symm) hlh x area]
  constructor
  · rintro ⟨a, ⟨b, e⟩, h1⟩
    rw [← box_meets _ (finite_prefix hf e) hlh x area] at h1
    rw [key a ⟨b, e⟩]
    exact ⟨by rw [e]; simp, h1⟩
  · rintro ⟨hm, h1⟩
    obtain ⟨a, b, e⟩ := List.append_of_mem hm
    rw [key a ⟨b, e⟩] at h1
    exact ⟨a, ⟨b, e⟩, (box_meets _ (finite_prefix hf e) hlh x area).1 h1⟩

/-- C99. As long as nothing that was added gets other points, bounds or regulatory elements, findUsages of a layer of a submap is exact. -/
theorem submap_findUsages_exact (lo hi : F) (w : World F) (os : List (Op F)) (h : Settled os) (k : Key) (x : Prim) :
    x ∈ (runSub lo hi os w empty).2.findUsages k ↔ x ∈ (runSub lo hi os w empty).2.elements ∧ UsesKey (after w os) k x := by
  have key : ∀ a, AddedAt os x a → owned (after w os) x = owned (after w a) x := by
    rintro a ⟨b, rfl⟩
    have h1 := after_keeps (fun v => owned v x) (after w (a ++ [.add x])) b (by
      rintro b1 o b2 rfl
      exact owned_apply _ o x (h x a o b1 b2 (by simp)))
    rw [← after_append] at h1
    simp only [List.append_assoc, List.singleton_append] at h1
    rw [h1, after_append]
    rfl
  rw [submap_findUsages_when_added, (runSub_snd lo hi w os).1]
  simp only [← mem_owned]
  constructor
  · rintro ⟨a, ⟨b, e⟩, h1⟩
    rw [key a ⟨b, e⟩]
    exact ⟨by rw [e]; simp, h1⟩
  · rintro ⟨hm, h1⟩
    obtain ⟨a, b, e⟩ := List.append_of_mem hm
    rw [key a ⟨b, e⟩] at h1
    exact ⟨a, ⟨b, e⟩, h1⟩

/-- C99, disagreement. Adding a point to a submap again after it was moved to `q` makes it known where it is now, but it is still found where it was. In a map
adding it again changes nothing. -/
theorem submap_again_counterexample (lo hi : F) (hlh : lo < hi) (w : World F) (hw : ∀ p, Fin' lo hi (w.pos p)) (p : Nat) (q : Pt 2 F)
    (hq : Fin' lo hi q) (area : Box 2 F) :
    (Prim.point p ∈ (runSub lo hi [.add (.point p), .move p q, .add (.point p)] w empty).2.search area ↔ In q area ∨ In (w.pos p) area) ∧
    (Prim.point p ∈ (run lo hi [.add (.point p), .move p q, .add (.point p)] w empty).2.search area ↔ In (w.pos p) area) := by
  have hf : Finite lo hi w [.add (.point p), .move p q, .add (.point p)] :=
    ⟨hw, fun p' q' hm => by simp at hm; rw [hm.2]; exact hq⟩
  have hmeet : ∀ v : World F, Meets v area (.point p) ↔ In (v.pos p) area := by
    intro v
    simp only [Meets, UsesPoint, In]
    constructor
    · intro h i
      obtain ⟨⟨_, rfl, h1⟩, ⟨_, rfl, h2⟩⟩ := h i
      exact ⟨h2, h1⟩
    · intro h i
      exact ⟨⟨p, rfl, (h i).2⟩, ⟨p, rfl, (h i).1⟩⟩
  rw [submap_search_when_added lo hi hlh w _ hf, search_when_added lo hi hlh w _ hf]
  simp only [hmeet]
  constructor
  · constructor
    · rintro ⟨a, ⟨b, e⟩, h⟩
      match a, e with
      | [], _ => exact .inr h
      | [_], e => simp at e
      | [_, _], e =>
        simp only [List.cons_append, List.nil_append, List.cons.injEq] at e
        obtain ⟨rfl, rfl, _⟩ := e
        exact .inl (by simpa [after, World.apply] using h)
      | _ :: _ :: _ :: _, e => simp at e
    · rintro (h | h)
      · exact ⟨[.add (.point p), .move p q], ⟨[], rfl⟩, by simpa [after, World.apply] using h⟩
      · exact ⟨[], ⟨_, rfl⟩, h⟩
  · constructor
    · rintro ⟨a, ⟨b, e, hn⟩, h⟩
      match a, e with
      | [], _ => exact h
      | [_], e => simp at e
      | [_, _], e =>
        simp only [List.cons_append, List.nil_append, List.cons.injEq] at e
        obtain ⟨rfl, rfl, _⟩ := e
        simp at hn
      | _ :: _ :: _ :: _, e => simp at e
    · intro h
      exact ⟨[], ⟨_, rfl, by simp⟩, h⟩

/-- C99, disagreement. A primitive that is added to a submap twice is found twice by findUsages and by search. -/
theorem submap_twice_counterexample (lo hi : F) (w : World F) (x : Prim) :
    (∀ k, (runSub lo hi [.add x, .add x] w empty).2.findUsages k =
      (runSub lo hi [.add x] w empty).2.findUsages k ++ (runSub lo hi [.add x] w empty).2.findUsages k) ∧
    (∀ area, (runSub lo hi [.add x, .add x] w empty).2.search area =
      (runSub lo hi [.add x] w empty).2.search area ++ (runSub lo hi [.add x] w empty).2.search area) ∧
    (runSub lo hi [.add x, .add x] w empty).2.elements = [x] := by
  refine ⟨fun k => ?_, fun area => ?_, ?_⟩
  · simp [runSub, Layer.applySub, World.apply, Layer.findUsages, empty, List.filter_append]
  · simp only [runSub, Layer.applySub, World.apply, Layer.search, empty]
    by_cases he : (box lo hi w x).isEmpty = true
    · simp [he]
    · cases hi' : (box lo hi w x).intersects area <;> simp [he, hi']
  · simp [runSub, Layer.applySub, World.apply, empty]

/-! ### Examples -/

example : (runSub (-1000) 1000 [.add (.line 0), .setPoints 0 [0, 7], .move 7 ![9, 9], .add (.line 0)] exWorld empty).2.findUsages (.point 0) =
    [.line 0, .line 0] ∧
    (runSub (-1000) 1000 [.add (.line 0), .setPoints 0 [0, 7], .move 7 ![9, 9], .add (.line 0)] exWorld empty).2.search ⟨![8, 8], ![20, 20]⟩ =
      [.line 0] := by decide

end Verif.LMap.Stale
