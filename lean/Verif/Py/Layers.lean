import Verif.LMap.Props
import Verif.HMap.Lemmas

/-!
Model of the layers of a map in Python: lanelet2_python/python_api/core.cpp 430-453 (wrapLayer) on top of the layers of `Verif.LMap`. The
documentation (core.cpp 1425-1438) says that a layer works like a dictionary with ids as keys and primitives as values.

A layer is the result of any history of additions (`layerHistory`); a script may change ids (core.cpp 304, 1212) between them and
afterwards, so every addition comes with the ids of that time.

Simplification: the conversion of Python's int to Id is left out, and so is what happens if a layer changes while it is iterated.
-/
namespace Verif.Py.Layers
open Verif.LMap

/-- `id in layer`, core.cpp 439 -/
def containsId (l : Layer) (id : Int) : Bool := l.exists id

/-- `elem in layer`, core.cpp 440-443: looks for the id that the element has now -/
def containsElem (ids : Obj → Int) (l : Layer) (x : Handle) : Bool := l.exists (ids x.obj)

/-- `layer[id]`, core.cpp 447-449. The error is NoSuchPrimitiveError. -/
def getItem (l : Layer) (id : Int) : Except Unit Handle := l.get id

/-- `layer.get(id)`, core.cpp 432 and 444 -/
def get (l : Layer) (id : Int) : Except Unit Handle := l.get id

/-- `for x in layer`, core.cpp 445: the elements, in some order -/
def iter (l : Layer) : List Handle := l.elements.map (·.2)

/-- `len(layer)`, core.cpp 446 -/
def len (l : Layer) : Nat := l.elements.length

/-! ### Specification -/

/-- Specification. The dictionary that a history of additions builds: an id belongs to the first element that was added under it. -/
def Entry (ops : List ((Obj → Int) × Handle)) (id : Int) (x : Handle) : Prop :=
  ∃ (i : Nat) (ids : Obj → Int), ops[i]? = some (ids, x) ∧ ids x.obj = id ∧
    ∀ (j : Nat) (ids' : Obj → Int) (y : Handle), j < i → ops[j]? = some (ids', y) → ids' y.obj ≠ id

/-- Specification. Every addition had a valid id. -/
def ValidIds (ops : List ((Obj → Int) × Handle)) : Prop := ∀ op ∈ ops, op.1 op.2.obj ≠ 0

/-! ### Proofs -/

theorem entry_iff (ops : List ((Obj → Int) × Handle)) (id : Int) (x : Handle) :
    Entry ops id x ↔ (ops.find? fun op => op.1 op.2.obj == id).map (·.2) = some x := by
  constructor
  · rintro ⟨i, ids, hi, hid, hmin⟩
    have : ops.find? (fun op => op.1 op.2.obj == id) = some (ids, x) := by
      obtain ⟨hlt, hget⟩ := List.getElem?_eq_some_iff.mp hi
      rw [List.find?_eq_some_iff_getElem]
      refine ⟨by simp [hid], i, hlt, hget, ?_⟩
      intro j hj
      have := hmin j (ops[j]'(by omega)).1 (ops[j]'(by omega)).2 hj (by rw [List.getElem?_eq_getElem (by omega)])
      simpa using this
    rw [this]; rfl
  · intro h
    obtain ⟨⟨ids, y⟩, hf, rfl⟩ := Option.map_eq_some_iff.mp h
    obtain ⟨hp, i, hlt, hget, hmin⟩ := List.find?_eq_some_iff_getElem.mp hf
    refine ⟨i, ids, by rw [List.getElem?_eq_getElem hlt, hget], by simpa using hp, ?_⟩
    intro j ids' z hj hz
    obtain ⟨hlt', hz'⟩ := List.getElem?_eq_some_iff.mp hz
    have := hmin j hj
    rw [hz'] at this
    simpa using this

theorem elements_iff (c : Content) (ops : List ((Obj → Int) × Handle)) (id : Int) (x : Handle) :
    (id, x) ∈ (layerHistory c ops).elements ↔ Entry ops id x := by
  rw [entry_iff, ← find_first c ops id]
  have hn := iteration_once c ops
  generalize (layerHistory c ops) = l at *
  unfold Layer.find
  constructor
  · intro hm
    cases hf : l.elements.find? (·.1 == id) with
    | none =>
      have := List.find?_eq_none.mp hf _ hm
      simp at this
    | some e =>
      have := (HMap.find?_iff (fun e : Int × Handle => e.1) l.elements hn id (id, x)).mpr ⟨hm, rfl⟩
      rw [hf] at this
      cases this; rfl
  · intro h
    obtain ⟨⟨i, y⟩, hf, rfl⟩ := Option.map_eq_some_iff.mp h
    have hp := List.find?_some hf
    simp only [beq_iff_eq] at hp
    subst hp
    exact List.mem_of_find?_eq_some hf

/-! ### C87 -/

/-- C87. After any history of additions with valid ids, whatever happened to the ids in between, a layer answers like the dictionary of
these additions: `id in layer` iff there is an entry, `layer[id]` and `layer.get(id)` are the value of the entry or an error if there is none.
The loop visits the values of all entries, one for each key, and `len` is their number. -/
theorem layer_dict (c : Content) (ops : List ((Obj → Int) × Handle)) (hv : ValidIds ops) :
    (∀ id, containsId (layerHistory c ops) id = true ↔ ∃ x, Entry ops id x) ∧
    (∀ id x, getItem (layerHistory c ops) id = .ok x ↔ Entry ops id x) ∧
    (∀ id, getItem (layerHistory c ops) id = .error () ↔ ¬ ∃ x, Entry ops id x) ∧
    (∀ id, get (layerHistory c ops) id = getItem (layerHistory c ops) id) ∧
    ∃ keys : List Int, keys.Nodup ∧ keys.length = len (layerHistory c ops) ∧
      keys.map (getItem (layerHistory c ops)) = (iter (layerHistory c ops)).map .ok ∧
      ∀ id, id ∈ keys ↔ ∃ x, Entry ops id x := by
  have hne : ∀ id x, Entry ops id x → id ≠ 0 := by
    rintro id x ⟨i, ids, hi, rfl, -⟩
    exact hv _ (List.mem_of_getElem? hi)
  have hfind : ∀ id x, (layerHistory c ops).find id = some x ↔ Entry ops id x := by
    intro id x; rw [entry_iff, find_first]
  have hget : ∀ id x, getItem (layerHistory c ops) id = .ok x ↔ Entry ops id x := by
    intro id x
    have := (lookups_agree (layerHistory c ops) id).2.1 x
    unfold getItem
    rw [this, hfind]
    exact ⟨fun h => h.2, fun h => ⟨hne id x h, h⟩⟩
  have hex : ∀ id, containsId (layerHistory c ops) id = true ↔ ∃ x, Entry ops id x := by
    intro id
    unfold containsId
    rw [(lookups_agree (layerHistory c ops) id).1]
    constructor
    · rintro ⟨-, x, hx⟩; exact ⟨x, (hfind id x).mp hx⟩
    · rintro ⟨x, hx⟩; exact ⟨hne id x hx, x, (hfind id x).mpr hx⟩
  refine ⟨hex, hget, ?_, fun _ => rfl, (layerHistory c ops).elements.map (·.1), iteration_once c ops, by simp [len], ?_, ?_⟩
  · intro id
    unfold getItem
    rw [(lookups_agree (layerHistory c ops) id).2.2, ← hex id]
    unfold containsId
    simp
  · unfold iter
    rw [List.map_map, List.map_map]
    apply List.map_congr_left
    rintro ⟨id, x⟩ hm
    exact (hget id x).mpr ((elements_iff c ops id x).mp hm)
  · intro id
    simp only [List.mem_map]
    constructor
    · rintro ⟨⟨i, x⟩, hm, rfl⟩; exact ⟨x, (elements_iff c ops i x).mp hm⟩
    · rintro ⟨x, hx⟩; exact ⟨(id, x), (elements_iff c ops id x).mpr hx, rfl⟩

/-- C87. As long as ids do not change and no two elements share one, `elem in layer` says whether the element (in one of its directions)
was added. -/
theorem elem_in_layer (c : Content) (ids : Obj → Int) (xs : List Handle) (x : Handle) (hv : ids x.obj ≠ 0)
    (hinj : ∀ y ∈ xs, ids y.obj = ids x.obj → y.obj = x.obj) :
    containsElem ids (layerHistory c (xs.map fun y => (ids, y))) x = true ↔ ∃ y ∈ xs, y.obj = x.obj := by
  unfold containsElem
  rw [(lookups_agree _ _).1, find_first]
  constructor
  · rintro ⟨-, y, hy⟩
    obtain ⟨⟨ids', z⟩, hf, rfl⟩ := Option.map_eq_some_iff.mp hy
    have hm := List.mem_of_find?_eq_some hf
    have hp := List.find?_some hf
    obtain ⟨u, hu, e⟩ := List.mem_map.mp hm
    cases e
    simp only [beq_iff_eq] at hp
    exact ⟨z, hu, hinj z hu hp⟩
  · rintro ⟨y, hy, hyx⟩
    refine ⟨hv, ?_⟩
    cases hf : (xs.map fun y => (ids, y)).find? (fun op => op.1 op.2.obj == ids x.obj) with
    | none =>
      have := List.find?_eq_none.mp hf (ids, y) (List.mem_map.mpr ⟨y, hy, rfl⟩)
      simp [hyx] at this
    | some e => exact ⟨e.2, rfl⟩

/-- Case: two points with ids of their own; one is in the layer, the other one is not. -/
example : containsElem (fun o => (o.n : Int) + 1) (layerHistory exC [(fun o => (o.n : Int) + 1, Handle.of .point 1)]) (Handle.of .point 1) = true ∧
    containsElem (fun o => (o.n : Int) + 1) (layerHistory exC [(fun o => (o.n : Int) + 1, Handle.of .point 1)]) (Handle.of .point 2) = false ∧
    len (layerHistory exC [(fun _ => 5, Handle.of .point 1), (fun _ => 7, Handle.of .point 2), (fun _ => 5, Handle.of .point 3)]) = 2 := by
  decide

/-- C87 fails for `elem in layer`: an element counts as contained if any element was added under the id that it has now, also if it is a
different one. -/
theorem contains_other_counterexample (c : Content) (ids : Obj → Int) (x y : Handle) (hid : ids x.obj = ids y.obj) (hv : ids y.obj ≠ 0)
    (hne : x.obj ≠ y.obj) :
    containsElem ids (layerHistory c [(ids, y)]) x = true ∧ x ∉ iter (layerHistory c [(ids, y)]) := by
  constructor
  · unfold containsElem
    rw [(lookups_agree _ _).1, find_first]
    exact ⟨by rw [hid]; exact hv, y, by simp [hid]⟩
  · intro hx
    have : iter (layerHistory c [(ids, y)]) = [y] := rfl
    rw [this, List.mem_singleton] at hx
    exact hne (by rw [hx])

/-- C87 fails after an id was changed: the element is still visited by the loop and found under its old id, but neither `elem in layer` nor
`layer[elem.id]` finds it. -/
theorem renamed_counterexample (c : Content) (ids ids' : Obj → Int) (x : Handle) (hv : ids x.obj ≠ 0) (hne : ids' x.obj ≠ ids x.obj) :
    x ∈ iter (layerHistory c [(ids, x)]) ∧ getItem (layerHistory c [(ids, x)]) (ids x.obj) = .ok x ∧
    containsElem ids' (layerHistory c [(ids, x)]) x = false ∧ getItem (layerHistory c [(ids, x)]) (ids' x.obj) = .error () := by
  have hf : containsElem ids' (layerHistory c [(ids, x)]) x = false := by
    cases h : containsElem ids' (layerHistory c [(ids, x)]) x with
    | false => rfl
    | true =>
      unfold containsElem at h
      rw [(lookups_agree _ _).1, find_first] at h
      obtain ⟨-, y, hy⟩ := h
      have : (ids x.obj == ids' x.obj) = false := by simpa using fun e => hne e.symm
      simp [this] at hy
  refine ⟨List.mem_singleton.mpr rfl, ?_, hf, (lookups_agree _ _).2.2.mpr hf⟩
  have := ((lookups_agree (layerHistory c [(ids, x)]) (ids x.obj)).2.1 x).mpr ⟨hv, by rw [find_first]; simp⟩
  exact this

/-- C87 fails for loops: a loop over a layer visits the values, a loop over a dictionary visits the keys. No element of the layer that is
visited is a key. -/
theorem iter_values_counterexample (c : Content) (ids : Obj → Int) (x : Handle) : iter (layerHistory c [(ids, x)]) = [x] := rfl

end Verif.Py.Layers
