import Verif.LMap.Main

/-!
Properties C02, C03, C04, C05 and C08 of the map container.
-/
namespace Verif.LMap

/-- States of a map that is filled with `add`, starting from an empty map. `U` is the (finite) set of all
objects. Between two calls other code may draw or register ids. -/
inductive Reachable (c : Content) (U : List Obj) : MapSt → Prop where
  | empty (ids : Obj → Int) (next : Int) : 0 < next → Reachable c U (.empty ids next)
  | add {s s' : MapSt} (h : Handle) : Reachable c U s → h.obj ∈ U → add c h s = some s' → Reachable c U s'
  | ids {s : MapSt} (n : Int) : Reachable c U s → s.next ≤ n → Reachable c U { s with next := n }

/-- The set of objects contains everything that its objects reference. -/
def Complete (c : Content) (U : List Obj) : Prop := ∀ o ∈ U, ∀ x ∈ links c o, x ∈ U

/-- C02: every reference of every element of the map is in the map. -/
def SelfContained (c : Content) (s : MapSt) : Prop :=
  ∀ k, ∀ e ∈ (s.layers k).elements, ∀ o ∈ refs c s.ids e.2.obj, Exists s o

theorem closed_false_iff {c : Content} {s : MapSt} : ClosedQ c (fun _ => False) s ↔ SelfContained c s := by
  constructor
  · intro h k e he o ho; exact (h k e he o ho).resolve_right id
  · intro h k e he o ho; exact Or.inl (h k e he o ho)

theorem reachable_inv {c : Content} {U : List Obj} (hU : Complete c U) {s : MapSt} (h : Reachable c U s) :
    W s ∧ Strong c s ∧ SelfContained c s := by
  induction h with
  | empty ids next hn =>
    refine ⟨⟨hn, ?_, ?_, ?_⟩, ⟨?_, ?_, ?_, ?_, ?_, ?_⟩, ?_⟩ <;> intro k <;> simp [MapSt.empty]
  | add h hs hh heq ih =>
    obtain ⟨s', e, p⟩ := add_post c U hU h hh _ ih.1
    rw [e] at heq
    have := Option.some.inj heq
    subst this
    exact ⟨p.w, p.strong ih.2.1, closed_false_iff.mp (p.cl _ (closed_false_iff.mpr ih.2.2))⟩
  | ids n hs hn ih =>
    obtain ⟨w, st, cl⟩ := ih
    refine ⟨⟨by have := w.pos; simp only; omega, w.kind, w.key, w.valid⟩,
      ⟨?_, st.nodup, st.usage, st.regUsage, st.tree, st.ownedIds⟩, cl⟩
    intro k e he
    have := st.below k e he
    simp only; omega

/-! ### C02 -/

/-- C02: `add` always returns (also for cyclic references between lanelets, areas and regulatory elements). -/
theorem add_terminates {c : Content} {U : List Obj} (hU : Complete c U) {s : MapSt} (h : Reachable c U s)
    (x : Handle) (hx : x.obj ∈ U) : ∃ s', add c x s = some s' ∧ Exists s' x.obj := by
  obtain ⟨s', e, p⟩ := add_post c U hU x hx s (reachable_inv hU h).1
  exact ⟨s', e, p.ex x (by simp)⟩

/-- C02: after any sequence of `add` calls the map is self-contained. -/
theorem map_self_contained {c : Content} {U : List Obj} (hU : Complete c U) {s : MapSt}
    (h : Reachable c U s) : SelfContained c s := (reachable_inv hU h).2.2

/-- C02: if no two objects of a kind share an id, the referenced objects themselves are in the map. -/
theorem map_self_contained_identity {c : Content} {U : List Obj} (hU : Complete c U) {s : MapSt}
    (h : Reachable c U s)
    (hid : ∀ a b : Obj, a.kind = b.kind → s.ids a = s.ids b → s.ids a ≠ 0 → a = b)
    {k : Kind} {e : Int × Handle} (he : e ∈ (s.layers k).elements) {o : Obj}
    (ho : o ∈ refs c s.ids e.2.obj) :
    ∃ x, (s.layers o.kind).find (s.ids o) = some x ∧ x.obj = o := by
  have hw := (reachable_inv hU h).1
  have := map_self_contained hU h k e he o ho
  obtain ⟨h0, y, hy⟩ := (exists_iff s o).mp this
  have hs := (find_isSome_iff (s.layers o.kind).elements (s.ids o)).mpr ⟨y, hy⟩
  obtain ⟨x, hx⟩ := Option.isSome_iff_exists.mp hs
  refine ⟨x.2, by simp [Layer.find, hx], ?_⟩
  have hm := List.mem_of_find?_eq_some hx
  have hk := List.find?_some hx
  simp only [beq_iff_eq] at hk
  have e1 := hw.key _ x hm
  have e2 := hw.kind _ x hm
  exact hid _ _ e2 (by rw [← e1, hk]) (by rw [← e1, hk]; exact h0)

/-- The hypothesis of `map_self_contained_identity` is kept by `add` if all ids were known to the id generator
in the beginning. -/
theorem distinct_kept {c : Content} {U : List Obj} (hU : Complete c U) {s s' : MapSt} (h : Reachable c U s)
    (hd : Distinct s) (x : Handle) (hx : x.obj ∈ U) (ha : add c x s = some s') : Distinct s' := by
  obtain ⟨s1, e, p⟩ := add_post c U hU x hx s (reachable_inv hU h).1
  rw [e] at ha
  have := Option.some.inj ha
  subst this
  exact p.dist hd

/-- An example: lanelet 0 with bounds 0 and 1, regulatory element 0 that references lanelet 0 (a cycle) and
linestring 2. -/
def exC : Content where
  points := fun n => if n = 0 then [0, 1] else [2, 3]
  polygonPoints := fun _ => []
  left := fun _ => (0, false)
  right := fun _ => (1, false)
  center := fun _ => none
  laneletRegs := fun n => if n = 0 then [0] else []
  outer := fun _ => []
  inner := fun _ => []
  areaRegs := fun _ => []
  params := fun n => if n = 0 then [⟨⟨.lanelet, 0⟩, false⟩, ⟨⟨.lineString, 2⟩, false⟩] else []
  alive := fun _ => true
  hasBox := fun _ => true

/-- Example: some objects. -/
def exU : List Obj :=
  [⟨.lanelet, 0⟩, ⟨.lineString, 0⟩, ⟨.lineString, 1⟩, ⟨.lineString, 2⟩, ⟨.regElem, 0⟩, ⟨.point, 0⟩, ⟨.point, 1⟩,
   ⟨.point, 2⟩, ⟨.point, 3⟩]

theorem exU_complete : Complete exC exU := by
  have : (exU.all fun o => (links exC o).all fun x => exU.contains x) = true := by decide
  intro o ho x hx
  have h1 := List.all_eq_true.mp this o ho
  have h2 := List.all_eq_true.mp h1 x hx
  simpa using h2

/-- Case: the lanelet is added and everything it references is in the map afterwards. -/
example : ∃ s', add exC ⟨⟨.lanelet, 0⟩, false⟩ (.empty (fun _ => 0) 1000) = some s' ∧
    Exists s' ⟨.lanelet, 0⟩ ∧ Exists s' ⟨.regElem, 0⟩ ∧ Exists s' ⟨.lineString, 2⟩ ∧ Exists s' ⟨.point, 3⟩ := by
  have h0 : Reachable exC exU (.empty (fun _ => 0) 1000) := .empty _ _ (by omega)
  obtain ⟨s', h1, h2⟩ := add_terminates exU_complete h0 ⟨⟨.lanelet, 0⟩, false⟩ (by decide)
  have h1' := Reachable.add (U := exU) ⟨⟨.lanelet, 0⟩, false⟩ h0 (by decide) h1
  have hd : Distinct (MapSt.empty (fun _ => 0) 1000) :=
    ⟨fun a b _ _ h => absurd rfl h, fun a => by simp [MapSt.empty]⟩
  have hd' := distinct_kept exU_complete h0 hd _ (by decide) h1
  -- everything reachable exists, step by step
  have step : ∀ o, Exists s' o → ∀ x ∈ refs exC s'.ids o, Exists s' x := by
    intro o ho x hx
    obtain ⟨w, -, cl⟩ := reachable_inv exU_complete h1'
    obtain ⟨hne, y, hy⟩ := (exists_iff s' o).mp ho
    have : y.obj = o := hd'.inj _ _ (w.kind _ _ hy) (w.key _ _ hy).symm
      (by rw [← w.key _ _ hy]; exact hne)
    exact cl _ _ hy x (by rw [this]; exact hx)
  have hr := step _ h2 ⟨.regElem, 0⟩ (by simp [refs, exC])
  have hl := step _ hr ⟨.lineString, 2⟩ (by simp [refs, exC, expired])
  exact ⟨s', h1, h2, hr, hl, step _ hl ⟨.point, 3⟩ (by simp [refs, exC])⟩

/-- Disagreement with the natural reading of C02 (and of `uniqueId`): an id that is assigned automatically can
be the id that another object, which is added later, already has. That object is then silently left out. -/
theorem id_clash_counterexample :
    ∃ s', add { exC with points := fun _ => [0, 1] } ⟨⟨.lineString, 0⟩, false⟩
        (.empty (fun o => if o = ⟨.point, 1⟩ then 1001 else 0) 1000) = some s' ∧
      elems s' .point = [Handle.of .point 0] := by
  refine ⟨layerAdd { exC with points := fun _ => [0, 1] } ⟨⟨.lineString, 0⟩, false⟩
      (layerAdd { exC with points := fun _ => [0, 1] } (Handle.of .point 0)
        (setFreshId ⟨.point, 0⟩ (setFreshId ⟨.lineString, 0⟩
          (.empty (fun o => if o = ⟨.point, 1⟩ then 1001 else 0) 1000)))), ?_, ?_⟩
  · rw [add_eq]
    rw [if_neg (by decide)]
    simp only [pre1, owned, Bool.false_eq_true, if_false, List.map_cons, List.map_nil, addAll_cons]
    rw [add_eq, if_neg (by decide)]
    simp only [pre1, pre2, post, owned, Handle.of, addAll_nil, Option.bind_some, addAll_cons]
    rw [add_eq, if_pos (by decide)]
    rfl
  · decide

/-! ### C03 -/

/-- C03: adding something whose id is in the layer already changes nothing at all. -/
theorem add_existing (c : Content) (s : MapSt) (h : Handle) (he : Exists s h.obj) : add c h s = some s := by
  have h1 := (exists_iff s h.obj).mp he
  have h2 : (s.layers h.obj.kind).exists (s.ids h.obj) = true := he
  rw [add_eq]
  simp [enter, h1.1, h2]

/-- C03: adding a primitive twice is the same as adding it once. -/
theorem add_idempotent {c : Content} {U : List Obj} (hU : Complete c U) {s s' : MapSt} (h : Reachable c U s)
    (x : Handle) (hx : x.obj ∈ U) (ha : add c x s = some s') : add c x s' = some s' := by
  obtain ⟨s1, e, p⟩ := add_post c U hU x hx s (reachable_inv hU h).1
  rw [e] at ha
  have := Option.some.inj ha
  subst this
  exact add_existing c s1 x (p.ex x (by simp))

theorem find_append_some {l r : List (Int × Handle)} {id : Int} {e : Int × Handle}
    (h : l.find? (·.1 == id) = some e) : (l ++ r).find? (·.1 == id) = some e := by
  rw [List.find?_append, h]; rfl

/-- C03: `add` never removes an element, never changes what an id resolves to, and never changes a valid id. -/
theorem add_keeps {c : Content} {U : List Obj} (hU : Complete c U) {s s' : MapSt} (h : Reachable c U s)
    (x : Handle) (hx : x.obj ∈ U) (ha : add c x s = some s') :
    (∀ k id y, (s.layers k).find id = some y → (s'.layers k).find id = some y) ∧
    (∀ o, s.ids o ≠ 0 → s'.ids o = s.ids o) := by
  obtain ⟨s1, e, p⟩ := add_post c U hU x hx s (reachable_inv hU h).1
  rw [e] at ha
  have := Option.some.inj ha
  subst this
  refine ⟨?_, p.le.ids⟩
  intro k id y hy
  obtain ⟨l, hl⟩ := p.le.elements k
  unfold Layer.find at hy ⊢
  cases hf : (s.layers k).elements.find? (·.1 == id) with
  | none => rw [hf] at hy; simp at hy
  | some z =>
    rw [hf] at hy
    rw [hl, find_append_some hf]; exact hy

/-- C03: only what the added primitive references (directly or indirectly) is added or gets an id. -/
theorem add_only {c : Content} {U : List Obj} (hU : Complete c U) {s s' : MapSt} (h : Reachable c U s)
    (x : Handle) (hx : x.obj ∈ U) (ha : add c x s = some s') :
    (∀ k, ∀ e ∈ (s'.layers k).elements, e ∉ (s.layers k).elements → Reach c x.obj e.2.obj) ∧
    (∀ o, s'.ids o ≠ s.ids o → Reach c x.obj o) := by
  obtain ⟨s1, e, p⟩ := add_post c U hU x hx s (reachable_inv hU h).1
  rw [e] at ha
  have := Option.some.inj ha
  subst this
  constructor
  · intro k e he hne
    obtain ⟨y, hy, hr⟩ := p.onlyElems k e he hne
    rw [List.mem_singleton] at hy; subst hy; exact hr
  · intro o ho
    obtain ⟨y, hy, hr⟩ := p.onlyIds o ho
    rw [List.mem_singleton] at hy; subst hy; exact hr

/-- C03: every element is stored in the layer of its kind under its own, valid id; ids below the counter. -/
theorem elements_own_id {c : Content} {U : List Obj} (hU : Complete c U) {s : MapSt} (h : Reachable c U s)
    (k : Kind) (id : Int) (x : Handle) (hx : (s.layers k).find id = some x) :
    x.obj.kind = k ∧ s.ids x.obj = id ∧ id ≠ 0 ∧ id < s.next := by
  obtain ⟨w, st, -⟩ := reachable_inv hU h
  unfold Layer.find at hx
  cases hf : (s.layers k).elements.find? (·.1 == id) with
  | none => rw [hf] at hx; simp at hx
  | some z =>
    rw [hf] at hx
    simp only [Option.map_some, Option.some.injEq] at hx
    have hm := List.mem_of_find?_eq_some hf
    have hz := List.find?_some hf
    simp only [beq_iff_eq] at hz
    subst hx
    subst hz
    exact ⟨w.kind k z hm, (w.key k z hm).symm, w.valid k z hm, st.below k z hm⟩

/-- C03, consequence: an id from `uniqueId` is not in use in any layer. -/
theorem uniqueId_unused {c : Content} {U : List Obj} (hU : Complete c U) {s : MapSt} (h : Reachable c U s)
    (k : Kind) : (s.layers k).exists s.next = false := by
  cases hx : (s.layers k).exists s.next with
  | false => rfl
  | true =>
    unfold Layer.exists at hx
    rw [Bool.and_eq_true, find_isSome_iff] at hx
    obtain ⟨-, y, hy⟩ := hx
    have := (reachable_inv hU h).2.1.below k _ hy
    simp at this

/-! ### C04 -/

/-- C04: exists, find and get agree for valid ids; `get` fails for InvalId and for missing ids. -/
theorem lookups_agree (l : Layer) (id : Int) :
    (l.exists id = true ↔ id ≠ 0 ∧ ∃ x, l.find id = some x) ∧
    (∀ x, l.get id = .ok x ↔ id ≠ 0 ∧ l.find id = some x) ∧
    (l.get id = .error () ↔ l.exists id = false) := by
  unfold Layer.exists Layer.get Layer.find
  cases hf : l.elements.find? (·.1 == id) with
  | none => by_cases h0 : id = 0 <;> simp [h0]
  | some e => by_cases h0 : id = 0 <;> simp [h0]

/-- the layer after a history of adds; ids may differ from call to call -/
def layerHistory (c : Content) (ops : List ((Obj → Int) × Handle)) : Layer :=
  ops.foldl (fun l op => l.add c op.1 op.2) {}

theorem layerHistory_elements (c : Content) (ops : List ((Obj → Int) × Handle)) (l : Layer) :
    (ops.foldl (fun l op => l.add c op.1 op.2) l).elements =
      ops.foldl (fun m op => insertElem (op.1 op.2.obj) op.2 m) l.elements := by
  induction ops generalizing l with
  | nil => rfl
  | cons op ops ih => simp only [List.foldl_cons]; rw [ih]; rfl

theorem find_insertElem (i id : Int) (h : Handle) (l : List (Int × Handle)) :
    (insertElem i h l).find? (·.1 == id) =
      (l.find? (·.1 == id)).or (if i = id then some (i, h) else none) := by
  unfold insertElem
  by_cases hx : (l.find? (·.1 == i)).isSome = true
  · rw [if_pos hx]
    by_cases hi : i = id
    · subst hi
      obtain ⟨e, he⟩ := Option.isSome_iff_exists.mp hx
      rw [he]; rfl
    · simp [hi]
  · rw [if_neg hx, List.find?_append]
    simp only [List.find?_cons, List.find?_nil]
    by_cases hi : i = id
    · simp [hi]
    · have : (i == id) = false := by simpa using hi
      simp [this, hi]

/-- C04: after any history of adds, an id resolves to the first element that was added under this id. -/
theorem find_first (c : Content) (ops : List ((Obj → Int) × Handle)) (id : Int) :
    (layerHistory c ops).find id = (ops.find? fun op => op.1 op.2.obj == id).map (·.2) := by
  unfold layerHistory Layer.find
  rw [layerHistory_elements]
  suffices ∀ m : List (Int × Handle), (ops.foldl (fun m op => insertElem (op.1 op.2.obj) op.2 m) m).find? (·.1 == id) =
      (m.find? (·.1 == id)).or ((ops.find? fun op => op.1 op.2.obj == id).map fun op => (id, op.2)) by
    rw [this]
    cases ops.find? fun op => op.1 op.2.obj == id <;> simp
  induction ops with
  | nil => intro m; simp
  | cons op ops ih =>
    intro m
    simp only [List.foldl_cons]
    rw [ih, find_insertElem, List.find?_cons]
    cases hm : m.find? (·.1 == id) with
    | some e => simp
    | none =>
      by_cases hi : op.1 op.2.obj = id
      · simp [hi]
      · have : (op.1 op.2.obj == id) = false := by simpa using hi
        simp [hi, this]

/-- C04: iterating a layer visits each id once. -/
theorem iteration_once (c : Content) (ops : List ((Obj → Int) × Handle)) :
    ((layerHistory c ops).elements.map (·.1)).Nodup := by
  unfold layerHistory
  rw [layerHistory_elements]
  suffices ∀ m : List (Int × Handle), (m.map (·.1)).Nodup →
      ((ops.foldl (fun m op => insertElem (op.1 op.2.obj) op.2 m) m).map (·.1)).Nodup from this [] (by simp)
  induction ops with
  | nil => intro m hm; exact hm
  | cons op ops ih =>
    intro m hm
    apply ih
    show ((insertElem (op.1 op.2.obj) op.2 m).map (·.1)).Nodup
    unfold insertElem
    split
    · exact hm
    · rename_i hx
      rw [find_isSome_iff] at hx
      rw [List.map_append, List.nodup_append]
      refine ⟨hm, by simp, ?_⟩
      intro a ha b hb hab
      simp only [List.map_cons, List.map_nil, List.mem_singleton] at hb
      simp only [List.mem_map] at ha
      obtain ⟨⟨i, x⟩, hx', rfl⟩ := ha
      simp only at hab
      rw [hb] at hab; subst hab
      exact hx ⟨x, hx'⟩

/-- Case: two elements with the same id, the first one stays. -/
example : (layerHistory exC [(fun _ => 5, Handle.of .point 1), (fun _ => 5, Handle.of .point 2)]).find 5 =
    some (Handle.of .point 1) := by rw [find_first]; rfl

/-! ### C05 -/

/-- C05: `findUsages(x)` returns exactly the elements of the layer that own `x`: linestrings and polygons
containing a point, lanelets and areas with this bound, regulatory elements with this parameter. -/
theorem findUsages_iff {c : Content} {U : List Obj} (hU : Complete c U) {s : MapSt} (h : Reachable c U s)
    (k : Kind) (x y : Handle) :
    y ∈ findUsages c s k x ↔ y ∈ elems s k ∧ x ∈ owned c y ∧ expired c x.obj = false := by
  obtain ⟨w, st, -⟩ := reachable_inv hU h
  unfold findUsages elems
  rw [st.usage k]
  simp only [List.mem_map, List.mem_filter, List.mem_flatMap, Bool.and_eq_true, beq_iff_eq,
    Bool.not_eq_true']
  constructor
  · rintro ⟨u, ⟨⟨e, he, z, hz, rfl⟩, h1, ⟨h2, h3⟩, h4⟩, rfl⟩
    simp only at h2
    subst h2
    exact ⟨⟨e, he, rfl⟩, hz, h4⟩
  · rintro ⟨⟨e, he, rfl⟩, h2, h3⟩
    exact ⟨(hashOf c s.ids x, x, e.2), ⟨⟨e, he, x, h2, rfl⟩, rfl, ⟨rfl, h3⟩, h3⟩, rfl⟩

/-- C05: `findUsages` of a linestring in the lanelet and the area layer, in terms of the bounds: a lanelet that is in the map as it was
created is found for its bounds, each in the direction in which the lanelet has it; a lanelet that was added inverted is found for the
inverted bounds; an area is found for the linestrings of its outer bound and its holes. -/
theorem findUsages_bounds {c : Content} {U : List Obj} (hU : Complete c U) {s : MapSt} (h : Reachable c U s) (l : Nat × Bool) (n : Nat)
    (inv : Bool) :
    ((⟨⟨.lanelet, n⟩, inv⟩ : Handle) ∈ findUsages c s .lanelet (lsHandle l) ↔ (⟨⟨.lanelet, n⟩, inv⟩ : Handle) ∈ elems s .lanelet ∧
      ((c.left n).1 = l.1 ∧ ((c.left n).2 = l.2 ↔ inv = false) ∨ (c.right n).1 = l.1 ∧ ((c.right n).2 = l.2 ↔ inv = false))) ∧
    ((⟨⟨.area, n⟩, inv⟩ : Handle) ∈ findUsages c s .area (lsHandle l) ↔ (⟨⟨.area, n⟩, inv⟩ : Handle) ∈ elems s .area ∧
      (l ∈ c.outer n ∨ ∃ ring ∈ c.inner n, l ∈ ring)) := by
  rw [findUsages_iff hU h, findUsages_iff hU h]
  have he : expired c (lsHandle l).obj = false := rfl
  constructor
  · rw [he]
    simp only [and_true, owned, List.mem_cons, List.not_mem_nil, or_false]
    refine and_congr_right fun _ => ?_
    obtain ⟨a, b⟩ := l
    unfold leftBound rightBound lsHandle invertLs
    rcases hl : c.left n with ⟨l1, l2⟩
    rcases hr : c.right n with ⟨r1, r2⟩
    cases inv <;> cases b <;> cases l2 <;> cases r2 <;> simp [eq_comm, hl, hr] <;> exact or_comm
  · rw [he]
    simp only [and_true, owned, List.mem_append, List.mem_map, List.mem_flatten]
    refine and_congr_right fun _ => ?_
    have hi : ∀ x : Nat × Bool, lsHandle x = lsHandle l ↔ x = l := by
      rintro ⟨a, b⟩
      obtain ⟨c, d⟩ := l
      simp [lsHandle]
    simp [hi]

/-- C05: the same for the lanelets and areas of a regulatory element. -/
theorem findRegUsages_iff {c : Content} {U : List Obj} (hU : Complete c U) {s : MapSt} (h : Reachable c U s)
    (k : Kind) (r : Nat) (y : Handle) :
    y ∈ findRegUsages s k r ↔ y ∈ elems s k ∧ r ∈ regs c y := by
  obtain ⟨w, st, -⟩ := reachable_inv hU h
  unfold findRegUsages elems
  rw [st.regUsage k]
  simp only [List.mem_map, List.mem_filter, List.mem_flatMap, beq_iff_eq]
  constructor
  · rintro ⟨u, ⟨⟨e, he, z, hz, rfl⟩, h1⟩, rfl⟩
    simp only at h1
    subst h1
    exact ⟨⟨e, he, rfl⟩, hz⟩
  · rintro ⟨⟨e, he, rfl⟩, h2⟩
    exact ⟨(r, e.2), ⟨⟨e, he, r, h2, rfl⟩, rfl⟩, rfl⟩

/-- C05: `findUsages` of a regulatory element: the lanelets and the areas of the map that have it among their regulatory elements. -/
theorem findRegUsages_members {c : Content} {U : List Obj} (hU : Complete c U) {s : MapSt} (h : Reachable c U s) (r n : Nat) (inv : Bool) :
    ((⟨⟨.lanelet, n⟩, inv⟩ : Handle) ∈ findRegUsages s .lanelet r ↔ (⟨⟨.lanelet, n⟩, inv⟩ : Handle) ∈ elems s .lanelet ∧ r ∈ c.laneletRegs n) ∧
    ((⟨⟨.area, n⟩, inv⟩ : Handle) ∈ findRegUsages s .area r ↔ (⟨⟨.area, n⟩, inv⟩ : Handle) ∈ elems s .area ∧ r ∈ c.areaRegs n) :=
  ⟨findRegUsages_iff hU h .lanelet r _, findRegUsages_iff hU h .area r _⟩

/-- C06/C07: the search tree holds exactly the elements of the layer whose bounding box is not empty. -/
theorem tree_exact {c : Content} {U : List Obj} (hU : Complete c U) {s : MapSt} (h : Reachable c U s)
    (k : Kind) : (s.layers k).tree = (elems s k).filter fun x => c.hasBox x.obj :=
  (reachable_inv hU h).2.1.tree k

/-- ConstLineString3d::invert -/
def invertH (h : Handle) : Handle := ⟨h.obj, !h.inv⟩

/-- std::unique: drops elements that equal their predecessor. -/
def stdUnique : List Handle → List Handle
  | [] => []
  | [a] => [a]
  | a :: b :: l => if a = b then stdUnique (a :: l) else a :: stdUnique (b :: l)
  termination_by l => l.length

theorem mem_stdUnique (l : List Handle) (x : Handle) : x ∈ stdUnique l ↔ x ∈ l := by
  fun_induction stdUnique l with
  | case1 => simp
  | case2 a => simp
  | case3 a l ih => rw [ih]; simp
  | case4 a b l hab ih => rw [List.mem_cons, ih]; simp

/-- utils::findUsagesInLanelets, findUsagesInAreas: LaneletMap.cpp 793-811. -/
def findUsagesIn (c : Content) (s : MapSt) (k : Kind) (p : Handle) : List Handle :=
  let ls := findUsages c s .lineString p
  stdUnique (ls.flatMap (findUsages c s k) ++ ls.flatMap fun l => findUsages c s k (invertH l))

theorem lsHandle_obj (l : Nat × Bool) : (lsHandle l).obj = ⟨.lineString, l.1⟩ := rfl

/-- C05: the lanelets (areas) found for a point are exactly those with a bound that contains it, provided no
two linestrings share an id. -/
theorem findUsagesIn_iff {c : Content} {U : List Obj} (hU : Complete c U) {s : MapSt} (h : Reachable c U s)
    (hid : ∀ a b : Obj, a.kind = b.kind → s.ids a = s.ids b → s.ids a ≠ 0 → a = b)
    (k : Kind) (hk : k = .lanelet ∨ k = .area) (p : Nat) (y : Handle) :
    y ∈ findUsagesIn c s k (Handle.of .point p) ↔
      y ∈ elems s k ∧ ∃ b ∈ owned c y, p ∈ c.points b.obj.n := by
  have hexp : ∀ n, expired c ⟨.lineString, n⟩ = false := by intro n; rfl
  have hexpp : expired c (Handle.of .point p).obj = false := rfl
  have w := (reachable_inv hU h).1
  have hpt : ∀ l : Handle, l.obj.kind = .lineString →
      (Handle.of .point p ∈ owned c l ↔ p ∈ c.points l.obj.n) := by
    intro l hl
    unfold owned
    rw [hl]
    simp only [List.mem_map, Handle.of]
    constructor
    · rintro ⟨q, hq, h1⟩
      simp only [Handle.mk.injEq, Obj.mk.injEq, true_and, and_true] at h1
      subst h1
      split at hq
      · exact List.mem_reverse.mp hq
      · exact hq
    · intro hq
      refine ⟨p, ?_, rfl⟩
      split
      · exact List.mem_reverse.mpr hq
      · exact hq
  have hkind : ∀ l, l ∈ elems s .lineString → l.obj.kind = .lineString := by
    intro l hl
    simp only [elems, List.mem_map] at hl
    obtain ⟨e, he, rfl⟩ := hl
    exact w.kind _ e he
  unfold findUsagesIn
  simp only [mem_stdUnique, List.mem_append, List.mem_flatMap, findUsages_iff hU h]
  constructor
  · rintro (⟨l, ⟨h1, h2, h3⟩, h4, h5, h6⟩ | ⟨l, ⟨h1, h2, h3⟩, h4, h5, h6⟩)
    · exact ⟨h4, l, h5, (hpt l (hkind l h1)).mp h2⟩
    · exact ⟨h4, invertH l, h5, (hpt l (hkind l h1)).mp h2⟩
  · rintro ⟨h1, b, h2, h3⟩
    have h1' := h1
    simp only [elems, List.mem_map] at h1'
    obtain ⟨e, he, rfl⟩ := h1'
    have hkk := w.kind k e he
    have hbk : b.obj.kind = .lineString ∧ b.obj ∈ refs c s.ids e.2.obj := by
      rcases hk with rfl | rfl
      · obtain ⟨_, ⟨⟨ek, n⟩, inv⟩⟩ := e
        simp only at hkk
        subst hkk
        simp only [owned, List.mem_cons, List.not_mem_nil, or_false] at h2
        simp only [refs, List.mem_append, List.mem_cons, List.not_mem_nil, or_false]
        rcases h2 with rfl | rfl <;> cases inv <;> simp [leftBound, rightBound, lsHandle, invertLs]
      · obtain ⟨_, ⟨⟨ek, n⟩, inv⟩⟩ := e
        simp only at hkk
        subst hkk
        simp only [owned, List.mem_append, List.mem_map] at h2
        simp only [refs, List.mem_append, List.mem_map]
        rcases h2 with ⟨l, hl, rfl⟩ | ⟨l, hl, rfl⟩
        · exact ⟨rfl, Or.inl ⟨l, Or.inl hl, rfl⟩⟩
        · exact ⟨rfl, Or.inl ⟨l, Or.inr hl, rfl⟩⟩
    obtain ⟨x, hx, hxo⟩ := map_self_contained_identity hU h hid he hbk.2
    have hxm : x ∈ elems s .lineString := by
      unfold Layer.find at hx
      rw [hbk.1] at hx
      cases hf : (s.layers .lineString).elements.find? (·.1 == s.ids b.obj) with
      | none => rw [hf] at hx; simp at hx
      | some z =>
        rw [hf] at hx
        simp only [Option.map_some, Option.some.injEq] at hx
        exact List.mem_map.mpr ⟨z, List.mem_of_find?_eq_some hf, hx⟩
    have hpx : Handle.of .point p ∈ owned c x := by
      rw [hpt x (by rw [hxo]; exact hbk.1), hxo]; exact h3
    have hexb : expired c b.obj = false := by
      obtain ⟨⟨bk, bn⟩, bi⟩ := b
      simp only at hbk
      rw [hbk.1]; rfl
    by_cases hinv : x.inv = b.inv
    · left
      have : x = b := by
        obtain ⟨xo, xi⟩ := x; obtain ⟨bo, bi⟩ := b
        simp only at hxo hinv; rw [hxo, hinv]
      exact ⟨x, ⟨hxm, hpx, hexpp⟩, h1, by rw [this]; exact h2, by rw [hxo]; exact hexb⟩
    · right
      have : invertH x = b := by
        obtain ⟨xo, xi⟩ := x; obtain ⟨bo, bi⟩ := b
        simp only at hxo hinv
        subst hxo
        simp only [invertH, Handle.mk.injEq, true_and]
        cases xi <;> cases bi <;> simp_all
      refine ⟨x, ⟨hxm, hpx, hexpp⟩, h1, by rw [this]; exact h2, ?_⟩
      show expired c x.obj = false
      rw [hxo]; exact hexb

/-- Disagreement: for a submap, `findUsages` can return an element that is not in the layer, namely if two
different elements with the same id are added. -/
theorem submap_findUsages_counterexample :
    let s := submapAdd exC ⟨⟨.lineString, 1⟩, false⟩ (submapAdd exC ⟨⟨.lineString, 0⟩, false⟩
      (.empty (fun _ => 7) 1000))
    (⟨⟨.lineString, 1⟩, false⟩ : Handle) ∈ findUsages exC s .lineString (Handle.of .point 2) ∧
      (⟨⟨.lineString, 1⟩, false⟩ : Handle) ∉ elems s .lineString := by
  decide

/-- Disagreement: adding the same linestring twice to a submap makes `findUsages` report it twice. -/
theorem submap_duplicate_usage_counterexample :
    let s := submapAdd exC ⟨⟨.lineString, 0⟩, false⟩ (submapAdd exC ⟨⟨.lineString, 0⟩, false⟩
      (.empty (fun _ => 7) 1000))
    findUsages exC s .lineString (Handle.of .point 0) =
      [⟨⟨.lineString, 0⟩, false⟩, ⟨⟨.lineString, 0⟩, false⟩] ∧ elems s .lineString = [⟨⟨.lineString, 0⟩, false⟩] := by
  decide

/-! ### C08 -/

/-- the ids an element is filed under and the handle, for a history of submap adds -/
def submapHistory (c : Content) (hs : List Handle) (s : MapSt) : MapSt := hs.foldl (fun s h => submapAdd c h s) s

theorem checkId_props (o : Obj) (s : MapSt) (hpos : 0 < s.next) :
    (checkId o s).ids o ≠ 0 ∧ (checkId o s).layers = s.layers ∧ 0 < (checkId o s).next ∧
    ∀ x, s.ids x ≠ 0 → (checkId o s).ids x = s.ids x := by
  unfold checkId
  split
  · rename_i h0
    refine ⟨by simp [setFreshId]; omega, rfl, by simp [setFreshId]; omega, (setFresh_le h0).ids⟩
  · rename_i h0
    refine ⟨h0, rfl, ?_, fun _ _ => rfl⟩
    have := (register_le s (s.ids o)).next
    omega

/-- C08: a submap that was empty in the beginning holds exactly elements that were added explicitly, and every
added element is found under its id (which is valid) unless another one was added under this id before. -/
theorem submap_exact (c : Content) (hs : List Handle) (ids : Obj → Int) (next : Int) (hn : 0 < next) :
    let s := submapHistory c hs (.empty ids next)
    (∀ k, ∀ x ∈ elems s k, x ∈ hs) ∧
    (∀ x ∈ hs, s.ids x.obj ≠ 0 ∧ ∃ y ∈ hs, (s.layers x.obj.kind).find (s.ids x.obj) = some y ∧
      y.obj.kind = x.obj.kind ∧ s.ids y.obj = s.ids x.obj) := by
  have key : ∀ hs (s : MapSt) (hs0 : List Handle), W s → (∀ k, ∀ x ∈ elems s k, x ∈ hs0) →
      (∀ x ∈ hs0, Exists s x.obj) →
      W (submapHistory c hs s) ∧ (∀ k, ∀ x ∈ elems (submapHistory c hs s) k, x ∈ hs0 ++ hs) ∧
      (∀ x ∈ hs0 ++ hs, Exists (submapHistory c hs s) x.obj) := by
    intro hs
    induction hs with
    | nil => intro s hs0 w h1 h2; simpa [submapHistory] using ⟨w, h1, h2⟩
    | cons h hs ih =>
      intro s hs0 w h1 h2
      have hstep : submapHistory c (h :: hs) s = submapHistory c hs (submapAdd c h s) := rfl
      rw [hstep]
      obtain ⟨c1, c2, c3, c4⟩ := checkId_props h.obj s w.pos
      have hle : Le s (checkId h.obj s) := by
        refine ⟨c4, ?_, fun k => ⟨[], by rw [c2]; simp⟩⟩
        unfold checkId
        split
        · simp only [setFreshId]; omega
        · exact (register_le s _).next
      have w1 : W (checkId h.obj s) := by
        unfold checkId
        split
        · rename_i h0; exact setFresh_w h0 w
        · exact register_w _ w
      have := ih (submapAdd c h s) (hs0 ++ [h]) (layerAdd_w c1 w1) (by
          intro k x hx
          simp only [elems, List.mem_map] at hx
          obtain ⟨e, he, rfl⟩ := hx
          rcases layerAdd_mem he with h3 | h3
          · rw [c2] at h3
            exact List.mem_append_left _ (h1 k _ (List.mem_map.mpr ⟨e, h3, rfl⟩))
          · rw [h3]; simp) (by
          intro x hx
          rcases List.mem_append.mp hx with hx | hx
          · exact (layerAdd_le c _ h).exists (hle.exists (h2 x hx))
          · rw [List.mem_singleton] at hx; subst hx; exact layerAdd_exists c1)
      simpa using this
  have w0 : W (MapSt.empty ids next) := by
    refine ⟨hn, ?_, ?_, ?_⟩ <;> intro k <;> simp [MapSt.empty]
  obtain ⟨w, k1, k2⟩ := key hs (.empty ids next) [] w0 (by intro k; simp [elems, MapSt.empty]) (by simp)
  simp only [List.nil_append] at k1 k2
  refine ⟨k1, ?_⟩
  intro x hx
  obtain ⟨h0, y, hy⟩ := (exists_iff _ _).mp (k2 x hx)
  refine ⟨h0, ?_⟩
  have hsm := (find_isSome_iff _ _).mpr ⟨y, hy⟩
  obtain ⟨z, hz⟩ := Option.isSome_iff_exists.mp hsm
  have hm := List.mem_of_find?_eq_some hz
  have hzk := List.find?_some hz
  simp only [beq_iff_eq] at hzk
  exact ⟨z.2, k1 _ _ (List.mem_map.mpr ⟨z, hm, rfl⟩), by simp [Layer.find, hz], w.kind _ z hm,
    by rw [← w.key _ z hm, hzk]⟩

theorem mem_toMap (ids : Obj → Int) (hs : List Handle) :
    (∀ e ∈ toMap ids hs, e.2 ∈ hs ∧ e.1 = ids e.2.obj) ∧ (∀ h ∈ hs, ∃ h', (ids h.obj, h') ∈ toMap ids hs) := by
  unfold toMap
  suffices ∀ (m : List (Int × Handle)) (hs0 : List Handle),
      (∀ e ∈ m, e.2 ∈ hs0 ∧ e.1 = ids e.2.obj) → (∀ h ∈ hs0, ∃ h', (ids h.obj, h') ∈ m) →
      (∀ e ∈ hs.foldl (fun l h => insertElem (ids h.obj) h l) m, e.2 ∈ hs0 ++ hs ∧ e.1 = ids e.2.obj) ∧
      (∀ h ∈ hs0 ++ hs, ∃ h', (ids h.obj, h') ∈ hs.foldl (fun l h => insertElem (ids h.obj) h l) m) by
    simpa using this [] [] (by simp) (by simp)
  induction hs with
  | nil => intro m hs0 h1 h2; simpa using ⟨fun a b hab => h1 (a, b) hab, h2⟩
  | cons h hs ih =>
    intro m hs0 h1 h2
    have := ih (insertElem (ids h.obj) h m) (hs0 ++ [h]) (by
        intro e he
        rcases (mem_insertElem ..).mp he with h3 | h3
        · exact ⟨List.mem_append_left _ (h1 e h3).1, (h1 e h3).2⟩
        · rw [h3.1]; simp) (by
        intro x hx
        rcases List.mem_append.mp hx with hx | hx
        · obtain ⟨y, hy⟩ := h2 x hx
          exact ⟨y, (mem_insertElem ..).mpr (Or.inl hy)⟩
        · rw [List.mem_singleton] at hx; subst hx; exact insertElem_has _ _ _)
    simpa using this

/-- the layers built by createMap -/
theorem createLayers_props (c : Content) (lls ars : List Handle) (s : MapSt) :
    (createLayers c lls ars s).ids = s.ids ∧ s.next ≤ (createLayers c lls ars s).next ∧
    ∀ k, ((createLayers c lls ars s).layers k).elements = match k with
      | .lanelet => toMap s.ids lls
      | .area => toMap s.ids ars
      | .lineString => toMap s.ids (collectLs c s.ids lls ars)
      | .point => toMap s.ids ((collectLs c s.ids lls ars).flatMap (pointsOf c))
      | _ => [] := by
  unfold createLayers
  simp only
  generalize hs0 : ({ s with layers := _ } : MapSt) = s0
  have hreg : ∀ l : List Handle, ∀ t : MapSt, (l.foldl (fun s h => registerId (s.ids h.obj) s) t).ids = t.ids ∧
      (l.foldl (fun s h => registerId (s.ids h.obj) s) t).layers = t.layers ∧
      t.next ≤ (l.foldl (fun s h => registerId (s.ids h.obj) s) t).next := by
    intro l
    induction l with
    | nil => intro t; exact ⟨rfl, rfl, Int.le_refl _⟩
    | cons a l ih =>
      intro t
      obtain ⟨i1, i2, i3⟩ := ih (registerId (t.ids a.obj) t)
      simp only [List.foldl_cons]
      refine ⟨by rw [i1]; rfl, by rw [i2]; rfl, ?_⟩
      have := (register_le t (t.ids a.obj)).next
      omega
  obtain ⟨r1, r2, r3⟩ := hreg ars s0
  rw [r1, r2]
  refine ⟨by rw [← hs0], by rw [← hs0] at r3 ⊢; exact r3, ?_⟩
  intro k
  rw [← hs0]
  cases k <;> rfl

/-- `createMap` adds the regulatory elements to the layers that it built. -/
theorem createMap_post (c : Content) (U : List Obj) (hU : Complete c U) (lls ars : List Handle) (s : MapSt)
    (hn : 0 < s.next) (hids : ∀ o ∈ U, s.ids o ≠ 0)
    (hl : ∀ h ∈ lls, h.obj.kind = .lanelet ∧ h.obj ∈ U) (ha : ∀ h ∈ ars, h.obj.kind = .area ∧ h.obj ∈ U) :
    ∃ s', createMap c lls ars s = some s' ∧ W s' ∧ SelfContained c s' ∧ (∀ o, s.ids o ≠ 0 → s'.ids o = s.ids o) ∧
      (∀ h ∈ lls ++ ars, Exists s' h.obj) ∧
      Post c ((lls.flatMap (fun h => c.laneletRegs h.obj.n) ++ ars.flatMap fun h => c.areaRegs h.obj.n).map (Handle.of .regElem))
        (createLayers c lls ars s) s' := by
  obtain ⟨c1, c2, c3⟩ := createLayers_props c lls ars s
  generalize hg : createLayers c lls ars s = s0 at c1 c2 c3
  -- linestrings and points
  have hls : ∀ l ∈ collectLs c s.ids lls ars, l.obj.kind = .lineString ∧ l.obj ∈ U := by
    intro l hl'
    simp only [collectLs, List.mem_append, List.mem_flatMap] at hl'
    rcases hl' with ⟨h, hh, h1⟩ | ⟨h, hh, h1⟩
    · obtain ⟨hk, hu⟩ := hl h hh
      have hlink : l.obj ∈ links c h.obj := by
        rcases h1 with h1 | h1
        · apply pre1_links (h := h)
          simp only [pre1, owned, hk]; exact h1
        · apply pre2_links (ids := s.ids) (h := h)
          simp only [pre2, hk]; exact h1
      refine ⟨?_, hU _ hu _ hlink⟩
      rcases h1 with h1 | h1
      · simp only [List.mem_cons, List.not_mem_nil, or_false] at h1
        rcases h1 with rfl | rfl <;> rfl
      · simp only [customCenter] at h1
        split at h1
        · simp at h1
        · split at h1
          · simp at h1
          · simp only [List.mem_singleton] at h1; subst h1; rfl
    · obtain ⟨hk, hu⟩ := ha h hh
      have hlink : l.obj ∈ links c h.obj := by
        apply pre1_links (h := h)
        simp only [pre1, owned, hk, List.mem_append]; exact h1
      refine ⟨?_, hU _ hu _ hlink⟩
      simp only [List.mem_map] at h1
      rcases h1 with ⟨x, -, rfl⟩ | ⟨x, -, rfl⟩ <;> rfl
  have hpts : ∀ p ∈ (collectLs c s.ids lls ars).flatMap (pointsOf c), p.obj.kind = .point ∧ p.obj ∈ U := by
    intro p hp
    simp only [List.mem_flatMap] at hp
    obtain ⟨l, hl', h1⟩ := hp
    obtain ⟨hk, hu⟩ := hls l hl'
    have : p.obj ∈ links c l.obj := by
      apply pre1_links (h := l)
      simp only [pre1, owned, hk]; exact h1
    refine ⟨?_, hU _ hu _ this⟩
    simp only [pointsOf, List.mem_map] at h1
    obtain ⟨x, -, rfl⟩ := h1
    rfl
  have hW : W s0 := by
    refine ⟨by omega, ?_, ?_, ?_⟩
    all_goals
      intro k e he
      rw [c3] at he
    · cases k <;> simp only [List.not_mem_nil] at he
      · exact (hpts _ ((mem_toMap _ _).1 e he).1).1
      · exact (hls _ ((mem_toMap _ _).1 e he).1).1
      · exact (hl _ ((mem_toMap _ _).1 e he).1).1
      · exact (ha _ ((mem_toMap _ _).1 e he).1).1
    · rw [c1]
      cases k <;> simp only [List.not_mem_nil] at he <;> exact ((mem_toMap _ _).1 e he).2
    · cases k <;> simp only [List.not_mem_nil] at he <;> rw [((mem_toMap _ _).1 e he).2]
      · exact hids _ (hpts _ ((mem_toMap _ _).1 e he).1).2
      · exact hids _ (hls _ ((mem_toMap _ _).1 e he).1).2
      · exact hids _ (hl _ ((mem_toMap _ _).1 e he).1).2
      · exact hids _ (ha _ ((mem_toMap _ _).1 e he).1).2
  have hex : ∀ (hs : List Handle) (k : Kind), (s0.layers k).elements = toMap s.ids hs →
      ∀ h ∈ hs, h.obj.kind = k → h.obj ∈ U → Exists s0 h.obj := by
    intro hs k he h hh hk hu
    rw [exists_iff, c1]
    refine ⟨hids _ hu, ?_⟩
    rw [hk, he]
    exact (mem_toMap s.ids hs).2 h hh
  have exLs : ∀ l ∈ collectLs c s.ids lls ars, Exists s0 l.obj := fun l hl' =>
    hex _ .lineString (c3 .lineString) l hl' (hls l hl').1 (hls l hl').2
  have exPt : ∀ l ∈ (collectLs c s.ids lls ars).flatMap (pointsOf c), Exists s0 l.obj := fun l hl' =>
    hex _ .point (c3 .point) l hl' (hpts l hl').1 (hpts l hl').2
  let rs := (lls.flatMap (fun h => c.laneletRegs h.obj.n) ++ ars.flatMap fun h => c.areaRegs h.obj.n)
  let rh := rs.map (Handle.of .regElem)
  have hrU : ∀ r ∈ rh, r.obj ∈ U := by
    intro r hr
    simp only [rh, rs, List.mem_map, List.mem_append, List.mem_flatMap] at hr
    obtain ⟨n, (⟨h, hh, hn'⟩ | ⟨h, hh, hn'⟩), rfl⟩ := hr
    · obtain ⟨hk, hu⟩ := hl h hh
      apply hU _ hu
      apply post_links (h := h) (l := Handle.of .regElem n)
      simp only [post, hk, List.mem_map]; exact ⟨n, hn', rfl⟩
    · obtain ⟨hk, hu⟩ := ha h hh
      apply hU _ hu
      apply post_links (h := h) (l := Handle.of .regElem n)
      simp only [post, hk, List.mem_map]; exact ⟨n, hn', rfl⟩
  have hclosed : ClosedQ c (fun o => ∃ r ∈ rh, o = r.obj) s0 := by
    intro k e he o ho
    rw [c3] at he
    cases k <;> simp only [List.not_mem_nil] at he
    · -- points
      have hm := ((mem_toMap _ _).1 e he).1
      have hk := (hpts _ hm).1
      simp only [refs, hk, List.not_mem_nil] at ho
    · -- linestrings
      have hm := ((mem_toMap _ _).1 e he).1
      have hk := (hls _ hm).1
      simp only [refs, hk, List.mem_map] at ho
      obtain ⟨p, hp, rfl⟩ := ho
      left
      apply exPt (Handle.of .point p)
      simp only [List.mem_flatMap, pointsOf, List.mem_map]
      refine ⟨e.2, hm, p, ?_, rfl⟩
      split
      · exact List.mem_reverse.mpr hp
      · exact hp
    · -- lanelets
      have hm := ((mem_toMap _ _).1 e he).1
      have hk := (hl _ hm).1
      rw [c1] at ho
      rcases refs_cases c s.ids e.2 ho with ⟨l, h1, rfl⟩ | ⟨l, h1, rfl⟩ | ⟨l, h1, rfl⟩
      · left
        apply exLs
        simp only [pre1, owned, hk] at h1
        simp only [collectLs, List.mem_append, List.mem_flatMap]
        exact Or.inl ⟨e.2, hm, Or.inl h1⟩
      · left
        apply exLs
        simp only [pre2, hk] at h1
        simp only [collectLs, List.mem_append, List.mem_flatMap]
        exact Or.inl ⟨e.2, hm, Or.inr h1⟩
      · right
        refine ⟨l, ?_, rfl⟩
        simp only [post, hk, List.mem_map] at h1
        obtain ⟨n, hn', rfl⟩ := h1
        simp only [rh, rs, List.mem_map, List.mem_append, List.mem_flatMap]
        exact ⟨n, Or.inl ⟨e.2, hm, hn'⟩, rfl⟩
    · -- areas
      have hm := ((mem_toMap _ _).1 e he).1
      have hk := (ha _ hm).1
      rw [c1] at ho
      rcases refs_cases c s.ids e.2 ho with ⟨l, h1, rfl⟩ | ⟨l, h1, rfl⟩ | ⟨l, h1, rfl⟩
      · left
        apply exLs
        simp only [pre1, owned, hk] at h1
        simp only [collectLs, List.mem_append, List.mem_flatMap]
        refine Or.inr ⟨e.2, hm, ?_⟩
        simpa using h1
      · simp only [pre2, hk, List.not_mem_nil] at h1
      · right
        refine ⟨l, ?_, rfl⟩
        simp only [post, hk, List.mem_map] at h1
        obtain ⟨n, hn', rfl⟩ := h1
        simp only [rh, rs, List.mem_map, List.mem_append, List.mem_flatMap]
        exact ⟨n, Or.inr ⟨e.2, hm, hn'⟩, rfl⟩
  obtain ⟨s', e, p⟩ := addAll_post c U hU rh hrU s0 hW
  refine ⟨s', ?_, p.w, ?_, ?_, ?_, hg.symm ▸ p⟩
  · unfold createMap
    rw [hg, ← foldlM_map' (fun s l => add c l s) (Handle.of .regElem)]
    exact e
  · intro k e' he o ho
    rcases p.cl _ hclosed k e' he o ho with h1 | ⟨r, hr, rfl⟩
    · exact h1
    · exact p.ex r hr
  · intro o ho
    rw [p.le.ids o (by rw [c1]; exact ho), c1]
  · intro h hh
    apply p.le.exists
    rcases List.mem_append.mp hh with hh | hh
    · exact hex _ .lanelet (c3 .lanelet) h hh (hl h hh).1 (hl h hh).2
    · exact hex _ .area (c3 .area) h hh (ha h hh).1 (ha h hh).2

/-- C02/C08: `createMap` yields a self-contained map with all given lanelets and areas, if all objects have
valid ids. -/
theorem createMap_spec (c : Content) (U : List Obj) (hU : Complete c U) (lls ars : List Handle) (s : MapSt)
    (hn : 0 < s.next) (hids : ∀ o ∈ U, s.ids o ≠ 0)
    (hl : ∀ h ∈ lls, h.obj.kind = .lanelet ∧ h.obj ∈ U) (ha : ∀ h ∈ ars, h.obj.kind = .area ∧ h.obj ∈ U) :
    ∃ s', createMap c lls ars s = some s' ∧ W s' ∧ SelfContained c s' ∧ (∀ o, s.ids o ≠ 0 → s'.ids o = s.ids o) ∧
      (∀ h ∈ lls ++ ars, Exists s' h.obj) := by
  obtain ⟨s', h1, h2, h3, h4, h5, -⟩ := createMap_post c U hU lls ars s hn hids hl ha
  exact ⟨s', h1, h2, h3, h4, h5⟩

/-- C08, with the restriction that all objects involved have valid ids: `laneletMap()` of a submap is
self-contained and contains all elements of the submap. What is missing is the case that a referenced object
has no id yet, for which the claim is false (`submapToMap_counterexample`). -/
theorem submapToMap_partial (c : Content) (U : List Obj) (hU : Complete c U) (s : MapSt) (w : W s)
    (hids : ∀ o ∈ U, s.ids o ≠ 0) (hmem : ∀ k, ∀ h ∈ elems s k, h.obj ∈ U) :
    ∃ m, submapToMap c s = some m ∧ SelfContained c m ∧ ∀ k, ∀ h ∈ elems s k, Exists m h.obj := by
  have hkind : ∀ k, ∀ h ∈ elems s k, h.obj.kind = k := by
    intro k h hh
    simp only [elems, List.mem_map] at hh
    obtain ⟨e, he, rfl⟩ := hh
    exact w.kind k e he
  obtain ⟨m0, e0, w0, cl0, -, ex0⟩ := createMap_spec c U hU (elems s .lanelet) (elems s .area) s w.pos hids
    (fun h hh => ⟨hkind _ h hh, hmem _ h hh⟩) (fun h hh => ⟨hkind _ h hh, hmem _ h hh⟩)
  obtain ⟨m1, e1, p1⟩ := addAll_post c U hU (elems s .regElem) (hmem .regElem) m0 w0
  obtain ⟨m2, e2, p2⟩ := addAll_post c U hU (elems s .polygon) (hmem .polygon) m1 p1.w
  obtain ⟨m3, e3, p3⟩ := addAll_post c U hU (elems s .lineString) (hmem .lineString) m2 p2.w
  obtain ⟨m4, e4, p4⟩ := addAll_post c U hU (elems s .point) (hmem .point) m3 p3.w
  refine ⟨m4, ?_, ?_, ?_⟩
  · unfold submapToMap
    rw [e0]
    show (addAll c (elems s .regElem) m0).bind _ = _
    rw [e1]
    show (addAll c (elems s .polygon) m1).bind _ = _
    rw [e2]
    show (addAll c (elems s .lineString) m2).bind _ = _
    rw [e3]
    exact e4
  · exact closed_false_iff.mp (p4.cl _ (p3.cl _ (p2.cl _ (p1.cl _ (closed_false_iff.mpr cl0)))))
  · intro k h hh
    cases k
    · exact p4.ex h hh
    · exact p4.le.exists (p3.ex h hh)
    · exact p4.le.exists (p3.le.exists (p2.ex h hh))
    · exact p4.le.exists (p3.le.exists (p2.le.exists (p1.le.exists (ex0 h (List.mem_append_left _ hh)))))
    · exact p4.le.exists (p3.le.exists (p2.le.exists (p1.le.exists (ex0 h (List.mem_append_right _ hh)))))
    · exact p4.le.exists (p3.le.exists (p2.le.exists (p1.ex h hh)))

/-- The example without regulatory elements. -/
def exC2 : Content := { exC with laneletRegs := fun _ => [] }

/-- Disagreement with C08: if the bounds of a lanelet of the submap have no id yet, the bounds (all filed under
InvalId) are not in the map that `laneletMap()` creates. -/
theorem submapToMap_counterexample :
    ∃ m, submapToMap exC2 (submapAdd exC2 ⟨⟨.lanelet, 0⟩, false⟩ (.empty (fun _ => 0) 1000)) = some m ∧
      ¬ SelfContained exC2 m := by
  refine ⟨createLayers exC2 [⟨⟨.lanelet, 0⟩, false⟩] []
    (submapAdd exC2 ⟨⟨.lanelet, 0⟩, false⟩ (.empty (fun _ => 0) 1000)), rfl, ?_⟩
  intro h
  have := h .lanelet (1000, ⟨⟨.lanelet, 0⟩, false⟩) (by decide) ⟨.lineString, 0⟩ (by decide)
  revert this
  unfold Exists
  decide

/-- Case for `submapToMap_partial`: the same submap with valid ids. -/
example : ∃ m, submapToMap exC (submapAdd exC ⟨⟨.lanelet, 0⟩, false⟩ (.empty (fun o => o.n + 1) 1000)) = some m ∧
    SelfContained exC m ∧ Exists m ⟨.lanelet, 0⟩ := by
  obtain ⟨m, h1, h2, h3⟩ := submapToMap_partial exC exU exU_complete
    (submapAdd exC ⟨⟨.lanelet, 0⟩, false⟩ (.empty (fun o => o.n + 1) 1000))
    (by
      apply layerAdd_w
      · decide
      · have : W (MapSt.empty (fun o => (o.n : Int) + 1) 1000) := by
          refine ⟨by decide, ?_, ?_, ?_⟩ <;> intro k <;> simp [MapSt.empty]
        exact register_w _ this)
    (by
      intro o _
      show ((o.n : Int) + 1) ≠ 0
      omega)
    (by
      have : ∀ k, ∀ h ∈ elems (submapAdd exC ⟨⟨.lanelet, 0⟩, false⟩ (.empty (fun o => o.n + 1) 1000)) k,
          h.obj ∈ exU := by
        intro k; cases k <;> decide
      exact this)
  exact ⟨m, h1, h2, h3 .lanelet ⟨⟨.lanelet, 0⟩, false⟩ (by decide)⟩

/-- Disagreement with the documentation of `uniqueId` ("id is guaranteed not to be used within this layer"):
createMap does not register the ids of its elements. -/
theorem uniqueId_after_createMap_counterexample :
    let s := createLayers exC2 [⟨⟨.lanelet, 0⟩, false⟩] [] (.empty (fun o => o.n + 1000) 1000)
    createMap exC2 [⟨⟨.lanelet, 0⟩, false⟩] [] (.empty (fun o => o.n + 1000) 1000) = some s ∧
      (s.layers .lanelet).exists s.next = true := by
  refine ⟨rfl, by decide⟩

end Verif.LMap
