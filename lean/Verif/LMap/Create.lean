import Verif.LMap.Props
import Mathlib.Data.List.Nodup

/-!
C76: maps and submaps that are created from lists of primitives, `utils::createMap` and `utils::createSubmap`, LaneletMap.cpp 813-934.
-/
namespace Verif.LMap

/-! ### model -/

/-- LaneletMap::LaneletMap and LaneletSubmap::LaneletSubmap from maps of ids (LaneletMap.cpp 557-566), for the kinds whose layers do not
register their ids: polygons, linestrings and points. Layers of `s` are ignored. -/
def createFrom (c : Content) (polygons lineStrings points : List Handle) (s : MapSt) : MapSt :=
  { s with
    layers := fun k => match k with
      | .polygon => Layer.ofMap c s.ids (toMap s.ids polygons)
      | .lineString => Layer.ofMap c s.ids (toMap s.ids lineStrings)
      | .point => Layer.ofMap c s.ids (toMap s.ids points)
      | _ => {} }

/-- createMap(Points3d), LaneletMap.cpp 813-816; also createSubmap(Points3d), 893-896 -/
def createMapPoints (c : Content) (ps : List Handle) (s : MapSt) : MapSt := createFrom c [] [] ps s

/-- createMap(LineStrings3d), LaneletMap.cpp 818-822 -/
def createMapLineStrings (c : Content) (ls : List Handle) (s : MapSt) : MapSt := createFrom c [] ls (ls.flatMap (owned c)) s

/-- createMap(Polygons3d), LaneletMap.cpp 869-873 -/
def createMapPolygons (c : Content) (pgs : List Handle) (s : MapSt) : MapSt := createFrom c pgs [] (pgs.flatMap (owned c)) s

/-- createSubmap(LineStrings3d), LaneletMap.cpp 898-901 -/
def createSubmapLineStrings (c : Content) (ls : List Handle) (s : MapSt) : MapSt := createFrom c [] ls [] s

/-- createSubmap(Polygons3d), LaneletMap.cpp 903-906 -/
def createSubmapPolygons (c : Content) (pgs : List Handle) (s : MapSt) : MapSt := createFrom c pgs [] [] s

/-- createSubmap(Lanelets, Areas), LaneletMap.cpp 912-922; createConstSubmap (924-934) is the same. trackParameters only keeps the parameters of
the regulatory elements alive. Only the layer of areas registers its ids (349). -/
def createSubmap (c : Content) (lls ars : List Handle) (s : MapSt) : MapSt :=
  let layers := fun k => match k with
    | .lanelet => Layer.ofMap c s.ids (toMap s.ids lls)
    | .area => Layer.ofMap c s.ids (toMap s.ids ars)
    | _ => {}
  ars.foldl (fun s h => registerId (s.ids h.obj) s) { s with layers := layers }

/-! ### specification -/

/-- Specification. A layer of a map holds the given primitives: an id is resolved to the first one of them with this id, every element is one of
them, and an element is only reported as user of what it owns. -/
structure Holds (c : Content) (s : MapSt) (k : Kind) (hs : List Handle) : Prop where
  find : ∀ i, (s.layers k).find i = hs.find? fun h => s.ids h.obj == i
  elems : ∀ h, h ∈ elems s k ↔ hs.find? (fun x => s.ids x.obj == s.ids h.obj) = some h
  once : ((s.layers k).elements.map (·.1)).Nodup
  usages : ∀ x y, y ∈ findUsages c s k x ↔ y ∈ LMap.elems s k ∧ x ∈ owned c y ∧ expired c x.obj = false
  regUsages : ∀ r y, y ∈ findRegUsages s k r ↔ y ∈ LMap.elems s k ∧ r ∈ regs c y
  tree : (s.layers k).tree = (LMap.elems s k).filter fun x => c.hasBox x.obj

/-! ### lemmas -/

theorem find_toMap (ids : Obj → Int) (hs : List Handle) (i : Int) :
    (toMap ids hs).find? (·.1 == i) = (hs.find? fun h => ids h.obj == i).map fun h => (i, h) := by
  unfold toMap
  suffices ∀ m : List (Int × Handle), (hs.foldl (fun l h => insertElem (ids h.obj) h l) m).find? (·.1 == i) =
      (m.find? (·.1 == i)).or ((hs.find? fun h => ids h.obj == i).map fun h => (i, h)) by
    simpa using this []
  induction hs with
  | nil => intro m; simp
  | cons h hs ih =>
    intro m
    simp only [List.foldl_cons]
    rw [ih, find_insertElem, List.find?_cons]
    cases hm : m.find? (·.1 == i) with
    | some e => simp
    | none =>
      by_cases hi : ids h.obj = i
      · simp [hi]
      · have : (ids h.obj == i) = false := by simpa using hi
        simp [hi, this]

theorem toMap_nodup (ids : Obj → Int) (hs : List Handle) : ((toMap ids hs).map (·.1)).Nodup := by
  have := iteration_once ⟨fun _ => [], fun _ => [], fun _ => (0, false), fun _ => (0, false), fun _ => none, fun _ => [], fun _ => [], fun _ => [],
    fun _ => [], fun _ => [], fun _ => true, fun _ => true⟩ (hs.map fun h => (ids, h))
  unfold layerHistory at this
  rw [layerHistory_elements, List.foldl_map] at this
  exact this

theorem findUsages_of (c : Content) (s : MapSt) (k : Kind)
    (hu : (s.layers k).usage = (s.layers k).elements.flatMap fun e => (owned c e.2).map fun x => (hashOf c s.ids x, x, e.2)) (x y : Handle) :
    y ∈ findUsages c s k x ↔ y ∈ elems s k ∧ x ∈ owned c y ∧ expired c x.obj = false := by
  unfold findUsages elems
  rw [hu]
  simp only [List.mem_map, List.mem_filter, List.mem_flatMap, Bool.and_eq_true, beq_iff_eq, Bool.not_eq_true']
  constructor
  · rintro ⟨u, ⟨⟨e, he, z, hz, rfl⟩, h1, ⟨h2, h3⟩, h4⟩, rfl⟩
    simp only at h2
    subst h2
    exact ⟨⟨e, he, rfl⟩, hz, h4⟩
  · rintro ⟨⟨e, he, rfl⟩, h2, h3⟩
    exact ⟨(hashOf c s.ids x, x, e.2), ⟨⟨e, he, x, h2, rfl⟩, rfl, ⟨rfl, h3⟩, h3⟩, rfl⟩

theorem findRegUsages_of (c : Content) (s : MapSt) (k : Kind)
    (hu : (s.layers k).regUsage = (s.layers k).elements.flatMap fun e => (regs c e.2).map fun r => (r, e.2)) (r : Nat) (y : Handle) :
    y ∈ findRegUsages s k r ↔ y ∈ elems s k ∧ r ∈ regs c y := by
  unfold findRegUsages elems
  rw [hu]
  simp only [List.mem_map, List.mem_filter, List.mem_flatMap, beq_iff_eq]
  constructor
  · rintro ⟨u, ⟨⟨e, he, z, hz, rfl⟩, h1⟩, rfl⟩
    simp only at h1
    subst h1
    exact ⟨⟨e, he, rfl⟩, hz⟩
  · rintro ⟨⟨e, he, rfl⟩, h2⟩
    exact ⟨(r, e.2), ⟨⟨e, he, r, h2, rfl⟩, rfl⟩, rfl⟩

theorem elems_toMap (ids : Obj → Int) (hs : List Handle) (h : Handle) :
    h ∈ (toMap ids hs).map (·.2) ↔ hs.find? (fun x => ids x.obj == ids h.obj) = some h := by
  have hf := find_toMap ids hs (ids h.obj)
  constructor
  · intro hm
    obtain ⟨e, he, rfl⟩ := List.mem_map.mp hm
    have hk := ((mem_toMap ids hs).1 e he).2
    have hsome : ((toMap ids hs).find? (·.1 == ids e.2.obj)).isSome = true := (find_isSome_iff _ _).mpr ⟨e.2, by rw [← hk]; exact he⟩
    obtain ⟨z, hz⟩ := Option.isSome_iff_exists.mp hsome
    rw [hz] at hf
    cases hq : hs.find? (fun x => ids x.obj == ids e.2.obj) with
    | none => rw [hq] at hf; simp at hf
    | some w =>
      rw [hq] at hf
      simp only [Option.map_some, Option.some.injEq] at hf
      -- ids are unique in the map
      have hzm := List.mem_of_find?_eq_some hz
      have hez : e = z := by
        have hnd := toMap_nodup ids hs
        have h1 : e.1 = z.1 := by rw [hf, hk]
        exact List.inj_on_of_nodup_map hnd he hzm h1
      rw [hez, hf]
  · intro hq
    rw [hq] at hf
    exact List.mem_map.mpr ⟨(ids h.obj, h), List.mem_of_find?_eq_some hf, rfl⟩

theorem holds_of (c : Content) (s : MapSt) (k : Kind) (hs : List Handle) (h : s.layers k = Layer.ofMap c s.ids (toMap s.ids hs)) : Holds c s k hs where
  find i := by
    rw [h]
    unfold Layer.find Layer.ofMap
    simp only
    rw [find_toMap]
    cases hs.find? (fun h => s.ids h.obj == i) <;> rfl
  elems x := by
    unfold elems
    rw [h]
    exact elems_toMap s.ids hs x
  once := by rw [h]; exact toMap_nodup _ _
  usages x y := findUsages_of c s k (by rw [h]; rfl) x y
  regUsages r y := findRegUsages_of c s k (by rw [h]; rfl) r y
  tree := by unfold LMap.elems; rw [h]; rfl

theorem holds_empty (c : Content) (s : MapSt) (k : Kind) (h : s.layers k = {}) : Holds c s k [] :=
  holds_of c s k [] (by rw [h]; rfl)

theorem find_some_of_mem {ids : Obj → Int} {hs : List Handle} {h : Handle} (hh : h ∈ hs) : ∃ y, hs.find? (fun x => ids x.obj == ids h.obj) = some y := by
  cases hf : hs.find? (fun x => ids x.obj == ids h.obj) with
  | some y => exact ⟨y, rfl⟩
  | none =>
    have := List.find?_eq_none.mp hf h hh
    simp at this

theorem Holds.exists {c : Content} {s : MapSt} {k : Kind} {hs : List Handle} (H : Holds c s k hs) {h : Handle} (hh : h ∈ hs) (hk : h.obj.kind = k)
    (h0 : s.ids h.obj ≠ 0) : Exists s h.obj := by
  obtain ⟨y, hy⟩ := find_some_of_mem (ids := s.ids) hh
  unfold Exists
  rw [hk]
  exact ((lookups_agree _ _).1).mpr ⟨h0, y, by rw [H.find]; exact hy⟩

theorem createFrom_holds (c : Content) (pgs ls ps : List Handle) (s : MapSt) :
    let m := createFrom c pgs ls ps s
    m.ids = s.ids ∧ m.next = s.next ∧ Holds c m .polygon pgs ∧ Holds c m .lineString ls ∧ Holds c m .point ps ∧ Holds c m .lanelet [] ∧
      Holds c m .area [] ∧ Holds c m .regElem [] := by
  refine ⟨rfl, rfl, ?_, ?_, ?_, ?_, ?_, ?_⟩
  · exact holds_of _ _ _ _ rfl
  · exact holds_of _ _ _ _ rfl
  · exact holds_of _ _ _ _ rfl
  · exact holds_empty _ _ _ rfl
  · exact holds_empty _ _ _ rfl
  · exact holds_empty _ _ _ rfl

theorem refs_owned (c : Content) (ids : Obj → Int) {h : Handle} (hk : h.obj.kind = .lineString ∨ h.obj.kind = .polygon) :
    ∀ o ∈ refs c ids h.obj, ∃ p ∈ owned c h, p.obj = o ∧ o.kind = .point := by
  intro o ho
  rcases hk with hk | hk <;> simp only [refs, hk, List.mem_map] at ho <;> obtain ⟨p, hp, rfl⟩ := ho <;>
    refine ⟨Handle.of .point p, ?_, rfl, rfl⟩ <;> simp only [owned, hk, List.mem_map]
  · refine ⟨p, ?_, rfl⟩
    split
    · exact List.mem_reverse.mpr hp
    · exact hp
  · exact ⟨p, hp, rfl⟩

theorem createFrom_selfContained (c : Content) (pgs ls ps : List Handle) (s : MapSt)
    (hp : ∀ h ∈ pgs, h.obj.kind = .polygon ∧ ∀ p ∈ owned c h, p ∈ ps ∧ s.ids p.obj ≠ 0)
    (hl : ∀ h ∈ ls, h.obj.kind = .lineString ∧ ∀ p ∈ owned c h, p ∈ ps ∧ s.ids p.obj ≠ 0) (hq : ∀ h ∈ ps, h.obj.kind = .point) :
    SelfContained c (createFrom c pgs ls ps s) := by
  obtain ⟨-, -, -, -, H, -⟩ := createFrom_holds c pgs ls ps s
  intro k e he o ho
  have fin : ∀ hs : List Handle, (∀ h ∈ hs, (h.obj.kind = .lineString ∨ h.obj.kind = .polygon) ∧ ∀ p ∈ owned c h, p ∈ ps ∧ s.ids p.obj ≠ 0) →
      e.2 ∈ hs → Exists (createFrom c pgs ls ps s) o := by
    intro hs hhs hm
    obtain ⟨p, hpo, rfl, hk⟩ := refs_owned c _ (hhs _ hm).1 o ho
    exact H.exists ((hhs _ hm).2 p hpo).1 hk ((hhs _ hm).2 p hpo).2
  cases k with
  | point =>
    have hm : e.2 ∈ ps := ((mem_toMap s.ids ps).1 e he).1
    simp only [refs, hq _ hm, List.not_mem_nil] at ho
  | lineString =>
    exact fin ls (fun h hh => ⟨Or.inl (hl h hh).1, (hl h hh).2⟩) ((mem_toMap s.ids ls).1 e he).1
  | polygon =>
    exact fin pgs (fun h hh => ⟨Or.inr (hp h hh).1, (hp h hh).2⟩) ((mem_toMap s.ids pgs).1 e he).1
  | lanelet => exact absurd he (List.not_mem_nil)
  | area => exact absurd he (List.not_mem_nil)
  | regElem => exact absurd he (List.not_mem_nil)

theorem owned_kind (c : Content) {h : Handle} (hk : h.obj.kind = .lineString ∨ h.obj.kind = .polygon) : ∀ p ∈ owned c h, p.obj.kind = .point := by
  intro p hp
  rcases hk with hk | hk <;> simp only [owned, hk, List.mem_map] at hp <;> obtain ⟨q, _, rfl⟩ := hp <;> rfl

/-! ### C76 -/

/-- C76: a map or submap from points has exactly these points, the first of each id, and nothing else. No ids change. -/
theorem createMapPoints_spec (c : Content) (ps : List Handle) (s : MapSt) :
    let m := createMapPoints c ps s
    m.ids = s.ids ∧ Holds c m .point ps ∧ ∀ k, k ≠ .point → Holds c m k [] := by
  obtain ⟨h1, -, h3, h4, h5, h6, h7, h8⟩ := createFrom_holds c [] [] ps s
  refine ⟨h1, h5, ?_⟩
  intro k hk
  cases k <;> first | exact absurd rfl hk | assumption

/-- C76: a map from linestrings has exactly these linestrings and their points, the first of each id, and nothing else. If they have valid ids, the
map has all points of its linestrings. -/
theorem createMapLineStrings_spec (c : Content) (ls : List Handle) (s : MapSt) (hk : ∀ h ∈ ls, h.obj.kind = .lineString) :
    let m := createMapLineStrings c ls s
    m.ids = s.ids ∧ Holds c m .lineString ls ∧ Holds c m .point (ls.flatMap (owned c)) ∧ (∀ k, k ≠ .point → k ≠ .lineString → Holds c m k []) ∧
      ((∀ h ∈ ls, ∀ p ∈ owned c h, s.ids p.obj ≠ 0) → SelfContained c m) := by
  obtain ⟨h1, -, h3, h4, h5, h6, h7, h8⟩ := createFrom_holds c [] ls (ls.flatMap (owned c)) s
  refine ⟨h1, h4, h5, ?_, ?_⟩
  · intro k h1 h2
    cases k <;> first | exact absurd rfl h1 | exact absurd rfl h2 | assumption
  · intro hv
    refine createFrom_selfContained c [] ls _ s (by simp) (fun h hh => ⟨hk h hh, fun p hp => ⟨List.mem_flatMap.mpr ⟨h, hh, hp⟩, hv h hh p hp⟩⟩) ?_
    intro p hp
    obtain ⟨h, hh, hp⟩ := List.mem_flatMap.mp hp
    exact owned_kind c (Or.inl (hk h hh)) p hp

/-- C76: the same for polygons. -/
theorem createMapPolygons_spec (c : Content) (pgs : List Handle) (s : MapSt) (hk : ∀ h ∈ pgs, h.obj.kind = .polygon) :
    let m := createMapPolygons c pgs s
    m.ids = s.ids ∧ Holds c m .polygon pgs ∧ Holds c m .point (pgs.flatMap (owned c)) ∧ (∀ k, k ≠ .point → k ≠ .polygon → Holds c m k []) ∧
      ((∀ h ∈ pgs, ∀ p ∈ owned c h, s.ids p.obj ≠ 0) → SelfContained c m) := by
  obtain ⟨h1, -, h3, h4, h5, h6, h7, h8⟩ := createFrom_holds c pgs [] (pgs.flatMap (owned c)) s
  refine ⟨h1, h3, h5, ?_, ?_⟩
  · intro k h1 h2
    cases k <;> first | exact absurd rfl h1 | exact absurd rfl h2 | assumption
  · intro hv
    refine createFrom_selfContained c pgs [] _ s (fun h hh => ⟨hk h hh, fun p hp => ⟨List.mem_flatMap.mpr ⟨h, hh, hp⟩, hv h hh p hp⟩⟩) (by simp) ?_
    intro p hp
    obtain ⟨h, hh, hp⟩ := List.mem_flatMap.mp hp
    exact owned_kind c (Or.inr (hk h hh)) p hp

/-- C76: a submap from linestrings or from polygons has exactly these and no points. -/
theorem createSubmapLineStrings_spec (c : Content) (hs : List Handle) (s : MapSt) :
    (let m := createSubmapLineStrings c hs s
     m.ids = s.ids ∧ Holds c m .lineString hs ∧ ∀ k, k ≠ .lineString → Holds c m k []) ∧
    (let m := createSubmapPolygons c hs s
     m.ids = s.ids ∧ Holds c m .polygon hs ∧ ∀ k, k ≠ .polygon → Holds c m k []) := by
  constructor
  · obtain ⟨h1, -, h3, h4, h5, h6, h7, h8⟩ := createFrom_holds c [] hs [] s
    refine ⟨h1, h4, ?_⟩
    intro k hk
    cases k <;> first | exact absurd rfl hk | assumption
  · obtain ⟨h1, -, h3, h4, h5, h6, h7, h8⟩ := createFrom_holds c hs [] [] s
    refine ⟨h1, h3, ?_⟩
    intro k hk
    cases k <;> first | exact absurd rfl hk | assumption

theorem foldl_register (l : List Handle) (t : MapSt) : (l.foldl (fun s h => registerId (s.ids h.obj) s) t).ids = t.ids ∧
    (l.foldl (fun s h => registerId (s.ids h.obj) s) t).layers = t.layers ∧ t.next ≤ (l.foldl (fun s h => registerId (s.ids h.obj) s) t).next ∧
    ∀ h ∈ l, t.ids h.obj < (l.foldl (fun s h => registerId (s.ids h.obj) s) t).next := by
  induction l generalizing t with
  | nil => exact ⟨rfl, rfl, Int.le_refl _, by simp⟩
  | cons a l ih =>
    obtain ⟨i1, i2, i3, i4⟩ := ih (registerId (t.ids a.obj) t)
    simp only [List.foldl_cons]
    have h1 := (register_le t (t.ids a.obj)).next
    refine ⟨by rw [i1]; rfl, by rw [i2]; rfl, by omega, ?_⟩
    intro h hh
    rcases List.mem_cons.mp hh with rfl | hh
    · have : t.ids h.obj < (registerId (t.ids h.obj) t).next := by
        unfold registerId
        simp only
        split <;> omega
      omega
    · exact i4 h hh

/-- C76: a submap from lanelets and areas has exactly these, none of their bounds and none of their regulatory elements. No ids change, and ids of
the areas are not given again. -/
theorem createSubmap_spec (c : Content) (lls ars : List Handle) (s : MapSt) :
    let m := createSubmap c lls ars s
    m.ids = s.ids ∧ Holds c m .lanelet lls ∧ Holds c m .area ars ∧ (∀ k, k ≠ .lanelet → k ≠ .area → Holds c m k []) ∧
      s.next ≤ m.next ∧ ∀ h ∈ ars, s.ids h.obj < m.next := by
  intro m
  obtain ⟨r1, r2, r3, r4⟩ := foldl_register ars { s with layers := fun k => match k with
    | .lanelet => Layer.ofMap c s.ids (toMap s.ids lls)
    | .area => Layer.ofMap c s.ids (toMap s.ids ars)
    | _ => {} }
  have e1 : m.ids = s.ids := r1
  have hl : ∀ k, m.layers k = match k with
    | .lanelet => Layer.ofMap c s.ids (toMap s.ids lls)
    | .area => Layer.ofMap c s.ids (toMap s.ids ars)
    | _ => {} := fun k => congrFun r2 k
  refine ⟨e1, holds_of _ _ _ _ (by rw [hl, e1]), holds_of _ _ _ _ (by rw [hl, e1]), ?_, r3, r4⟩
  intro k h1 h2
  cases k <;> first | exact absurd rfl h1 | exact absurd rfl h2 | exact holds_empty _ _ _ (hl _)

/-- C76: a map from lanelets and areas has, besides them, only what they reference directly or indirectly. If the ids are below those that are
given next, usages are reported exactly. -/
theorem createMap_exact (c : Content) (U : List Obj) (hU : Complete c U) (lls ars : List Handle) (s : MapSt) (hn : 0 < s.next)
    (hids : ∀ o ∈ U, s.ids o ≠ 0) (hl : ∀ h ∈ lls, h.obj.kind = .lanelet ∧ h.obj ∈ U) (ha : ∀ h ∈ ars, h.obj.kind = .area ∧ h.obj ∈ U) :
    ∃ m, createMap c lls ars s = some m ∧ SelfContained c m ∧ (∀ h ∈ lls ++ ars, Exists m h.obj) ∧
      (∀ k, ∀ x ∈ elems m k, x.obj.kind = k ∧ ∃ h ∈ lls ++ ars, Reach c h.obj x.obj) ∧ (∀ o ∈ U, m.ids o = s.ids o) ∧
      ((∀ o ∈ U, s.ids o < s.next) → ∀ k, (∀ x y, y ∈ findUsages c m k x ↔ y ∈ elems m k ∧ x ∈ owned c y ∧ expired c x.obj = false) ∧
        (∀ r y, y ∈ findRegUsages m k r ↔ y ∈ elems m k ∧ r ∈ regs c y) ∧ (m.layers k).tree = (elems m k).filter fun x => c.hasBox x.obj) := by
  obtain ⟨m, hm, w, sc, hi, hex, p⟩ := createMap_post c U hU lls ars s hn hids hl ha
  obtain ⟨c1, c2, c3⟩ := createLayers_props c lls ars s
  have reachU : ∀ {a b : Obj}, Reach c a b → a ∈ U → b ∈ U := by
    intro a b hr hau
    induction hr with
    | refl => exact hau
    | step _ hx ih => exact hU _ ih _ hx
  have hcol : ∀ l ∈ collectLs c s.ids lls ars, l.obj.kind = .lineString ∧ ∃ h ∈ lls ++ ars, l.obj ∈ links c h.obj := by
    intro l hl'
    simp only [collectLs, List.mem_append, List.mem_flatMap] at hl'
    rcases hl' with ⟨h, hh, h1⟩ | ⟨h, hh, h1⟩
    · obtain ⟨hk, hu⟩ := hl h hh
      refine ⟨?_, h, List.mem_append_left _ hh, ?_⟩
      · rcases h1 with h1 | h1
        · simp only [List.mem_cons, List.not_mem_nil, or_false] at h1
          rcases h1 with rfl | rfl <;> rfl
        · simp only [customCenter] at h1
          split at h1
          · simp at h1
          · split at h1
            · simp at h1
            · simp only [List.mem_singleton] at h1; subst h1; rfl
      · rcases h1 with h1 | h1
        · apply pre1_links (h := h)
          simp only [pre1, owned, hk]; exact h1
        · apply pre2_links (ids := s.ids) (h := h)
          simp only [pre2, hk]; exact h1
    · obtain ⟨hk, hu⟩ := ha h hh
      refine ⟨?_, h, List.mem_append_right _ hh, ?_⟩
      · simp only [List.mem_map] at h1
        rcases h1 with ⟨x, -, rfl⟩ | ⟨x, -, rfl⟩ <;> rfl
      · apply pre1_links (h := h)
        simp only [pre1, owned, hk, List.mem_append]; exact h1
  have hpt : ∀ q ∈ (collectLs c s.ids lls ars).flatMap (pointsOf c), q.obj.kind = .point ∧ ∃ h ∈ lls ++ ars, Reach c h.obj q.obj := by
    intro q hq
    obtain ⟨l, hl', h1⟩ := List.mem_flatMap.mp hq
    obtain ⟨hk, h, hh, hlk⟩ := hcol l hl'
    have : q.obj ∈ links c l.obj := by
      apply pre1_links (h := l)
      simp only [pre1, owned, hk]; exact h1
    refine ⟨?_, h, hh, .step (.step .refl hlk) this⟩
    simp only [pointsOf, List.mem_map] at h1
    obtain ⟨x, -, rfl⟩ := h1
    rfl
  -- the layers before the regulatory elements are added
  have hreach0 : ∀ k, ∀ e ∈ ((createLayers c lls ars s).layers k).elements, ∃ h ∈ lls ++ ars, Reach c h.obj e.2.obj := by
    intro k e he
    rw [c3] at he
    cases k <;> simp only [List.not_mem_nil] at he <;> have hme := ((mem_toMap _ _).1 e he).1
    · exact (hpt _ hme).2
    · obtain ⟨-, h, hh, hlk⟩ := hcol _ hme
      exact ⟨h, hh, .step .refl hlk⟩
    · exact ⟨e.2, List.mem_append_left _ hme, .refl⟩
    · exact ⟨e.2, List.mem_append_right _ hme, .refl⟩
  have hinU : ∀ h ∈ lls ++ ars, h.obj ∈ U := by
    intro h hh
    rcases List.mem_append.mp hh with hh | hh
    · exact (hl h hh).2
    · exact (ha h hh).2
  refine ⟨m, hm, sc, hex, ?_, fun o ho => hi o (hids o ho), ?_⟩
  · intro k x hx
    obtain ⟨e, he, rfl⟩ := List.mem_map.mp hx
    refine ⟨w.kind k e he, ?_⟩
    by_cases h0 : e ∈ ((createLayers c lls ars s).layers k).elements
    · exact hreach0 k e h0
    · obtain ⟨r, hr, hrr⟩ := p.onlyElems k e he h0
      simp only [List.mem_map, List.mem_append, List.mem_flatMap] at hr
      obtain ⟨n, hn', rfl⟩ := hr
      rcases hn' with ⟨h, hh, hn'⟩ | ⟨h, hh, hn'⟩
      · refine ⟨h, List.mem_append_left _ hh, .head ?_ hrr⟩
        apply post_links (h := h) (l := Handle.of .regElem n)
        simp only [post, (hl h hh).1, List.mem_map]; exact ⟨n, hn', rfl⟩
      · refine ⟨h, List.mem_append_right _ hh, .head ?_ hrr⟩
        apply post_links (h := h) (l := Handle.of .regElem n)
        simp only [post, (ha h hh).1, List.mem_map]; exact ⟨n, hn', rfl⟩
  · intro hb
    have hlay : ∀ k, (createLayers c lls ars s).layers k = match k with
        | .lanelet => Layer.ofMap c s.ids (toMap s.ids lls)
        | .area => Layer.ofMap c s.ids (toMap s.ids ars)
        | .lineString => Layer.ofMap c s.ids (toMap s.ids (collectLs c s.ids lls ars))
        | .point => Layer.ofMap c s.ids (toMap s.ids ((collectLs c s.ids lls ars).flatMap (pointsOf c)))
        | _ => {} := by
      intro k
      unfold createLayers
      simp only
      rw [(foldl_register ars _).2.1]
      cases k <;> rfl
    have hst : Strong c (createLayers c lls ars s) := by
      refine ⟨?_, ?_, ?_, ?_, ?_, ?_⟩
      · intro k e he
        obtain ⟨h, hh, hr⟩ := hreach0 k e he
        have h1 := hb _ (reachU hr (hinU h hh))
        have hk : e.1 = s.ids e.2.obj := by
          rw [c3] at he
          cases k <;> simp only [List.not_mem_nil] at he <;> exact ((mem_toMap _ _).1 e he).2
        rw [hk]; omega
      · intro k
        rw [c3]
        cases k <;> first | exact toMap_nodup _ _ | exact List.nodup_nil
      · intro k
        rw [hlay, c1]
        cases k <;> rfl
      · intro k
        rw [hlay]
        cases k <;> rfl
      · intro k
        rw [hlay]
        cases k <;> rfl
      · intro k e he x hx
        left
        rw [c1]
        obtain ⟨h, hh, hr⟩ := hreach0 k e he
        apply hids
        refine hU _ (reachU hr (hinU h hh)) _ ?_
        rw [c3] at he
        apply pre1_links (h := e.2)
        cases k <;> simp only [List.not_mem_nil] at he <;> have hme := ((mem_toMap _ _).1 e he).1
        · simp only [owned, (hpt _ hme).1, List.not_mem_nil] at hx
        · simp only [pre1, (hcol _ hme).1]; exact hx
        · simp only [pre1, (hl _ hme).1]; exact hx
        · simp only [pre1, (ha _ hme).1]; exact hx
    have hs' := p.strong hst
    intro k
    exact ⟨findUsages_of c m k (hs'.usage k), findRegUsages_of c m k (hs'.regUsage k), hs'.tree k⟩

/-- Disagreement with C76: of several points that have no id yet, a map that is created from them keeps one, which is not found under its id. -/
theorem createMap_without_ids_counterexample :
    let m := createMapPoints exC [Handle.of .point 0, Handle.of .point 1] (.empty (fun _ => 0) 1000)
    elems m .point = [Handle.of .point 0] ∧ ¬ Exists m ⟨.point, 0⟩ ∧ ¬ Exists m ⟨.point, 1⟩ := by
  unfold Exists
  decide

/-- Disagreement with C76: the ids of a created map can be given again, also to an element that is added to this map. -/
theorem createMap_ids_counterexample :
    let m := createMapPoints exC [Handle.of .point 0] (.empty (fun o => if o.n = 0 then 1000 else 0) 1000)
    ∃ m', add exC (Handle.of .point 1) m = some m' ∧ m'.ids ⟨.point, 0⟩ = m'.ids ⟨.point, 1⟩ ∧ (Handle.of .point 1) ∉ elems m' .point := by
  refine ⟨_, add_eq .. |>.trans rfl, by decide, by decide⟩

/-- Case: two linestrings that share a point, and a second one with the id of the first. -/
example : elems (createMapLineStrings exC [⟨⟨.lineString, 0⟩, true⟩, ⟨⟨.lineString, 1⟩, false⟩, ⟨⟨.lineString, 0⟩, false⟩] (.empty (fun o => o.n + 1) 1000)) .lineString
    = [⟨⟨.lineString, 0⟩, true⟩, ⟨⟨.lineString, 1⟩, false⟩] := by decide

/-- Case for `createMap_exact`. -/
example : ∃ m, createMap exC [⟨⟨.lanelet, 0⟩, false⟩] [] (.empty (fun o => o.n + 1) 1000) = some m ∧ SelfContained exC m := by
  obtain ⟨m, h1, h2, -⟩ := createMap_exact exC exU exU_complete [⟨⟨.lanelet, 0⟩, false⟩] [] (.empty (fun o => o.n + 1) 1000) (by decide)
    (by intro o _; show ((o.n : Int) + 1) ≠ 0; omega) (by decide) (by simp)
  exact ⟨m, h1, h2⟩

end Verif.LMap
