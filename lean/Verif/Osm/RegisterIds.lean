import Verif.Ids.Props
import Verif.LMap.Props
import Verif.Osm.LoadProps

/-!
C37: ids after loading a map. Model of OsmParser::parse (lanelet2_io/src/OsmHandlerLoad.cpp 403-445) and of the id counter in
binary files (lanelet2_io/src/BinHandler.cpp 21-45).

Not modelled: the XML parser and its errors (the document is given), the locale warning, the text of errors.
-/
namespace Verif.Osm
open Verif.Ids
variable {P D : Type}

/-! ### model -/

/-- `map.rbegin()->first` of a std::map: the greatest key; OsmHandlerLoad.cpp 404-408 -/
def maxKey {V : Type} (m : AMap Id V) : Option Id :=
  m.foldl (fun a e => match a with
    | none => some e.1
    | some k => some (if k < e.1 then e.1 else k)) none

/-- registerIds, OsmHandlerLoad.cpp 403-408: the calls of utils::registerId -/
def registerIds {V : Type} (m : AMap Id V) : List Id := (maxKey m).toList

/-- the calls of utils::registerId while a file is parsed, in order: the constructor of the area layer registers each of its ids
(LaneletMap.cpp 345-352, called by FromFileLoader::loadMap), then OsmHandlerLoad.cpp 434-436 -/
def registrations (file : File D) (m : LMap P) : List Id :=
  m.areas.map (·.1) ++ (registerIds file.nodes ++ registerIds file.ways ++ registerIds file.relations)

/-- The result of OsmHandlerLoad.cpp 441-446 with the ids that are registered. -/
structure Parsed (P : Type) where
  map : LMap P
  readErrors : List ReadError
  loadErrors : List LoadError
  /-- ids that have been registered -/
  registered : List Id

/-- OsmParser::parse, OsmHandlerLoad.cpp 422-439 -/
def parse (zero : D) (num : String → D) (front : Nat → Nat → Bool) (env : Env P D) (doc : Doc) : Option (Parsed P) := do
  let (file, readErrs) ← read zero num front doc
  let (m, loadErrs) ← loadMap env file
  return ⟨m, readErrs, loadErrs, registrations file m⟩

/-- the counter after the registrations, if no other thread interferes; LaneletMap.cpp 885-891 -/
def counterAfter (c : Int) (registered : List Id) : Int := registered.foldl registerIdSeq c

/-- a binary file: the map and the counter; BinHandler.cpp 21-44 -/
structure BinFile (P : Type) where
  map : LMap P
  idCounter : Int

/-- BinWriter::write, BinHandler.cpp 21-30, without the format: the file, and the counter of the process afterwards -/
def binWrite (c : Int) (m : LMap P) : BinFile P × Int := (⟨m, (getIdSeq c).1⟩, (getIdSeq c).2)

/-- BinParser::parse, BinHandler.cpp 32-44: the map and the ids that have been registered (by the constructor of the area layer,
then line 43) -/
def binParse (f : BinFile P) : LMap P × List Id := (f.map, f.map.areas.map (·.1) ++ [f.idCounter])

/-! ### specification -/

/-- the ids of a parameter; Specification. -/
def Param.ids : Param → List Id
  | .point r | .line r | .poly r | .lanelet r | .area r => [r.id]
  | .expired => []

/-- all ids in a map: of the elements of the layers and of everything they refer to, also of what has been made up; Specification. -/
def LMap.ids (m : LMap P) : List Id :=
  (m.points.flatMap fun e => [e.1, e.2.id]) ++
  (m.lines.flatMap fun e => e.1 :: e.2.id :: e.2.pts.map (·.id)) ++
  (m.polys.flatMap fun e => e.1 :: e.2.id :: e.2.pts.map (·.id)) ++
  (m.lanelets.flatMap fun e => e.1 :: e.2.id :: e.2.left.id :: e.2.right.id :: (e.2.center.toList ++ e.2.regs).map (·.id)) ++
  (m.areas.flatMap fun e => e.1 :: e.2.id :: (e.2.outer ++ e.2.inner.flatten ++ e.2.regs).map (·.id)) ++
  (m.regs.flatMap fun e => e.1 :: e.2.id :: (paramsOf e.2).flatMap Param.ids)

/-- all ids in a file; Specification. -/
def File.ids (f : File D) : List Id := f.nodes.map (·.1) ++ f.ways.map (·.1) ++ f.relations.map (·.1)

/-! ### proofs -/

theorem maxKey_le {V : Type} (m : AMap Id V) : ∀ i ∈ m.map (·.1), ∃ k, maxKey m = some k ∧ i ≤ k := by
  have key : ∀ (l : AMap Id V) (a : Option Id), (∀ i, (a = some i ∨ i ∈ l.map (·.1)) → ∃ k,
      (l.foldl (fun a e => match a with
        | none => some e.1
        | some k => some (if k < e.1 then e.1 else k)) a) = some k ∧ i ≤ k) := by
    intro l
    induction l with
    | nil => intro a i h; simp at h; exact ⟨i, h, Int.le_refl _⟩
    | cons e l ih =>
      intro a i h
      rw [List.foldl_cons]
      rcases h with h | h
      · subst h
        obtain ⟨k, h1, h2⟩ := ih (some (if i < e.1 then e.1 else i)) (if i < e.1 then e.1 else i) (.inl rfl)
        refine ⟨k, h1, Int.le_trans ?_ h2⟩
        split
        · rename_i hc; exact Int.le_of_lt hc
        · exact Int.le_refl _
      · rw [List.map_cons, List.mem_cons] at h
        rcases h with h | h
        · subst h
          cases a with
          | none => exact ih _ e.1 (.inl rfl)
          | some c =>
            obtain ⟨k, h1, h2⟩ := ih (some (if c < e.1 then e.1 else c)) (if c < e.1 then e.1 else c) (.inl rfl)
            refine ⟨k, h1, Int.le_trans ?_ h2⟩
            split
            · exact Int.le_refl _
            · rename_i hc; exact Int.not_lt.mp hc
        · exact ih _ i (.inr h)
  intro i hi
  exact key m none i (.inr hi)

theorem registerIds_le {V : Type} (m : AMap Id V) {i : Id} (hi : i ∈ m.map (·.1)) : ∃ k ∈ registerIds m, i ≤ k := by
  obtain ⟨k, h1, h2⟩ := maxKey_le m i hi
  exact ⟨k, by simp [registerIds, h1], h2⟩

theorem registrations_le (file : File D) (m : LMap P) {i : Id} (hi : i ∈ file.ids) : ∃ k ∈ registrations file m, i ≤ k := by
  unfold File.ids at hi
  simp only [List.mem_append] at hi
  rcases hi with (hi | hi) | hi <;> obtain ⟨k, hk, h⟩ := registerIds_le _ hi <;>
    exact ⟨k, by simp only [registrations, List.mem_append]; tauto, h⟩

theorem counterAfter_mono (l : List Id) : ∀ c, c ≤ counterAfter c l := by
  induction l with
  | nil => intro c; exact Int.le_refl _
  | cons x l ih =>
    intro c
    refine Int.le_trans ?_ (ih _)
    unfold registerIdSeq
    split <;> omega

theorem counterAfter_gt (l : List Id) : ∀ c, ∀ x ∈ l, x < counterAfter c l := by
  induction l with
  | nil => intro c x hx; cases hx
  | cons y l ih =>
    intro c x hx
    rcases List.mem_cons.mp hx with rfl | hx
    · refine Int.lt_of_lt_of_le ?_ (counterAfter_mono l _)
      unfold registerIdSeq
      split <;> omega
    · exact ih _ x hx

/-- everything that is referred to is in the file; Specification. -/
structure RefsIn (file : File D) : Prop where
  ways : ∀ e ∈ file.ways, ∀ n ∈ e.2.nodes, n ∈ file.ids
  members : ∀ e ∈ file.relations, ∀ x ∈ e.2.members.items, ∀ t, x.2 = some t → t.id ∈ file.ids

theorem getOrDummy_id {V : Type} (layer : AMap Id V) (i c : Id) : (getOrDummy layer i c).1.id = i := by
  unfold getOrDummy
  split <;> rfl

theorem roleMembers_mem {role : String} {r : Relation} {t : Target} (h : t ∈ roleMembers role r) :
    ∃ x ∈ r.members.items, x.2 = some t := by
  obtain ⟨x, hx, h1⟩ := List.mem_filterMap.mp h
  refine ⟨x, hx, ?_⟩
  split at h1
  · exact h1
  · cases h1

theorem relation_id_mem {file : File D} {e : Id × Relation} (he : e ∈ file.relations) : e.1 ∈ file.ids := by
  simp only [File.ids, List.mem_append, List.mem_map]
  exact .inr ⟨e, he, rfl⟩

theorem way_id_mem {file : File D} {e : Id × Way} (he : e ∈ file.ways) : e.1 ∈ file.ids := by
  simp only [File.ids, List.mem_append, List.mem_map]
  exact .inl (.inr ⟨e, he, rfl⟩)

theorem node_id_mem {file : File D} {e : Id × Node D} (he : e ∈ file.nodes) : e.1 ∈ file.ids := by
  simp only [File.ids, List.mem_append, List.mem_map]
  exact .inl (.inl ⟨e, he, rfl⟩)

theorem borderOf_id {file : File D} (hf : RefsIn file) {e : Id × Relation} (he : e ∈ file.relations) (hk : e.2.id = e.1)
    (lines : AMap Id MLine) (role : String) : (borderOf lines e.2 role).1.id ∈ file.ids := by
  have h0 : e.2.id ∈ file.ids := hk ▸ relation_id_mem he
  unfold borderOf
  split
  · rename_i i hr
    rw [getOrDummy_id]
    obtain ⟨x, hx, h1⟩ := roleMembers_mem (role := role) (r := e.2) (t := .way i) (by rw [hr]; simp)
    exact hf.members e he x hx _ h1
  · exact h0
  · exact h0

theorem ringsOf_ids (env : Env P D) (points : AMap Id (MPoint P)) {ls : List MLine} (h : ∀ l ∈ ls, l.pts ≠ [])
    {r : List Line} (hr : r ∈ (ringsOf env points ls).1) {l : Line} (hl : l ∈ r) : ∃ x ∈ ls, x.id = l.id := by
  have hp : ∀ l ∈ ls.map MLine.toLine, l.pts ≠ [] := by
    intro l hl
    obtain ⟨x, hx, rfl⟩ := List.mem_map.mp hl
    have := h x hx
    simpa [MLine.toLine] using this
  obtain ⟨rings, errs, unused, h1, -, h2, -⟩ := assembleBoundary_spec_partial (ringValid env points) (ls.map MLine.toLine) hp
  have e := assembleBoundary_eq env points h
  rw [h1] at e
  rw [← Option.some.inj e] at hr
  have hm : base l ∈ (ls.map MLine.toLine).map base :=
    h2.subset (List.mem_append_left _ (List.mem_map.mpr ⟨l, List.mem_flatten.mpr ⟨r, hr, hl⟩, rfl⟩))
  obtain ⟨y, hy, hb⟩ := List.mem_map.mp hm
  obtain ⟨x, hx, rfl⟩ := List.mem_map.mp hy
  exact ⟨x, hx, congrArg Prod.fst hb⟩

theorem roleLines_ids {file : File D} {lines : AMap Id MLine} (hl : ∀ e ∈ lines, e.2.id = e.1 ∧ e.1 ∈ file.ids)
    (r : Relation) (role : String) : ∀ l ∈ roleLines lines r role, l.id ∈ file.ids := by
  intro l h
  obtain ⟨t, _, ht⟩ := List.mem_filterMap.mp h
  cases t with
  | way i =>
    obtain ⟨h1, h2⟩ := hl _ (AMap.mem_of_get ht)
    simp only at h1 h2
    rw [h1]; exact h2
  | node i => cases ht
  | relation i => cases ht

theorem paramOf_ids {file : File D} (s : Layers P) (reg : Id) {t : Target} (ht : t.id ∈ file.ids) {p : Param}
    (hp : (paramOf s reg t).1 = some p) : ∀ i ∈ p.ids, i ∈ file.ids := by
  unfold paramOf at hp
  cases t with
  | node i =>
    simp only [getParam, Option.getD_some, Option.some.injEq] at hp
    subst hp
    simp only [Param.ids, getOrDummy_id, List.mem_singleton]
    rintro j rfl; exact ht
  | way i =>
    simp only [getParam] at hp
    split at hp <;>
    · simp only [Option.getD_some, Option.some.injEq] at hp
      subst hp
      simp only [Param.ids, getOrDummy_id, List.mem_singleton]
      rintro j rfl; exact ht
  | relation i =>
    simp only [getParam] at hp
    cases hg : s.relations.get i with
    | none => rw [hg] at hp; cases hp
    | some m =>
      rw [hg] at hp
      simp only [Option.bind_eq_bind, Option.bind_some] at hp
      cases ha : m.attrs.get "type" with
      | none => rw [ha] at hp; cases hp
      | some type =>
        rw [ha] at hp
        simp only at hp
        split at hp
        · simp only [Option.pure_def, Option.getD_some, Option.some.injEq] at hp
          subst hp
          split
          · simp [Param.ids]
          · simp only [Param.ids, getOrDummy_id, List.mem_singleton]
            rintro j rfl; exact ht
        · split at hp
          · simp only [Option.pure_def, Option.getD_some, Option.some.injEq] at hp
            subst hp
            split
            · simp [Param.ids]
            · simp only [Param.ids, getOrDummy_id, List.mem_singleton]
              rintro j rfl; exact ht
          · split at hp <;> cases hp

theorem mem_paramsOf_group {l : List (String × Param)} {i : Id} {attrs : Attrs} {p : Param}
    (h : p ∈ paramsOf ⟨i, attrs, groupParams l⟩) : ∃ role, (role, p) ∈ l := by
  simp only [paramsOf, List.mem_flatMap] at h
  obtain ⟨e, he, hp⟩ := h
  have hg := AMap.get_of_mem (nodup_groupParams l) he
  rw [get_groupParams] at hg
  unfold nonEmpty at hg
  split at hg
  · cases hg
  · rw [← Option.some.inj hg] at hp
    obtain ⟨x, hx, h1⟩ := List.mem_filterMap.mp hp
    split at h1
    · obtain rfl := Option.some.inj h1
      exact ⟨x.1, hx⟩
    · cases h1

/-- every id of a loaded map is an id of the file -/
theorem load_ids (env : Env P D) (hreg : RegistryOk env) {file : File D} (h : FileOk file) (hf : RefsIn file) {m : LMap P}
    {errs : List LoadError} (hm : loadMap env file = some (m, errs)) : ∀ i ∈ m.ids, i ∈ file.ids := by
  obtain ⟨ls, as, h1, hk1, hk2, h4, h5⟩ := loadMap_eq env h
  rw [h1] at hm
  obtain ⟨rfl, -⟩ := Prod.mk.inj (Option.some.inj hm)
  have hlines : ∀ e ∈ linesOf env file, e.2.id = e.1 ∧ e.1 ∈ file.ids := by
    intro e he
    obtain ⟨w, hw, h2⟩ := List.mem_filterMap.mp he
    obtain ⟨l, hl, rfl⟩ := Option.map_eq_some_iff.mp h2
    unfold loadedLine at hl
    split at hl
    · obtain rfl := Option.some.inj hl
      exact ⟨h.ways.key w hw, way_id_mem hw⟩
    · cases hl
  have hpts : ∀ w ∈ file.ways, ∀ r ∈ pointRefs (pointsOf env file).1 w.2, r.id ∈ file.ids := by
    intro w hw r hr
    obtain ⟨n, hn, rfl⟩ := List.mem_map.mp hr
    rw [getOrDummy_id]
    exact hf.ways w hw n hn
  have hregs : ∀ e ∈ file.relations, ∀ r ∈ regRefs (regsOf env file).1 e.2, r.id ∈ file.ids := by
    intro e he r hr
    obtain ⟨t, ht, rfl⟩ := List.mem_map.mp hr
    rw [getOrDummy_id]
    obtain ⟨x, hx, h2⟩ := roleMembers_mem ht
    exact hf.members e he x hx t h2
  intro i hi
  simp only [LMap.ids, List.mem_append, List.mem_flatMap] at hi
  rcases hi with ((((⟨e, he, hi⟩ | ⟨e, he, hi⟩) | ⟨e, he, hi⟩) | ⟨e, he, hi⟩) | ⟨e, he, hi⟩) | ⟨e, he, hi⟩
  · obtain ⟨n, hn, h2⟩ := List.mem_filterMap.mp he
    obtain ⟨p, hp, rfl⟩ := Option.map_eq_some_iff.mp h2
    have hid := h.nodes.key n hn
    unfold loadNode at hp
    split at hp
    · obtain rfl := Option.some.inj hp
      simp only [List.mem_cons, List.not_mem_nil, or_false] at hi
      rcases hi with rfl | rfl
      · exact node_id_mem hn
      · rw [hid]; exact node_id_mem hn
    · cases hp
  · obtain ⟨w, hw, h2⟩ := List.mem_filterMap.mp he
    obtain ⟨l, hl, rfl⟩ := Option.map_eq_some_iff.mp h2
    have hid := h.ways.key w hw
    unfold loadedLine at hl
    split at hl
    · obtain rfl := Option.some.inj hl
      simp only [List.mem_cons, List.mem_map] at hi
      rcases hi with rfl | rfl | ⟨r, hr, rfl⟩
      · exact way_id_mem hw
      · rw [hid]; exact way_id_mem hw
      · exact hpts w hw r hr
    · cases hl
  · obtain ⟨w, hw, h2⟩ := List.mem_filterMap.mp he
    obtain ⟨l, hl, rfl⟩ := Option.map_eq_some_iff.mp h2
    have hid := h.ways.key w hw
    unfold loadedPoly at hl
    split at hl
    · obtain rfl := Option.some.inj hl
      simp only [List.mem_cons, List.mem_map] at hi
      rcases hi with rfl | rfl | ⟨r, hr, rfl⟩
      · exact way_id_mem hw
      · rw [hid]; exact way_id_mem hw
      · exact hpts w hw r hr
    · cases hl
  · have hnd : (ls.map (·.1)).Nodup := hk1 ▸ nodup_collected _ h.relations.nodup
    have hg := AMap.get_of_mem hnd he
    rw [h4] at hg
    obtain ⟨r, hr, h2⟩ := Option.bind_eq_some_iff.mp hg
    obtain ⟨l, hl, h3⟩ := Option.map_eq_some_iff.mp h2
    have hre := AMap.mem_of_get hr
    have hid : r.id = e.1 := h.relations.key _ hre
    have hx : e.1 ∈ file.ids := relation_id_mem hre
    simp only [laneletOf] at hl
    split at hl
    · obtain rfl := Option.some.inj hl
      rw [← h3] at hi
      obtain ⟨a, b, ha⟩ := align_same env (pointsOf env file).1 (linesOf env file) (borderOf (linesOf env file) r "left").1
        (borderOf (linesOf env file) r "right").1
      rw [ha] at hi
      simp only [List.mem_cons, List.map_append, List.mem_append, List.mem_map] at hi
      rcases hi with rfl | rfl | rfl | rfl | ⟨c, hc, rfl⟩ | ⟨c, hc, rfl⟩
      · exact hx
      · exact hid ▸ hx
      · exact borderOf_id hf hre hid _ _
      · exact borderOf_id hf hre hid _ _
      · unfold centerOf at hc
        split at hc
        · simp at hc
        · simp only [Option.toList_some, List.mem_singleton] at hc
          rw [hc]; exact borderOf_id hf hre hid _ _
      · exact hregs _ hre c hc
    · cases hl
  · have hnd : (as.map (·.1)).Nodup := hk2 ▸ nodup_collected _ h.relations.nodup
    have hg := AMap.get_of_mem hnd he
    rw [h5] at hg
    obtain ⟨r, hr, h2⟩ := Option.bind_eq_some_iff.mp hg
    obtain ⟨l, hl, h3⟩ := Option.map_eq_some_iff.mp h2
    have hre := AMap.mem_of_get hr
    have hid : r.id = e.1 := h.relations.key _ hre
    have hx : e.1 ∈ file.ids := relation_id_mem hre
    have hne : ∀ role, ∀ l ∈ roleLines (linesOf env file) r role, l.pts ≠ [] := by
      intro role l hm
      obtain ⟨t, _, ht⟩ := List.mem_filterMap.mp hm
      cases t with
      | way i => exact linesOf_ne env file _ (AMap.mem_of_get ht)
      | node i => cases ht
      | relation i => cases ht
    have hring : ∀ role, ∀ ring ∈ (ringsOf env (pointsOf env file).1 (roleLines (linesOf env file) r role)).1, ∀ l ∈ ring,
        l.id ∈ file.ids := by
      intro role ring hring l hl
      obtain ⟨x, hx, h6⟩ := ringsOf_ids env (pointsOf env file).1 (hne role) hring hl
      rw [← h6]
      exact roleLines_ids hlines r role x hx
    simp only [areaOf] at hl
    split at hl
    · split at hl
      · cases hl
      · split at hl
        · rename_i ring hor
          split at hl
          · cases hl
          · obtain rfl := Option.some.inj hl
            rw [← h3] at hi
            simp only [List.mem_cons, List.map_append, List.mem_append, List.mem_map, List.mem_flatten] at hi
            rcases hi with rfl | rfl | (⟨c, ⟨y, hy, rfl⟩, rfl⟩ | ⟨c, ⟨y, ⟨q, hq, rfl⟩, hy⟩, rfl⟩) | ⟨c, hc, rfl⟩
            · exact hx
            · exact hid ▸ hx
            · exact hring "outer" ring (by rw [hor]; simp) y hy
            · obtain ⟨z, hz, rfl⟩ := List.mem_map.mp hy
              exact hring "inner" q hq z hz
            · exact hregs _ hre c hc
        · cases hl
    · cases hl
  · obtain ⟨r, hre, h2⟩ := List.mem_filterMap.mp he
    obtain ⟨g, hg, rfl⟩ := Option.map_eq_some_iff.mp h2
    have hid := h.relations.key r hre
    have hx : r.1 ∈ file.ids := relation_id_mem hre
    unfold regOf at hg
    split at hg
    · split at hg
      · cases hg
      · split at hg
        · rename_i type _ reg hc
          obtain rfl := Option.some.inj hg
          obtain ⟨hr1, hr2⟩ := hreg _ _ _ hc
          simp only at hr1
          simp only [List.mem_cons, List.mem_flatMap] at hi
          rcases hi with rfl | rfl | ⟨p, hp, hi⟩
          · exact hx
          · rw [hr1, hid]; exact hx
          · obtain ⟨role, hp'⟩ := mem_paramsOf_group (hr2 p hp)
            obtain ⟨x, hxm, h6⟩ := List.mem_filterMap.mp hp'
            obtain ⟨t, ht, h7⟩ := Option.bind_eq_some_iff.mp h6
            obtain ⟨p', hpp, h8⟩ := Option.map_eq_some_iff.mp h7
            obtain ⟨-, rfl⟩ := Prod.mk.inj h8
            exact paramOf_ids _ _ (hf.members r hre x hxm t ht) hpp i hi
        · cases hg
    · cases hg

theorem read_refsIn (zero : D) (num : String → D) (front : Nat → Nat → Bool) (doc : Doc) {file : File D} {errs : List ReadError}
    (h : read zero num front doc = some (file, errs)) : RefsIn file := by
  have hok := read_fileOk zero num front doc h
  obtain ⟨file', errs', h1, hn, hw, hr1, hr2, -⟩ := read_spec zero num front doc
  rw [h1] at h
  obtain ⟨rfl, rfl⟩ := Prod.mk.inj (Option.some.inj h)
  have key : ∀ {V : Type} {l : AMap Id V} {i : Id}, (l.get i).isSome = true → i ∈ l.map (·.1) := by
    intro V l i hi
    rw [← AMap.has_eq] at hi
    exact (AMap.has_iff_mem _ _).mp hi
  have hnode : ∀ i, HasNode doc i → i ∈ file'.ids := by
    intro i hi
    have : (file'.nodes.get i).isSome = true := by
      rw [hn, Option.isSome_map]; exact (lastWith_isSome _ _ _).mpr hi
    exact List.mem_append_left _ (List.mem_append_left _ (key this))
  have hway : ∀ i, HasWay doc i → i ∈ file'.ids := by
    intro i hi
    have : (file'.ways.get i).isSome = true := by
      rw [hw, Option.isSome_map]; exact (lastWith_isSome _ _ _).mpr hi
    exact List.mem_append_left _ (List.mem_append_right _ (key this))
  have hrel : ∀ i, HasRelation doc i → i ∈ file'.ids := by
    intro i hi
    have : (file'.relations.get i).isSome = true := by
      cases hg : file'.relations.get i with
      | none => exact absurd hi ((hr1 i).mp hg)
      | some r => rfl
    exact List.mem_append_right _ (key this)
  constructor
  · intro e he n hne
    have hg := AMap.get_of_mem hok.ways.nodup he
    rw [hw] at hg
    obtain ⟨x, hx, h2⟩ := Option.map_eq_some_iff.mp hg
    rw [← h2] at hne
    simp only [wayOf] at hne
    split at hne
    · rename_i hc; exact hnode n (hc n hne)
    · cases hne
  · intro e he x hx t ht
    have hg := AMap.get_of_mem hok.relations.nodup he
    obtain ⟨-, -, h3⟩ := hr2 _ _ hg
    rw [h3] at hx
    obtain ⟨y, hy, rfl⟩ := List.mem_map.mp hx
    obtain ⟨z, hz, h4⟩ := List.mem_filterMap.mp hy
    simp only [Option.some.injEq] at ht
    subst ht
    unfold target at h4
    split at h4
    · split at h4
      · rename_i hc; obtain rfl := Option.some.inj h4; exact hnode _ hc
      · cases h4
    · split at h4
      · split at h4
        · rename_i hc; obtain rfl := Option.some.inj h4; exact hway _ hc
        · cases h4
      · split at h4
        · split at h4
          · rename_i hc; obtain rfl := Option.some.inj h4; exact hrel _ hc
          · cases h4
        · cases h4

/-! ### theorems -/

/-- C37, OSM files: parsing any document succeeds, and each id of the map (also of parts that have been made up for missing ones)
is at most as great as one of the ids that have been registered. -/
theorem parse_registers (zero : D) (num : String → D) (front : Nat → Nat → Bool) (env : Env P D) (hreg : RegistryOk env)
    (doc : Doc) : ∃ r, parse zero num front env doc = some r ∧ ∀ i ∈ r.map.ids, ∃ k ∈ r.registered, i ≤ k := by
  obtain ⟨file, re, m, le, h1, h2, -⟩ := read_load_total zero num front env doc
  refine ⟨⟨m, re, le, registrations file m⟩, by simp [parse, h1, h2], ?_⟩
  intro i hi
  exact registrations_le file m
    (load_ids env hreg (read_fileOk zero num front doc h1) (read_refsIn zero num front doc h1) h2 i hi)

/-- C37, OSM files: if all calls of `registerId` by the parser have returned, then each id that any thread gets from `getId` later
is greater than all ids of the map, whatever other threads do meanwhile. -/
theorem ids_after_parse (zero : D) (num : String → D) (front : Nat → Nat → Bool) (env : Env P D) (hreg : RegistryOk env)
    (doc : Doc) (r : Parsed P) (hr : parse zero num front env doc = some r)
    (s : State) (hs : Steps init s) (t : Tid) (start : Nat)
    (hdone : ∀ k ∈ r.registered, ∃ p < start, s.hist[p]? = some (.registered t k))
    (j : Nat) (hj : start ≤ j) (u : Tid) (a : Int) (hgot : s.hist[j]? = some (.got u a)) :
    ∀ i ∈ r.map.ids, i < a := by
  obtain ⟨r', h1, h2⟩ := parse_registers zero num front env hreg doc
  rw [hr] at h1
  obtain rfl := Option.some.inj h1
  intro i hi
  obtain ⟨k, hk, hle⟩ := h2 i hi
  obtain ⟨p, hp, he⟩ := hdone k hk
  exact Int.lt_of_le_of_lt hle (ids_after_register s hs p j t u k a (by omega) he hgot)

/-- C37, OSM files, one thread: after parsing the counter is greater than all ids of the map, and it never decreases. -/
theorem counter_after_parse (zero : D) (num : String → D) (front : Nat → Nat → Bool) (env : Env P D) (hreg : RegistryOk env)
    (doc : Doc) (c : Int) : ∃ r, parse zero num front env doc = some r ∧ c ≤ counterAfter c r.registered ∧
      ∀ i ∈ r.map.ids, i < counterAfter c r.registered := by
  obtain ⟨r, h1, h2⟩ := parse_registers zero num front env hreg doc
  refine ⟨r, h1, counterAfter_mono _ _, fun i hi => ?_⟩
  obtain ⟨k, hk, hle⟩ := h2 i hi
  exact Int.lt_of_le_of_lt hle (counterAfter_gt _ _ k hk)

/-- C37, binary files: if the ids of the map are below the counter of the process that writes it, then they are below the counter
of the process that reads it afterwards. -/
theorem counter_after_binParse_partial (m : LMap P) (c c' : Int) (h : ∀ i ∈ m.ids, i < c) :
    ∀ i ∈ (binParse (binWrite c m).1).1.ids, i < counterAfter c' (binParse (binWrite c m).1).2 := by
  intro i hi
  refine Int.lt_trans (h i hi) (counterAfter_gt _ _ c ?_)
  simp [binParse, binWrite, getIdSeq]

/-- C37, binary files, any number of threads in the process that reads -/
theorem ids_after_binParse_partial (m : LMap P) (c : Int) (h : ∀ i ∈ m.ids, i < c)
    (s : State) (hs : Steps init s) (t : Tid) (start : Nat)
    (hdone : ∀ k ∈ (binParse (binWrite c m).1).2, ∃ p < start, s.hist[p]? = some (.registered t k))
    (j : Nat) (hj : start ≤ j) (u : Tid) (a : Int) (hgot : s.hist[j]? = some (.got u a)) :
    ∀ i ∈ (binParse (binWrite c m).1).1.ids, i < a := by
  intro i hi
  obtain ⟨p, hp, he⟩ := hdone c (by simp [binParse, binWrite, getIdSeq])
  exact Int.lt_trans (h i hi) (ids_after_register s hs p j t u c a (by omega) he hgot)

/-- the ids are below the counter if the map has been built with `LaneletMap::add` only (see `Verif.LMap`) -/
example {c : LMap.Content} {U : List LMap.Obj} (hU : LMap.Complete c U) {s : LMap.MapSt} (h : LMap.Reachable c U s) (k : LMap.Kind)
    (id : Int) (x : LMap.Handle) (hx : (s.layers k).find id = some x) : id < s.next :=
  (LMap.elements_own_id hU h k id x hx).2.2.2

/-- Disagreement with C37 for binary files: a map that was not built with `add` (but, for example, with `utils::createMap`, which
does not register ids) may have ids that are not below the counter. They are not registered when the file is read, so `getId`
returns one of them. -/
theorem binary_ids_counterexample : ∃ m : LMap Int, (1001 : Int) ∈ m.ids ∧
    (getIdSeq (counterAfter 1000 (binParse (binWrite 1000 m).1).2)).1 = 1001 :=
  ⟨{ points := [(1001, ⟨1001, [], 0⟩)] }, by decide, by decide⟩

/-! ### example -/

/-- nodes and ways in any order, a lanelet without bounds: the loader makes up bounds with the id of the lanelet; Example. -/
def idsDoc : Doc where
  nodes := [⟨5000, false, none, none, []⟩, ⟨7, false, none, none, []⟩]
  ways := [⟨12, false, [5000, 7], []⟩]
  relations := [⟨6000, false, [], [("type", "lanelet")]⟩]

theorem idsDoc_parse : ∃ r, parse (0 : Int) (fun _ => 0) (fun _ _ => true) exEnv idsDoc = some r ∧
    r.map.points.has 5000 = true ∧ (r.map.lanelets.get 6000).map (·.left) = some { id := 6000, dummy := true } ∧
    r.registered = [5000, 12, 6000] ∧ counterAfter 1000 r.registered = 6001 := by
  have h1 : read (0 : Int) (fun _ => 0) (fun _ _ => true) idsDoc = some (⟨[(5000, ⟨5000, [], 0, 0, 0⟩), (7, ⟨7, [], 0, 0, 0⟩)],
      [(12, ⟨12, [], [5000, 7]⟩)], [(6000, ⟨6000, [("type", "lanelet")], ⟨0, []⟩⟩)]⟩, []) := by
    simp only [read, readRelations, bind, Option.bind]
    have hs : (idsDoc.relations.foldl (readRelation (readNodes (0 : Int) (fun _ => 0) idsDoc.nodes)
        (readWays (readNodes (0 : Int) (fun _ => 0) idsDoc.nodes) idsDoc.ways).1) ⟨[], [], []⟩) =
        ⟨[(6000, ⟨6000, [("type", "lanelet")], ⟨0, []⟩⟩)], [], []⟩ := by rfl
    rw [hs, resolveAll]
    rfl
  unfold parse
  rw [h1, Option.bind_eq_bind, Option.bind_some]
  exact ⟨_, rfl, by decide, by decide, by decide, by decide⟩

/-- such a history: thread 0 registers the ids, thread 1 gets an id meanwhile and one afterwards -/
example : ∃ s, Steps init s ∧
    s.hist = [.registered 0 5000, .registered 0 12, .got 1 5001, .registered 0 6000, .got 1 6001] := by
  have h1 : Steps init _ := .tail (.refl _) (.regCall _ 0 5000 rfl)
  have h2 := h1.tail (.regLoad _ 0 5000 rfl)
  have h3 := h2.tail (.regCasOk _ 0 5000 1000 rfl (by decide) rfl)
  have h4 := h3.tail (.regCall _ 0 12 rfl)
  have h5 := h4.tail (.regLoad _ 0 12 rfl)
  have h6 := h5.tail (.regExit _ 0 12 5001 rfl (by decide))
  have h7 := h6.tail (.regCall _ 0 6000 rfl)
  have h8 := h7.tail (.getId _ 1 rfl)
  have h9 := h8.tail (.regLoad _ 0 6000 rfl)
  have h10 := h9.tail (.regCasOk _ 0 6000 5002 rfl (by decide) rfl)
  have h11 := h10.tail (.getId _ 1 rfl)
  exact ⟨_, h11, rfl⟩

end Verif.Osm
