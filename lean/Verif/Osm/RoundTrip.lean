import Verif.Osm.LoadProps
import Verif.Osm.RingTrip

/-!
C34: writing a map to an OSM file and loading it.
-/
namespace Verif.Osm
open scoped List
variable {P D : Type}

/-! ### specification -/

/-- the first linestring is used in reverse: the ring starts at the second one instead -/
def normalRefs (r : List Ref) : List Ref := if r.head?.any (·.inv) then r.tail ++ r.take 1 else r

/-- the map with other positions -/
def moved (rt : P → P) (m : LMap P) : LMap P :=
  { m with points := m.points.map fun e => (e.1, ⟨e.2.id, e.2.attrs, rt e.2.pos⟩) }

/-- Specification: a parameter that does not look inverted. -/
def Param.plain : Param → Prop
  | .point r => r.inv = false
  | .line r => r.inv = false
  | .poly r => r.inv = false
  | .lanelet r => r.inv = false
  | .area r => r.inv = false
  | .expired => False

/-- maps that an OSM file can represent. `rt` is what projecting back and forth does to a position. -/
structure Representable (env : Env P D) (reverse : P → Option (D × D × D)) (rt : P → P) (m : LMap P) : Prop where
  project : ∀ i p, m.points.get i = some p →
    ∃ g, reverse p.pos = some g ∧ env.forward g.1 g.2.1 g.2.2 = some (rt p.pos)
  /-- linestrings and polygons are not empty -/
  linePts : ∀ i l, m.lines.get i = some l → l.pts ≠ [] ∧ ∀ r ∈ l.pts, r.inv = false
  polyPts : ∀ i l, m.polys.get i = some l → l.pts ≠ [] ∧ ∀ r ∈ l.pts, r.inv = false
  /-- attributes do not contradict the tags that are written -/
  lineArea : ∀ i l, m.lines.get i = some l → (l.attrs.get "area").bind env.asBool ≠ some true
  polyArea : ∀ i p, m.polys.get i = some p → env.asBool ((p.attrs.get "area").getD "true") = some true
  laneletType : ∀ i l, m.lanelets.get i = some l → (l.attrs.get "type").getD "lanelet" = "lanelet"
  areaType : ∀ i a, m.areas.get i = some a → (a.attrs.get "type").getD "multipolygon" = "multipolygon"
  regType : ∀ i g, m.regs.get i = some g → (g.attrs.get "type").getD "regulatory_element" = "regulatory_element"
  /-- the directions of bounds follow from their positions -/
  bounds : ∀ i l, m.lanelets.get i = some l →
    Oriented env (linePositions env (moved rt m) l.left.id) (linePositions env (moved rt m) l.right.id) l.left.inv l.right.inv
  laneletRefs : ∀ i l, m.lanelets.get i = some l → ∀ r ∈ l.center.toList ++ l.regs, r.inv = false
  /-- boundaries of areas are simple and valid in one direction only -/
  outer : ∀ i a, m.areas.get i = some a → SimpleRings [a.outer.map (refLine m.lines)] ∧
    OrientedRing (ringValid env (moved rt m).points) (a.outer.map (refLine m.lines))
  inner : ∀ i a, m.areas.get i = some a → SimpleRings (a.inner.map fun r => r.map (refLine m.lines)) ∧
    ∀ r ∈ a.inner, OrientedRing (ringValid env (moved rt m).points) (r.map (refLine m.lines))
  areaRefs : ∀ i a, m.areas.get i = some a → ∀ r ∈ a.regs, r.inv = false
  /-- regulatory elements have a rule name whose constructor accepts them unchanged -/
  registry : ∀ i g, m.regs.get i = some g → ∃ s, g.attrs.get "subtype" = some s ∧ s ≠ "" ∧
    env.registry s ⟨g.id, g.attrs.emplace "type" "regulatory_element", g.params⟩ =
      some ⟨g.id, g.attrs.emplace "type" "regulatory_element", g.params⟩
  params : ∀ i g, m.regs.get i = some g → (g.params.map (·.1)).Nodup ∧ (∀ e ∈ g.params, e.2 ≠ []) ∧ ∀ p ∈ paramsOf g, p.plain

/-- the same map. The attributes have the tags that OSM needs; linestrings in the layer have the direction of their data. -/
structure SameMap (rt : P → P) (m m' : LMap P) : Prop where
  points : ∀ i, m'.points.get i = (m.points.get i).map fun p => ⟨p.id, p.attrs, rt p.pos⟩
  lines : ∀ i, m'.lines.get i = (m.lines.get i).map fun l => { l with inv := false }
  polys : ∀ i, m'.polys.get i = (m.polys.get i).map fun p => { p with attrs := p.attrs.emplace "area" "true" }
  lanelets : ∀ i, m'.lanelets.get i = (m.lanelets.get i).map fun l => { l with attrs := l.attrs.emplace "type" "lanelet" }
  areas : ∀ i, m'.areas.get i = (m.areas.get i).map fun a =>
    { a with attrs := a.attrs.emplace "type" "multipolygon", outer := normalRefs a.outer, inner := a.inner.map normalRefs }
  regs : ∀ i, m'.regs.get i = (m.regs.get i).map fun g => { g with attrs := g.attrs.emplace "type" "regulatory_element" }

/-! ### the written file -/

/-- the member for a parameter -/
def targetOf : Param → Target
  | .point r => .node r.id
  | .line r => .way r.id
  | .poly r => .way r.id
  | .lanelet r => .relation r.id
  | .area r => .relation r.id
  | .expired => .node 0

/-- Helper of the proofs: the file that is written for a map. -/
structure Written (reverse : P → Option (D × D × D)) (m : LMap P) (file : File D) : Prop where
  ok : FileOk file
  nodes : ∀ i, file.nodes.get i = (m.points.get i).bind (nodeOfPoint reverse)
  lines : ∀ i l, m.lines.get i = some l → file.ways.get i = some ⟨i, l.attrs, l.pts.map (·.id)⟩
  polys : ∀ i l, m.polys.get i = some l → file.ways.get i = some ⟨i, l.attrs.emplace "area" "true", l.pts.map (·.id)⟩
  noWay : ∀ i, m.lines.get i = none → m.polys.get i = none → file.ways.get i = none
  regs : ∀ i g, m.regs.get i = some g → ∃ b, file.relations.get i = some ⟨i, g.attrs.emplace "type" "regulatory_element",
    ⟨b, stored (g.params.flatMap fun e => e.2.map fun p => (e.1, targetOf p))⟩⟩
  lanelets : ∀ i l, m.lanelets.get i = some l → ∃ b, file.relations.get i = some ⟨i, l.attrs.emplace "type" "lanelet",
    ⟨b, stored (("left", .way l.left.id) :: ("right", .way l.right.id) :: l.center.toList.map (fun r => ("centerline", .way r.id)) ++
      l.regs.map fun r => ("regulatory_element", .relation r.id))⟩⟩
  areas : ∀ i a, m.areas.get i = some a → ∃ b, file.relations.get i = some ⟨i, a.attrs.emplace "type" "multipolygon",
    ⟨b, stored (a.outer.map (fun r => ("outer", .way r.id)) ++ a.inner.flatten.map (fun r => ("inner", .way r.id)) ++
      a.regs.map fun r => ("regulatory_element", .relation r.id))⟩⟩
  noRelation : ∀ i, relOk m i = false → file.relations.get i = none

theorem filterMap_eq_map {α β : Type} {f : α → Option β} {g : α → β} {l : List α} (h : ∀ a ∈ l, f a = some (g a)) :
    l.filterMap f = l.map g := by
  induction l with
  | nil => rfl
  | cons a l ih =>
    rw [List.filterMap_cons, h a (by simp), ih fun x hx => h x (List.mem_cons_of_mem _ hx), List.map_cons]

theorem filterMap_eq_nil' {α β : Type} {f : α → Option β} {l : List α} (h : ∀ a ∈ l, f a = none) : l.filterMap f = [] := by
  rw [List.filterMap_eq_nil_iff]; exact h

theorem pushM_keys {E : Type} (s : RelState E) (id : Id) (role : String) (x : Target ⊕ Id) :
    (pushM s id role x).relations.map (·.1) = s.relations.map (·.1) := by
  cases x <;> simp only [pushM] <;> exact AMap.keys_modify ..

/-- keys of the relations are unique while they are built -/
def KeysOk {E : Type} (s : RelState E) : Prop := (List.map (fun e : Id × Relation => e.1) s.relations).Nodup

theorem pushM_ok {E : Type} {s : RelState E} (h : KeysOk s) (id : Id) (role : String) (x : Target ⊕ Id) : KeysOk (pushM s id role x) := by
  unfold KeysOk
  rw [pushM_keys]; exact h

theorem newRelation_ok {E : Type} {s : RelState E} (h : KeysOk s) (id : Id) (attrs : Attrs) : KeysOk (newRelation s id attrs) :=
  AMap.nodup_emplace _ _ _ h

theorem visit_ok (nodes : AMap Id (Node D)) (ways : AMap Id Way) (id : Id) (role : String) {s : RelState WriteError} (h : KeysOk s)
    (p : Param) : KeysOk (visit nodes ways id role s p) := by
  cases p <;> simp only [visit] <;> first | exact pushM_ok h _ _ _ | exact h | (split; exacts [pushM_ok h _ _ _, h])

theorem insertWay_ok (ways : AMap Id Way) (id : Id) (role : String) {s : RelState WriteError} (h : KeysOk s) (r : Ref) :
    KeysOk (insertWay ways id role s r) := by
  unfold insertWay
  split
  exacts [pushM_ok h _ _ _, h]

theorem insertRelation_ok (id : Id) (role : String) {s : RelState WriteError} (h : KeysOk s) (r : Ref) :
    KeysOk (insertRelation id role s r) := by
  unfold insertRelation
  split
  exacts [pushM_ok h _ _ _, h]

theorem foldl_ok {α : Type} {f : RelState WriteError → α → RelState WriteError} (hf : ∀ s a, KeysOk s → KeysOk (f s a)) (l : List α)
    {s : RelState WriteError} (h : KeysOk s) : KeysOk (l.foldl f s) := foldl_keeps (p := KeysOk) hf l s h

theorem appendAll_ok (nodes : AMap Id (Node D)) (ways : AMap Id Way) (m : LMap P) : KeysOk (appendAll nodes ways m) := by
  unfold appendAll
  simp only
  refine foldl_ok (fun s e h => ?_) _ (foldl_ok (fun s e h => ?_) _ (foldl_ok (fun s e h => ?_) _ List.nodup_nil))
  · simp only [appendArea]
    apply foldl_ok (fun s e h => insertRelation_ok _ _ h e)
    apply foldl_ok (fun s e h => insertWay_ok _ _ _ h e)
    apply foldl_ok (fun s e h => insertWay_ok _ _ _ h e)
    exact newRelation_ok h _ _
  · simp only [appendLanelet]
    apply foldl_ok (fun s e h => insertRelation_ok _ _ h e)
    apply foldl_ok (fun s e h => insertWay_ok _ _ _ h e)
    apply insertWay_ok
    apply insertWay_ok
    exact newRelation_ok h _ _
  · unfold appendReg
    refine foldl_ok (fun s e h => ?_) _ (newRelation_ok h _ _)
    exact foldl_ok (fun s p h => visit_ok nodes ways _ _ h p) _ h

/-- keys of a written file are unique -/
theorem write_keys {reverse : P → Option (D × D × D)} {front : Nat → Nat → Bool} {m : LMap P} {file : File D} {errs : List WriteError}
    (h : writeMap reverse front m = some (file, errs)) :
    (file.nodes.map (·.1)).Nodup ∧ (file.ways.map (·.1)).Nodup ∧ (file.relations.map (·.1)).Nodup := by
  unfold writeMap at h
  simp only [bind, Option.bind] at h
  split at h
  · cases h
  rename_i r hr
  obtain ⟨rfl, -⟩ := Prod.mk.inj (Option.some.inj h)
  refine ⟨?_, ?_, ?_⟩
  · unfold writeNodes
    refine foldl_keeps (p := fun (a : AMap Id (Node D) × List WriteError) => (List.map (fun e : Id × Node D => e.1) a.1).Nodup)
      (fun a t h => ?_) _ _ List.nodup_nil
    unfold writeNode
    split
    · exact AMap.nodup_emplace _ _ _ h
    · exact h
  · have hw : ∀ (nodes : AMap Id (Node D)) (a : AMap Id Way × List WriteError) i attrs pts,
        (List.map (fun e : Id × Way => e.1) a.1).Nodup →
        (List.map (fun e : Id × Way => e.1) (writeOsmWay nodes a i attrs pts).1).Nodup := by
      intro nodes a i attrs pts h
      unfold writeOsmWay
      split
      · exact AMap.nodup_emplace _ _ _ h
      · exact h
    unfold writeWays
    refine foldl_keeps (p := fun (a : AMap Id Way × List WriteError) => (List.map (fun e : Id × Way => e.1) a.1).Nodup)
      (fun a t h => ?_) _ _ (foldl_keeps (p := fun (a : AMap Id Way × List WriteError) =>
        (List.map (fun e : Id × Way => e.1) a.1).Nodup) (fun a t h => ?_) _ _ List.nodup_nil)
    · exact hw _ _ _ _ _ h
    · exact hw _ _ _ _ _ h
  · simp only
    rw [resolveAll_keys _ rfl hr]
    exact appendAll_ok ..

/-- a self-contained map is written completely -/
theorem write_written (reverse : P → Option (D × D × D)) (front : Nat → Nat → Bool) {m : LMap P} (h : MapOk m) (hd : Distinct m)
    (hs : SelfContained m) (hp : ∀ i p, m.points.get i = some p → ∃ g, reverse p.pos = some g) :
    ∃ file, writeMap reverse front m = some (file, []) ∧ Written reverse m file := by
  have point : ∀ i, m.points.has i = true → pointOk reverse m i = true := by
    intro i hi
    obtain ⟨p, hp'⟩ := has_get.mp hi
    obtain ⟨g, hg⟩ := hp i p hp'
    unfold pointOk
    rw [hp', Option.bind_some]
    simp [nodeOfPoint, hg]
  have linePts : ∀ i l, m.lines.get i = some l → (l.pts.all fun r => pointOk reverse m r.id) = true := by
    intro i l hl
    rw [List.all_eq_true]
    exact fun r hr => point r.id (hs.lines i l hl r hr).2
  have polyPts : ∀ i l, m.polys.get i = some l → (l.pts.all fun r => pointOk reverse m r.id) = true := by
    intro i l hl
    rw [List.all_eq_true]
    exact fun r hr => point r.id (hs.polys i l hl r hr).2
  have line : ∀ i, m.lines.has i = true → lineOk reverse m i = true := by
    intro i hi
    obtain ⟨l, hl⟩ := has_get.mp hi
    unfold lineOk
    rw [hl]
    exact linePts i l hl
  have poly : ∀ i, m.polys.has i = true → polyOk reverse m i = true := by
    intro i hi
    obtain ⟨l, hl⟩ := has_get.mp hi
    unfold polyOk
    rw [hl]
    exact polyPts i l hl
  have relErr : ∀ e ∈ m.regs, ∀ p ∈ paramsOf e.2, relationError m e.1 p = none := by
    intro e he p hp
    have := hs.regs e.1 e.2 (AMap.get_of_mem h.regs.nodup he) p hp
    cases p with
    | lanelet r => simp only [relationError]; rw [if_pos this.2]
    | area r => simp only [relationError]; rw [if_pos this.2]
    | _ => rfl
  have parErr : ∀ e ∈ m.regs, ∀ p ∈ paramsOf e.2, paramError reverse m e.1 p = none := by
    intro e he p hp
    have := hs.regs e.1 e.2 (AMap.get_of_mem h.regs.nodup he) p hp
    cases p with
    | point r => simp only [paramError]; rw [if_pos (point _ this.2)]
    | line r => simp only [paramError]; rw [if_pos (line _ this.2)]
    | poly r => simp only [paramError]; rw [if_pos (poly _ this.2)]
    | expired => cases this
    | _ => rfl
  have ho : OrderOk m := by
    intro e he
    refine List.pairwise_of_forall_mem_list ?_
    intro a ha b _ hc
    exact absurd (relErr e he a ha) hc
  have hle : ∀ e ∈ m.lanelets, (∀ r ∈ e.2.left :: e.2.right :: e.2.center.toList, InLayer m.lines r) ∧ ∀ r ∈ e.2.regs, InLayer m.regs r :=
    fun e he => hs.lanelets e.1 e.2 (AMap.get_of_mem h.lanelets.nodup he)
  have hae : ∀ e ∈ m.areas, (∀ r ∈ e.2.outer ++ e.2.inner.flatten, InLayer m.lines r) ∧ ∀ r ∈ e.2.regs, InLayer m.regs r :=
    fun e he => hs.areas e.1 e.2 (AMap.get_of_mem h.areas.nodup he)
  have memErr : ∀ (i : Id) (bounds regs : List Ref), (∀ r ∈ bounds, InLayer m.lines r) → (∀ r ∈ regs, InLayer m.regs r) →
      memberErrors reverse m i bounds regs = [] := by
    intro i bounds regs h1 h2
    unfold memberErrors
    rw [filterMap_eq_nil' fun r hr => by rw [if_pos (line _ (h1 r hr).2)], filterMap_eq_nil' fun r hr => by rw [if_pos (h2 r hr).2]]
    rfl
  obtain ⟨file, errs, hw, hn, hwy, hr, hl, ha, hx, he⟩ := write_spec_partial reverse front h hd ho
  have hnil : errs = [] := by
    rw [he]
    unfold writeErrors
    rw [filterMap_eq_nil' fun e he => by rw [if_pos (point _ ((AMap.has_iff_mem ..).mpr (List.mem_map_of_mem he)))],
      filterMap_eq_nil' fun e he => by rw [if_pos (line _ ((AMap.has_iff_mem ..).mpr (List.mem_map_of_mem he)))],
      filterMap_eq_nil' fun e he => by rw [if_pos (poly _ ((AMap.has_iff_mem ..).mpr (List.mem_map_of_mem he)))],
      List.flatMap_eq_nil_iff.mpr fun e he => filterMap_eq_nil' fun p hp => parErr e he p hp,
      List.flatMap_eq_nil_iff.mpr fun e he => filterMap_eq_nil' fun p hp => relErr e he p hp,
      List.flatMap_eq_nil_iff.mpr fun e he => memErr e.1 _ _ (hle e he).1 (hle e he).2,
      List.flatMap_eq_nil_iff.mpr fun e he => memErr e.1 _ _ (hae e he).1 (hae e he).2]
    rfl
  subst hnil
  have ways : ∀ role (rs : List Ref), (∀ r ∈ rs, InLayer m.lines r) →
      wayMembers reverse m role rs = rs.map fun r => (role, .way r.id) := by
    intro role rs h
    exact filterMap_eq_map fun r hr => by rw [if_pos (line _ (h r hr).2)]
  have rules : ∀ (rs : List Ref), (∀ r ∈ rs, InLayer m.regs r) →
      ruleMembers m rs = rs.map fun r => ("regulatory_element", .relation r.id) := by
    intro rs h
    exact filterMap_eq_map fun r hr => by rw [if_pos (h r hr).2]
  have hreg : ∀ i g, m.regs.get i = some g →
      regMembers reverse m g = g.params.flatMap fun e => e.2.map fun p => (e.1, targetOf p) := by
    intro i g hg
    unfold regMembers
    apply flatMap_congr'
    intro e he
    apply filterMap_eq_map
    intro p hp
    have hin := hs.regs i g hg p (List.mem_flatMap.mpr ⟨e, he, hp⟩)
    cases p with
    | point r => simp only [paramMember]; rw [if_pos (point _ hin.2)]; rfl
    | line r => simp only [paramMember]; rw [if_pos (line _ hin.2)]; rfl
    | poly r => simp only [paramMember]; rw [if_pos (poly _ hin.2)]; rfl
    | lanelet r => simp only [paramMember]; rw [if_pos hin.2]; rfl
    | area r => simp only [paramMember]; rw [if_pos hin.2]; rfl
    | expired => cases hin
  have hlan : ∀ i l, m.lanelets.get i = some l → laneletMembers reverse m l =
      ("left", .way l.left.id) :: ("right", .way l.right.id) :: l.center.toList.map (fun r => ("centerline", .way r.id)) ++
        l.regs.map fun r => ("regulatory_element", .relation r.id) := by
    intro i l hl
    obtain ⟨h1, h2⟩ := hs.lanelets i l hl
    unfold laneletMembers
    rw [ways _ _ (by simpa using h1 l.left (by simp)), ways _ _ (by simpa using h1 l.right (by simp)),
      ways _ _ fun r hr => h1 r (by simp only [List.mem_cons]; exact .inr (.inr hr)), rules _ h2]
    rfl
  have hare : ∀ i a, m.areas.get i = some a → areaMembers reverse m a =
      a.outer.map (fun r => ("outer", .way r.id)) ++ a.inner.flatten.map (fun r => ("inner", .way r.id)) ++
      a.regs.map fun r => ("regulatory_element", .relation r.id) := by
    intro i a ha
    obtain ⟨h1, h2⟩ := hs.areas i a ha
    unfold areaMembers
    rw [ways _ _ fun r hr => h1 r (List.mem_append_left _ hr), ways _ _ fun r hr => h1 r (List.mem_append_right _ hr), rules _ h2]
  have wline : ∀ i l, m.lines.get i = some l → file.ways.get i = some ⟨i, l.attrs, l.pts.map (·.id)⟩ := by
    intro i l hl
    have hk : l.id = i := h.lines.key _ (AMap.mem_of_get hl)
    rw [hwy, hl, Option.bind_some]
    unfold wayOfLine
    rw [if_pos (linePts i l hl), hk]
    rfl
  have wpoly : ∀ i l, m.polys.get i = some l → file.ways.get i = some ⟨i, l.attrs.emplace "area" "true", l.pts.map (·.id)⟩ := by
    intro i l hl
    have hk : l.id = i := h.polys.key _ (AMap.mem_of_get hl)
    have hno : m.lines.get i = none := by
      cases hg : m.lines.get i with
      | none => rfl
      | some x =>
        have := hd.lines i (has_get.mpr ⟨x, hg⟩)
        rw [AMap.has_eq, hl] at this
        cases this
    rw [hwy, hno, hl, Option.bind_some, Option.bind_none, Option.none_or]
    unfold wayOfPoly
    rw [if_pos (polyPts i l hl), hk]
  have wnone : ∀ i, m.lines.get i = none → m.polys.get i = none → file.ways.get i = none := by
    intro i h1 h2
    rw [hwy, h1, h2]; rfl
  have rreg : ∀ i g, m.regs.get i = some g → ∃ b, file.relations.get i = some ⟨i, g.attrs.emplace "type" "regulatory_element",
      ⟨b, stored (g.params.flatMap fun e => e.2.map fun p => (e.1, targetOf p))⟩⟩ := by
    intro i g hg
    obtain ⟨b, hb⟩ := hr i g hg
    exact ⟨b, by rw [hb, hreg i g hg]⟩
  have rlan : ∀ i l, m.lanelets.get i = some l → ∃ b, file.relations.get i = some ⟨i, l.attrs.emplace "type" "lanelet",
      ⟨b, stored (("left", .way l.left.id) :: ("right", .way l.right.id) :: l.center.toList.map (fun r => ("centerline", .way r.id)) ++
        l.regs.map fun r => ("regulatory_element", .relation r.id))⟩⟩ := by
    intro i g hg
    obtain ⟨b, hb⟩ := hl i g hg
    exact ⟨b, by rw [hb, hlan i g hg]⟩
  have rare : ∀ i a, m.areas.get i = some a → ∃ b, file.relations.get i = some ⟨i, a.attrs.emplace "type" "multipolygon",
      ⟨b, stored (a.outer.map (fun r => ("outer", .way r.id)) ++ a.inner.flatten.map (fun r => ("inner", .way r.id)) ++
        a.regs.map fun r => ("regulatory_element", .relation r.id))⟩⟩ := by
    intro i g hg
    obtain ⟨b, hb⟩ := ha i g hg
    exact ⟨b, by rw [hb, hare i g hg]⟩
  have rnone : ∀ i, relOk m i = false → file.relations.get i = none := by
    intro i hi
    have := hx i
    rw [hi, AMap.has_eq] at this
    simpa using this
  obtain ⟨k1, k2, k3⟩ := write_keys hw
  refine ⟨file, hw, ⟨⟨k1, ?_⟩, ⟨k2, ?_⟩, ⟨k3, ?_⟩, ?_, ?_, ?_, ?_⟩, hn, wline, wpoly, wnone, rreg, rlan, rare, rnone⟩
  · intro e he
    have := AMap.get_of_mem k1 he
    rw [hn] at this
    obtain ⟨p, hp1, hp2⟩ := Option.bind_eq_some_iff.mp this
    obtain ⟨g, -, hg⟩ := Option.map_eq_some_iff.mp hp2
    rw [← hg]
    exact h.points.key _ (AMap.mem_of_get hp1)
  · intro e he
    have hget := AMap.get_of_mem k2 he
    cases h1 : m.lines.get e.1 with
    | some l =>
      rw [wline _ _ h1] at hget
      rw [← Option.some.inj hget]
    | none =>
      cases h2 : m.polys.get e.1 with
      | some l =>
        rw [wpoly _ _ h2] at hget
        rw [← Option.some.inj hget]
      | none => rw [wnone _ h1 h2] at hget; cases hget
  · intro e he
    have hget := AMap.get_of_mem k3 he
    cases h1 : m.regs.get e.1 with
    | some g =>
      obtain ⟨b, hb⟩ := rreg _ _ h1
      rw [hb] at hget
      rw [← Option.some.inj hget]
    | none =>
      cases h2 : m.lanelets.get e.1 with
      | some g =>
        obtain ⟨b, hb⟩ := rlan _ _ h2
        rw [hb] at hget
        rw [← Option.some.inj hget]
      | none =>
        cases h3 : m.areas.get e.1 with
        | some g =>
          obtain ⟨b, hb⟩ := rare _ _ h3
          rw [hb] at hget
          rw [← Option.some.inj hget]
        | none =>
          rw [rnone _ (by simp [relOk, AMap.has_eq, h1, h2, h3])] at hget
          cases hget
  · intro e he
    have := AMap.get_of_mem k1 he
    rw [hn] at this
    obtain ⟨p, hp1, hp2⟩ := Option.bind_eq_some_iff.mp this
    obtain ⟨g, -, hg⟩ := Option.map_eq_some_iff.mp hp2
    rw [← hg]
    exact h.pointAttrs _ (AMap.mem_of_get hp1)
  · intro e he
    have hget := AMap.get_of_mem k2 he
    cases h1 : m.lines.get e.1 with
    | some l =>
      rw [wline _ _ h1] at hget
      rw [← Option.some.inj hget]
      exact h.lineAttrs _ (AMap.mem_of_get h1)
    | none =>
      cases h2 : m.polys.get e.1 with
      | some l =>
        rw [wpoly _ _ h2] at hget
        rw [← Option.some.inj hget]
        exact AMap.nodup_emplace _ _ _ (h.polyAttrs _ (AMap.mem_of_get h2))
      | none => rw [wnone _ h1 h2] at hget; cases hget
  · intro e he
    have hget := AMap.get_of_mem k3 he
    cases h1 : m.regs.get e.1 with
    | some g =>
      obtain ⟨b, hb⟩ := rreg _ _ h1
      rw [hb] at hget
      rw [← Option.some.inj hget]
      exact AMap.nodup_emplace _ _ _ (h.regAttrs _ (AMap.mem_of_get h1))
    | none =>
      cases h2 : m.lanelets.get e.1 with
      | some g =>
        obtain ⟨b, hb⟩ := rlan _ _ h2
        rw [hb] at hget
        rw [← Option.some.inj hget]
        exact AMap.nodup_emplace _ _ _ (h.laneletAttrs _ (AMap.mem_of_get h2))
      | none =>
        cases h3 : m.areas.get e.1 with
        | some g =>
          obtain ⟨b, hb⟩ := rare _ _ h3
          rw [hb] at hget
          rw [← Option.some.inj hget]
          exact AMap.nodup_emplace _ _ _ (h.areaAttrs _ (AMap.mem_of_get h3))
        | none =>
          rw [rnone _ (by simp [relOk, AMap.has_eq, h1, h2, h3])] at hget
          cases hget
  · intro e he x hx'
    have hget := AMap.get_of_mem k3 he
    have hregs : ∀ r : Ref, InLayer m.regs r → file.relations.has r.id = true := by
      intro r hr
      rw [hx]; simp [relOk, hr.2]
    cases h1 : m.regs.get e.1 with
    | some g =>
      obtain ⟨b, hb⟩ := rreg _ _ h1
      rw [hb] at hget
      rw [← Option.some.inj hget] at hx'
      obtain ⟨y, hy, rfl⟩ := List.mem_map.mp hx'
      refine ⟨y.2, rfl, ?_⟩
      intro i hi
      obtain ⟨z, hz, hy⟩ := List.mem_flatMap.mp hy
      obtain ⟨p, hpz, rfl⟩ := List.mem_map.mp hy
      have hin := hs.regs _ _ h1 p (List.mem_flatMap.mpr ⟨z, hz, hpz⟩)
      cases p <;> simp only [targetOf, reduceCtorEq, Target.relation.injEq] at hi
      · subst hi
        rw [hx]; simp [relOk, hin.2]
      · subst hi
        rw [hx]; simp [relOk, hin.2]
    | none =>
      cases h2 : m.lanelets.get e.1 with
      | some g =>
        obtain ⟨b, hb⟩ := rlan _ _ h2
        rw [hb] at hget
        rw [← Option.some.inj hget] at hx'
        obtain ⟨y, hy, rfl⟩ := List.mem_map.mp hx'
        refine ⟨y.2, rfl, ?_⟩
        intro i hi
        simp only [List.cons_append, List.mem_cons, List.mem_append, List.mem_map] at hy
        rcases hy with rfl | rfl | ⟨r, -, rfl⟩ | ⟨r, hr, rfl⟩
        · cases hi
        · cases hi
        · cases hi
        · cases hi
          exact hregs r ((hs.lanelets _ _ h2).2 r hr)
      | none =>
        cases h3 : m.areas.get e.1 with
        | some g =>
          obtain ⟨b, hb⟩ := rare _ _ h3
          rw [hb] at hget
          rw [← Option.some.inj hget] at hx'
          obtain ⟨y, hy, rfl⟩ := List.mem_map.mp hx'
          refine ⟨y.2, rfl, ?_⟩
          intro i hi
          simp only [List.mem_append, List.mem_map] at hy
          rcases hy with (⟨r, -, rfl⟩ | ⟨r, -, rfl⟩) | ⟨r, hr, rfl⟩
          · cases hi
          · cases hi
          · cases hi
            exact hregs r ((hs.areas _ _ h3).2 r hr)
        | none =>
          rw [rnone _ (by simp [relOk, AMap.has_eq, h1, h2, h3])] at hget
          cases hget

/-! ### loading the written file -/

theorem ref_plain {r : Ref} (h1 : r.inv = false) (h2 : r.dummy = false) : ({ id := r.id } : Ref) = r := by
  obtain ⟨id, inv, dummy⟩ := r
  simp only at h1 h2
  subst h1 h2
  rfl

theorem ref_inv {r : Ref} (h2 : r.dummy = false) : ({ id := r.id, inv := r.inv } : Ref) = r := by
  obtain ⟨id, inv, dummy⟩ := r
  simp only at h2
  subst h2
  rfl

theorem getOrDummy_has {V : Type} {layer : AMap Id V} {i c : Id} (h : layer.has i = true) :
    getOrDummy layer i c = ({ id := i }, []) := by
  unfold getOrDummy; rw [if_pos h]

theorem oriented_unique {env : Env P D} {l r : List P} {a b a' b' : Bool} (h : Oriented env l r a b) (h' : Oriented env l r a' b') :
    a = a' ∧ b = b' := by
  unfold Oriented at h h'
  split at h
  · rename_i hc
    rw [if_pos hc] at h'
    exact ⟨h.1.trans h'.1.symm, h.2.trans h'.2.symm⟩
  · rename_i hc
    rw [if_neg hc] at h'
    have ha : a = a' := by rw [Bool.eq_iff_iff, h.1, h'.1]
    subst ha
    exact ⟨rfl, by rw [Bool.eq_iff_iff, h.2, h'.2]⟩

theorem linePositions_congr (env : Env P D) {m m' : LMap P} (h1 : ∀ i, posOf env m.points i = posOf env m'.points i)
    (h2 : ∀ i, (m.lines.get i).map (·.pts) = (m'.lines.get i).map (·.pts)) (i : Id) :
    linePositions env m i = linePositions env m' i := by
  have e : ∀ m : LMap P, linePositions env m i =
      (((m.lines.get i).map (·.pts)).map fun pts => pts.map fun p => posOf env m.points p.id).getD [] := by
    intro m
    unfold linePositions
    rw [Option.map_map]; rfl
  rw [e, e, h2]
  simp only [h1]

theorem roleMembers_stored (role : String) (i : Id) (attrs : Attrs) (b : Int) (xs : List (String × Target)) :
    roleMembers role ⟨i, attrs, ⟨b, stored xs⟩⟩ = xs.filterMap fun x => if x.1 = role then some x.2 else none := by
  unfold roleMembers stored
  simp only
  rw [List.filterMap_map]
  apply filterMap_congr'
  intro x _
  rfl

theorem filterMap_role {α : Type} (l : List α) (role role' : String) (f : α → Target) :
    ((l.map fun a => (role, f a)).filterMap fun x => if x.1 = role' then some x.2 else none) =
      if role = role' then l.map f else [] := by
  induction l with
  | nil => simp
  | cons a l ih =>
    rw [List.map_cons, List.filterMap_cons]
    simp only
    by_cases h : role = role'
    · subst h
      simp only [if_true] at ih ⊢
      rw [ih, List.map_cons]
    · simp only [if_neg h] at ih ⊢
      exact ih

theorem emplace_get_type {a : Attrs} {k v : String} (h : (a.get k).getD v = v) : (a.emplace k v).get k = some v := by
  rw [AMap.get_emplace, if_pos rfl, h]

theorem groupParams_same {params : AMap String (List Param)} (hk : (params.map (·.1)).Nodup) (hn : ∀ e ∈ params, e.2 ≠ []) :
    groupParams (params.flatMap fun e => e.2.map fun p => (e.1, p)) = params := by
  have push : ∀ (k : String) (ps : List Param) (a : AMap String (List Param)) (l : List Param), AMap.has a k = false →
      (ps.map fun p => (k, p)).foldl (fun a x => pushParam a x.1 x.2) (a ++ [(k, l)]) = a ++ [(k, l ++ ps)] := by
    intro k ps
    induction ps with
    | nil => intro a l _; simp
    | cons p ps ih =>
      intro a l ha
      rw [List.map_cons, List.foldl_cons]
      have hne : ∀ e ∈ a, e.1 ≠ k := by
        intro e he hek
        have : AMap.has a k = true := (AMap.has_iff_mem ..).mpr (List.mem_map.mpr ⟨e, he, hek⟩)
        rw [ha] at this; cases this
      have : pushParam (a ++ [(k, l)]) k p = a ++ [(k, l ++ [p])] := by
        unfold pushParam AMap.emplace
        have hh : AMap.has (a ++ [(k, l)]) k = true := (AMap.has_iff_mem ..).mpr (by simp)
        rw [if_pos hh]
        unfold AMap.modify
        rw [List.map_append]
        congr 1
        · conv => rhs; rw [← List.map_id a]
          apply List.map_congr_left
          intro e he
          rw [if_neg (hne e he)]; rfl
        · simp
      rw [this, ih a (l ++ [p]) ha]
      simp
  have key : ∀ (params a : AMap String (List Param)), ((a ++ params).map (·.1)).Nodup → (∀ e ∈ params, e.2 ≠ []) →
      (params.flatMap fun e => e.2.map fun p => (e.1, p)).foldl (fun a x => pushParam a x.1 x.2) a = a ++ params := by
    intro params
    induction params with
    | nil => intro a _ _; simp
    | cons e params ih =>
      intro a hk hn
      have ha : AMap.has a e.1 = false := by
        cases hh : AMap.has a e.1 with
        | false => rfl
        | true =>
          have hm := (AMap.has_iff_mem a e.1).mp hh
          rw [List.map_append, List.nodup_append] at hk
          exact absurd rfl (hk.2.2 _ hm _ (by simp))
      rw [List.flatMap_cons, List.foldl_append]
      obtain ⟨k, ps⟩ := e
      cases ps with
      | nil => exact absurd rfl (hn (k, []) (by simp))
      | cons p ps =>
        rw [List.map_cons, List.foldl_cons]
        have : pushParam a k p = a ++ [(k, [p])] := by
          unfold pushParam AMap.emplace
          rw [if_neg (by simp only at ha; simp [ha])]
          unfold AMap.modify
          rw [List.map_append]
          congr 1
          · conv => rhs; rw [← List.map_id a]
            apply List.map_congr_left
            intro e he
            rw [if_neg ?_]; rfl
            intro hek
            have : AMap.has a k = true := (AMap.has_iff_mem ..).mpr (List.mem_map.mpr ⟨e, he, hek⟩)
            simp only at ha
            rw [ha] at this; cases this
          · simp
        simp only at this ha ⊢
        rw [this, push k ps a [p] ha, ih (a ++ [(k, [p] ++ ps)]) (by simpa using hk) fun e he => hn e (List.mem_cons_of_mem _ he)]
        simp
  unfold groupParams
  rw [key params [] (by simpa using hk) hn]
  simp

theorem set_same {a : Attrs} (ha : a.Ok) {k v : String} (h : a.get k = some v) : a.set k v = a := by
  unfold AMap.set
  rw [if_pos (by rw [AMap.has_eq, h]; rfl)]
  conv => rhs; rw [← List.map_id a]
  apply List.map_congr_left
  intro e he
  by_cases hk : e.1 = k
  · rw [if_pos hk]
    have := AMap.get_of_mem ha he
    rw [hk, h] at this
    rw [Option.some.inj this]
    rfl
  · rw [if_neg hk]; rfl

theorem normalRing_refs {lines : AMap Id MLine} {r : List Ref} (h : ∀ x ∈ r, x.dummy = false) :
    (normalRing (r.map (refLine lines))).map Line.toRef = normalRefs r := by
  have hx : ∀ l : List Ref, (∀ x ∈ l, x.dummy = false) → (l.map (refLine lines)).map Line.toRef = l := by
    intro l hl
    rw [List.map_map]
    conv => rhs; rw [← List.map_id l]
    exact List.map_congr_left fun x hx => ref_inv (hl x hx)
  have hs : startsInverted (r.map (refLine lines)) = r.head?.any (·.inv) := by
    unfold startsInverted
    cases r <;> rfl
  unfold normalRing normalRefs
  rw [hs]
  split
  · rw [← List.map_tail, ← List.map_take, ← List.map_append, hx]
    intro x hx'
    rcases List.mem_append.mp hx' with h1 | h1
    · exact h x (List.mem_of_mem_tail h1)
    · exact h x (List.mem_of_mem_take h1)
  · exact hx r h

section trip
variable {env : Env P D} {reverse : P → Option (D × D × D)} {rt : P → P} {m : LMap P} {file : File D}

theorem trip_points (hr : Representable env reverse rt m) (hok : MapOk m) (hw : Written reverse m file) (i : Id) :
    (pointsOf env file).1.get i = (m.points.get i).map fun p => ⟨p.id, p.attrs, rt p.pos⟩ := by
  rw [pointsOf, get_collected _ hw.ok.nodes.nodup, hw.nodes]
  cases hp : m.points.get i with
  | none => rfl
  | some p =>
    obtain ⟨g, h1, h2⟩ := hr.project i p hp
    simp only [Option.bind_some, nodeOfPoint, h1, Option.map_some, loadNode, h2, getAttributes_eq (hok.pointAttrs _ (AMap.mem_of_get hp))]

theorem trip_point_errors (hr : Representable env reverse rt m) (hw : Written reverse m file) :
    (pointsOf env file).2 = [] := by
  unfold pointsOf collected
  rw [List.flatMap_eq_nil_iff]
  intro e he
  have := AMap.get_of_mem hw.ok.nodes.nodup he
  rw [hw.nodes] at this
  obtain ⟨p, hp1, hp2⟩ := Option.bind_eq_some_iff.mp this
  obtain ⟨g, hg1, hg⟩ := Option.map_eq_some_iff.mp hp2
  obtain ⟨g', h1, h2⟩ := hr.project _ p hp1
  rw [h1] at hg1
  obtain rfl := Option.some.inj hg1
  rw [← hg]
  simp [loadNode, h2]

theorem trip_pos (hr : Representable env reverse rt m) (hok : MapOk m) (hw : Written reverse m file) :
    posOf env (pointsOf env file).1 = posOf env (moved rt m).points := by
  funext i
  unfold posOf
  rw [trip_points hr hok hw]
  have : (moved rt m).points.get i = (m.points.get i).map fun p => ⟨p.id, p.attrs, rt p.pos⟩ := by
    unfold moved AMap.get
    simp only
    rw [List.find?_map, Option.map_map, Option.map_map]
    rfl
  rw [this]

theorem trip_has (hr : Representable env reverse rt m) (hok : MapOk m) (hw : Written reverse m file) (i : Id) :
    (pointsOf env file).1.has i = m.points.has i := by
  rw [AMap.has_eq, AMap.has_eq, trip_points hr hok hw, Option.isSome_map]

theorem trip_refs (hr : Representable env reverse rt m) (hok : MapOk m) (hw : Written reverse m file) {pts : List Ref}
    (h1 : ∀ r ∈ pts, InLayer m.points r) (h2 : ∀ r ∈ pts, r.inv = false) {i : Id} {attrs : Attrs} :
    pointRefs (pointsOf env file).1 ⟨i, attrs, pts.map (·.id)⟩ = pts ∧
    (pts ≠ [] → wayErrors (pointsOf env file).1 ⟨i, attrs, pts.map (·.id)⟩ = []) := by
  constructor
  · unfold pointRefs
    simp only
    rw [List.map_map]
    conv => rhs; rw [← List.map_id pts]
    apply List.map_congr_left
    intro r hr'
    simp only [Function.comp]
    rw [getOrDummy_has (by rw [trip_has hr hok hw]; exact (h1 r hr').2)]
    exact ref_plain (h2 r hr') (h1 r hr').1
  · intro hne
    unfold wayErrors
    rw [List.append_eq_nil_iff, List.flatMap_eq_nil_iff]
    refine ⟨?_, by simp [hne]⟩
    intro n hn
    obtain ⟨r, hr', rfl⟩ := List.mem_map.mp hn
    rw [getOrDummy_has (by rw [trip_has hr hok hw]; exact (h1 r hr').2)]

theorem area_line (hr : Representable env reverse rt m) {i : Id} {l : MLine} (h : m.lines.get i = some l) :
    isArea env l.attrs = false := by
  cases hx : isArea env l.attrs with
  | false => rfl
  | true => exact absurd ((isArea_iff env _).mp hx) (hr.lineArea i l h)

theorem area_poly (hr : Representable env reverse rt m) {i : Id} {p : MPoly} (h : m.polys.get i = some p) :
    isArea env (p.attrs.emplace "area" "true") = true := by
  rw [isArea_iff, AMap.get_emplace, if_pos rfl, Option.bind_some]
  exact hr.polyArea i p h

theorem trip_lines (hr : Representable env reverse rt m) (hok : MapOk m) (hs : SelfContained m) (hw : Written reverse m file) (i : Id) :
    (linesOf env file).get i = (m.lines.get i).map fun l => { l with inv := false } := by
  rw [linesOf_get env hw.ok]
  cases hl : m.lines.get i with
  | some l =>
    obtain ⟨h1, h2⟩ := hr.linePts i l hl
    rw [hw.lines i l hl, Option.bind_some]
    unfold loadedLine
    rw [if_pos ⟨by simpa using h1, area_line hr hl⟩, (trip_refs hr hok hw (hs.lines i l hl) h2).1]
    have hk : l.id = i := hok.lines.key _ (AMap.mem_of_get hl)
    rw [Option.map_some, ← hk]
  | none =>
    cases hp : m.polys.get i with
    | some p =>
      rw [hw.polys i p hp, Option.bind_some]
      unfold loadedLine
      rw [if_neg]
      · rfl
      · rintro ⟨-, h⟩
        rw [area_poly hr hp] at h
        cases h
    | none => rw [hw.noWay i hl hp]; rfl

theorem trip_polys (hr : Representable env reverse rt m) (hok : MapOk m) (hs : SelfContained m)
    (hw : Written reverse m file) (i : Id) :
    (polysOf env file).get i = (m.polys.get i).map fun p => { p with attrs := p.attrs.emplace "area" "true" } := by
  rw [polysOf_get env hw.ok]
  cases hp : m.polys.get i with
  | some p =>
    obtain ⟨h1, h2⟩ := hr.polyPts i p hp
    rw [hw.polys i p hp, Option.bind_some]
    unfold loadedPoly
    rw [if_pos ⟨by simpa using h1, area_poly hr hp⟩, (trip_refs hr hok hw (hs.polys i p hp) h2).1]
    have hk : p.id = i := hok.polys.key _ (AMap.mem_of_get hp)
    rw [Option.map_some, ← hk]
  | none =>
    cases hl : m.lines.get i with
    | some l =>
      rw [hw.lines i l hl, Option.bind_some]
      unfold loadedPoly
      rw [if_neg]
      · rfl
      · rintro ⟨-, h⟩
        rw [area_line hr hl] at h
        cases h
    | none => rw [hw.noWay i hl hp]; rfl

theorem trip_way_errors (hr : Representable env reverse rt m) (hok : MapOk m) (hs : SelfContained m) (hw : Written reverse m file) :
    (file.ways.flatMap fun e => wayErrors (pointsOf env file).1 e.2) = [] := by
  rw [List.flatMap_eq_nil_iff]
  intro e he
  have hget := AMap.get_of_mem hw.ok.ways.nodup he
  cases hl : m.lines.get e.1 with
  | some l =>
    rw [hw.lines _ l hl] at hget
    rw [← Option.some.inj hget]
    obtain ⟨h1, h2⟩ := hr.linePts _ l hl
    exact (trip_refs hr hok hw (hs.lines _ l hl) h2).2 h1
  | none =>
    cases hp : m.polys.get e.1 with
    | some p =>
      rw [hw.polys _ p hp] at hget
      rw [← Option.some.inj hget]
      obtain ⟨h1, h2⟩ := hr.polyPts _ p hp
      exact (trip_refs hr hok hw (hs.polys _ p hp) h2).2 h1
    | none => rw [hw.noWay _ hl hp] at hget; cases hget

theorem trip_line_has (hr : Representable env reverse rt m) (hok : MapOk m) (hs : SelfContained m) (hw : Written reverse m file)
    (i : Id) : (linesOf env file).has i = m.lines.has i := by
  rw [AMap.has_eq, AMap.has_eq, trip_lines hr hok hs hw, Option.isSome_map]

/-- the relation of a lanelet is loaded as the lanelet -/
theorem trip_lanelet (hr : Representable env reverse rt m) (hok : MapOk m) (hs : SelfContained m) (hw : Written reverse m file)
    {i : Id} {l : MLanelet} (hl : m.lanelets.get i = some l) {rel : Relation} (hrel : file.relations.get i = some rel) :
    isType "lanelet" rel = true ∧ isType "multipolygon" rel = false ∧ isType "regulatory_element" rel = false ∧
    laneletOf env (pointsOf env file).1 (linesOf env file) rel =
      (some ⟨l.id, l.attrs.emplace "type" "lanelet", l.left, l.right, l.center, []⟩, []) ∧
    roleMembers "regulatory_element" rel = l.regs.map fun r => .relation r.id := by
  obtain ⟨b, hb⟩ := hw.lanelets i l hl
  rw [hrel] at hb
  obtain rfl := Option.some.inj hb
  have hty := emplace_get_type (hr.laneletType i l hl)
  obtain ⟨hbd, hrg⟩ := hs.lanelets i l hl
  have hk : l.id = i := hok.lanelets.key _ (AMap.mem_of_get hl)
  have n1 : ¬ (("right" : String) = "left") := by decide
  have n2 : ¬ (("centerline" : String) = "left") := by decide
  have n3 : ¬ (("regulatory_element" : String) = "left") := by decide
  have n4 : ¬ (("left" : String) = "right") := by decide
  have n5 : ¬ (("centerline" : String) = "right") := by decide
  have n6 : ¬ (("regulatory_element" : String) = "right") := by decide
  have n7 : ¬ (("left" : String) = "centerline") := by decide
  have n8 : ¬ (("right" : String) = "centerline") := by decide
  have n9 : ¬ (("regulatory_element" : String) = "centerline") := by decide
  have n10 : ¬ (("left" : String) = "regulatory_element") := by decide
  have n11 : ¬ (("right" : String) = "regulatory_element") := by decide
  have n12 : ¬ (("centerline" : String) = "regulatory_element") := by decide
  have rl : ∀ role, roleMembers role ⟨i, l.attrs.emplace "type" "lanelet", ⟨b, stored (("left", Target.way l.left.id) ::
      ("right", .way l.right.id) :: l.center.toList.map (fun r => ("centerline", .way r.id)) ++
        l.regs.map fun r => ("regulatory_element", .relation r.id))⟩⟩ =
      (if "left" = role then [Target.way l.left.id] else []) ++ (if "right" = role then [Target.way l.right.id] else []) ++
      (if "centerline" = role then l.center.toList.map (fun r => Target.way r.id) else []) ++
      (if "regulatory_element" = role then l.regs.map (fun r => Target.relation r.id) else []) := by
    intro role
    rw [roleMembers_stored, List.cons_append, List.cons_append, List.filterMap_cons, List.filterMap_cons, List.filterMap_append,
      filterMap_role, filterMap_role]
    by_cases h1 : "left" = role <;> by_cases h2 : "right" = role <;> simp [h1, h2]
  have hleft : (linesOf env file).has l.left.id = true := by
    rw [trip_line_has hr hok hs hw]; exact (hbd l.left (by simp)).2
  have hright : (linesOf env file).has l.right.id = true := by
    rw [trip_line_has hr hok hs hw]; exact (hbd l.right (by simp)).2
  refine ⟨by simp [isType, hty], by simp [isType, hty], by simp [isType, hty], ?_, ?_⟩
  · unfold laneletOf
    rw [if_pos (by simp [isType, hty])]
    have e1 : borderOf (linesOf env file) ⟨i, l.attrs.emplace "type" "lanelet", ⟨b, stored (("left", Target.way l.left.id) ::
      ("right", .way l.right.id) :: l.center.toList.map (fun r => ("centerline", .way r.id)) ++
        l.regs.map fun r => ("regulatory_element", .relation r.id))⟩⟩ "left" = ({ id := l.left.id }, []) := by
      unfold borderOf
      rw [rl "left"]
      simp only [if_true, n1, n2, n3, if_false, List.append_nil]
      exact getOrDummy_has hleft
    have e2 : borderOf (linesOf env file) ⟨i, l.attrs.emplace "type" "lanelet", ⟨b, stored (("left", Target.way l.left.id) ::
      ("right", .way l.right.id) :: l.center.toList.map (fun r => ("centerline", .way r.id)) ++
        l.regs.map fun r => ("regulatory_element", .relation r.id))⟩⟩ "right" = ({ id := l.right.id }, []) := by
      unfold borderOf
      rw [rl "right"]
      simp only [if_true, n4, n5, n6, if_false, List.append_nil, List.nil_append]
      exact getOrDummy_has hright
    have e3 : centerOf (linesOf env file) ⟨i, l.attrs.emplace "type" "lanelet", ⟨b, stored (("left", Target.way l.left.id) ::
      ("right", .way l.right.id) :: l.center.toList.map (fun r => ("centerline", .way r.id)) ++
        l.regs.map fun r => ("regulatory_element", .relation r.id))⟩⟩ = (l.center, []) := by
      have hrc := rl "centerline"
      simp only [if_true, n7, n8, n9, if_false, List.append_nil, List.nil_append] at hrc
      unfold centerOf borderOf
      rw [hrc]
      cases hc : l.center with
      | none => rfl
      | some c =>
        have hcl : (linesOf env file).has c.id = true := by
          rw [trip_line_has hr hok hs hw]; exact (hbd c (by simp [hc])).2
        simp only [Option.toList_some, List.map_cons, List.map_nil, List.isEmpty_cons, Bool.false_eq_true, if_false]
        rw [getOrDummy_has hcl]
        rw [ref_plain (hr.laneletRefs i l hl c (by simp [hc])) (hbd c (by simp [hc])).1]
    simp only [e1, e2, e3, List.append_nil]
    obtain ⟨x, y, hxy⟩ := align_same env (pointsOf env file).1 (linesOf env file) { id := l.left.id } { id := l.right.id }
    have ho := align_oriented (m := ⟨(pointsOf env file).1, linesOf env file, [], [], [], []⟩) hxy
    have hc : ∀ j, linePositions env ⟨(pointsOf env file).1, linesOf env file, [], [], [], []⟩ j = linePositions env (moved rt m) j := by
      intro j
      refine linePositions_congr env (fun k => congrFun (trip_pos hr hok hw) k) (fun k => ?_) j
      simp only
      rw [trip_lines hr hok hs hw, Option.map_map]
      rfl
    rw [hc, hc] at ho
    obtain ⟨rfl, rfl⟩ := oriented_unique (hr.bounds i l hl) ho
    rw [hxy]
    simp only [hk]
    rw [ref_inv (hbd l.left (by simp)).1, ref_inv (hbd l.right (by simp)).1]
  · rw [rl "regulatory_element"]
    simp only [if_true, n10, n11, n12, if_false, List.nil_append]

theorem trip_ring_lines (hr : Representable env reverse rt m) (hok : MapOk m) (hs : SelfContained m) (hw : Written reverse m file)
    {rel : Relation} {role : String} {rs : List Ref} (h : roleMembers role rel = rs.map fun r => .way r.id)
    (hin : ∀ r ∈ rs, InLayer m.lines r) :
    (roleLines (linesOf env file) rel role).map MLine.toLine = (rs.map (refLine m.lines)).map Line.data ∧
    roleLineErrors (linesOf env file) rel role = [] := by
  constructor
  · unfold roleLines
    rw [h, List.filterMap_map, List.map_filterMap, List.map_map]
    apply filterMap_eq_map
    intro r hr'
    obtain ⟨l, hl⟩ := has_get.mp (hin r hr').2
    have hk : l.id = r.id := hok.lines.key _ (AMap.mem_of_get hl)
    simp only [Function.comp, trip_lines hr hok hs hw, hl, Option.map_some, MLine.toLine, Line.data, refLine, Option.getD_some, hk]
  · unfold roleLineErrors
    rw [h, List.flatMap_eq_nil_iff]
    intro t ht
    obtain ⟨r, hr', rfl⟩ := List.mem_map.mp ht
    simp only [lineError]
    rw [if_pos (by rw [trip_line_has hr hok hs hw]; exact (hin r hr').2)]

theorem trip_valid (hr : Representable env reverse rt m) (hok : MapOk m) (hw : Written reverse m file) :
    ringValid env (pointsOf env file).1 = ringValid env (moved rt m).points := by
  funext ring
  unfold ringValid
  rw [trip_pos hr hok hw]

theorem normalRing_ne {r : List Line} (h : r ≠ []) : normalRing r ≠ [] := by
  unfold normalRing
  split
  · cases r with
    | nil => exact absurd rfl h
    | cons a r => simp
  · exact h

/-- the relation of an area is loaded as the area -/
theorem trip_area (hr : Representable env reverse rt m) (hok : MapOk m) (hs : SelfContained m) (hw : Written reverse m file)
    {i : Id} {a : MArea} (ha : m.areas.get i = some a) {rel : Relation} (hrel : file.relations.get i = some rel) :
    isType "lanelet" rel = false ∧ isType "multipolygon" rel = true ∧ isType "regulatory_element" rel = false ∧
    areaOf env (pointsOf env file).1 (linesOf env file) rel =
      (some ⟨a.id, a.attrs.emplace "type" "multipolygon", normalRefs a.outer, a.inner.map normalRefs, []⟩, []) ∧
    roleMembers "regulatory_element" rel = a.regs.map fun r => .relation r.id := by
  obtain ⟨b, hb⟩ := hw.areas i a ha
  rw [hrel] at hb
  obtain rfl := Option.some.inj hb
  have hty := emplace_get_type (hr.areaType i a ha)
  obtain ⟨hbd, hrg⟩ := hs.areas i a ha
  have hk : a.id = i := hok.areas.key _ (AMap.mem_of_get ha)
  have n1 : ¬ (("inner" : String) = "outer") := by decide
  have n2 : ¬ (("regulatory_element" : String) = "outer") := by decide
  have n3 : ¬ (("outer" : String) = "inner") := by decide
  have n4 : ¬ (("regulatory_element" : String) = "inner") := by decide
  have n5 : ¬ (("outer" : String) = "regulatory_element") := by decide
  have n6 : ¬ (("inner" : String) = "regulatory_element") := by decide
  generalize hrel' : (⟨i, a.attrs.emplace "type" "multipolygon", ⟨b, stored (a.outer.map (fun r => ("outer", .way r.id)) ++
    a.inner.flatten.map (fun r => ("inner", .way r.id)) ++ a.regs.map fun r => ("regulatory_element", .relation r.id))⟩⟩ : Relation) = rel
    at *
  have rl : ∀ role, roleMembers role rel =
      (if "outer" = role then a.outer.map (fun r => Target.way r.id) else []) ++
      (if "inner" = role then a.inner.flatten.map (fun r => Target.way r.id) else []) ++
      (if "regulatory_element" = role then a.regs.map (fun r => Target.relation r.id) else []) := by
    intro role
    rw [← hrel', roleMembers_stored, List.filterMap_append, List.filterMap_append, filterMap_role, filterMap_role, filterMap_role]
  have ro := rl "outer"
  have ri := rl "inner"
  have rr := rl "regulatory_element"
  simp only [if_true, n1, n2, n3, n4, n5, n6, if_false, List.append_nil, List.nil_append] at ro ri rr
  have ht : rel.attrs.get "type" = some "multipolygon" := by rw [← hrel']; exact hty
  have hid : rel.id = i := by rw [← hrel']
  have hat : rel.attrs = a.attrs.emplace "type" "multipolygon" := by rw [← hrel']
  have htm : isType "multipolygon" rel = true := by simp [isType, ht]
  refine ⟨by simp [isType, ht], htm, by simp [isType, ht], ?_, rr⟩
  obtain ⟨o1, o2⟩ := trip_ring_lines hr hok hs hw ro fun r hr' => hbd r (List.mem_append_left _ hr')
  obtain ⟨i1, i2⟩ := trip_ring_lines hr hok hs hw ri fun r hr' => hbd r (List.mem_append_right _ hr')
  obtain ⟨so, vo⟩ := hr.outer i a ha
  obtain ⟨si, vi⟩ := hr.inner i a ha
  have ho : ringsOf env (pointsOf env file).1 (roleLines (linesOf env file) rel "outer") =
      ([normalRing (a.outer.map (refLine m.lines))], []) := by
    have := assemble_again (ringValid env (moved rt m).points) so (by
      intro r hr'
      obtain rfl := List.mem_singleton.mp hr'
      exact vo)
    unfold ringsOf
    rw [o1, trip_valid hr hok hw]
    simp only [List.flatten_cons, List.flatten_nil, List.append_nil] at this
    rw [this]
    rfl
  have hi : ringsOf env (pointsOf env file).1 (roleLines (linesOf env file) rel "inner") =
      ((a.inner.map fun r => r.map (refLine m.lines)).map normalRing, []) := by
    have := assemble_again (ringValid env (moved rt m).points) si (by
      intro r hr'
      obtain ⟨x, hx, rfl⟩ := List.mem_map.mp hr'
      exact vi x hx)
    unfold ringsOf
    rw [i1, trip_valid hr hok hw]
    rw [← List.map_flatten] at this
    rw [this]
    rfl
  have hne : a.outer.map (refLine m.lines) ≠ [] := by
    obtain ⟨-, f, -, -, hf, -⟩ := so.ring _ (List.mem_singleton.mpr rfl)
    intro hc
    rw [hc] at hf
    cases hf
  have hne' : (roleLines (linesOf env file) rel "outer").isEmpty = false := by
    cases hx : roleLines (linesOf env file) rel "outer" with
    | nil =>
      rw [hx] at o1
      simp only [List.map_nil] at o1
      exact absurd (List.map_eq_nil_iff.mp o1.symm) hne
    | cons x xs => rfl
  have hne2 : (normalRing (a.outer.map (refLine m.lines))).isEmpty = false := by
    cases hx : normalRing (a.outer.map (refLine m.lines)) with
    | nil => exact absurd hx (normalRing_ne hne)
    | cons x xs => rfl
  unfold areaOf
  simp only [htm, if_true, hne', ho, hi, hne2, o2, i2, hid, hat, hk, List.map_nil, List.append_nil, List.nil_append]
  rw [normalRing_refs fun x hx => (hbd x (List.mem_append_left _ hx)).1]
  have hin : ((a.inner.map fun r => r.map (refLine m.lines)).map normalRing).map (fun x => x.map Line.toRef) = a.inner.map normalRefs := by
    rw [List.map_map, List.map_map]
    apply List.map_congr_left
    intro x hx
    exact normalRing_refs fun y hy => (hbd y (List.mem_append_right _ (List.mem_flatten.mpr ⟨x, hx, hy⟩))).1
  rw [hin]
  rfl

theorem trip_relation (hw : Written reverse m file) {i : Id} {rel : Relation} (hrel : file.relations.get i = some rel) :
    (∃ l, m.lanelets.get i = some l) ∨ (∃ a, m.areas.get i = some a) ∨ (∃ g, m.regs.get i = some g) := by
  have : relOk m i = true := by
    cases h : relOk m i with
    | true => rfl
    | false => rw [hw.noRelation i h] at hrel; cases hrel
  unfold relOk at this
  simp only [Bool.or_eq_true] at this
  rcases this with (h | h) | h
  · exact .inr (.inr (has_get.mp h))
  · exact .inl (has_get.mp h)
  · exact .inr (.inl (has_get.mp h))

theorem trip_polys_has (hr : Representable env reverse rt m) (hok : MapOk m) (hd : Distinct m) (hs : SelfContained m)
    (hw : Written reverse m file) (i : Id) : (polysOf env file).has i = m.polys.has i := by
  rw [AMap.has_eq, AMap.has_eq, trip_polys hr hok hs hw, Option.isSome_map]

/-- a member of a regulatory element is loaded as the parameter -/
theorem trip_param (hr : Representable env reverse rt m) (hok : MapOk m) (hd : Distinct m) (hs : SelfContained m)
    (hw : Written reverse m file) {p : Param} (hin : ParamIn m p) (hp : p.plain) (reg : Id) :
    paramOf (layersOf env file) reg (targetOf p) = (some p, []) := by
  unfold paramOf
  have hgd : ∀ {V : Type} (layer : AMap Id V) {r : Ref}, layer.has r.id = true → r.inv = false → r.dummy = false →
      getOrDummy layer r.id reg = (r, []) := by
    intro V layer r h h1 h2
    rw [getOrDummy_has h, ref_plain h1 h2]
  cases p with
  | point r =>
    have e1 : (layersOf env file).points.has r.id = true := (trip_has hr hok hw r.id).trans hin.2
    simp only [targetOf, getParam, Option.getD_some, hgd _ e1 hp hin.1]
  | line r =>
    have e1 : (layersOf env file).polys.has r.id = false := (trip_polys_has hr hok hd hs hw r.id).trans (hd.lines _ hin.2)
    have e2 : (layersOf env file).lines.has r.id = true := (trip_line_has hr hok hs hw r.id).trans hin.2
    simp only [targetOf, getParam, e1, Bool.false_eq_true, if_false, Option.getD_some, hgd _ e2 hp hin.1]
  | poly r =>
    have e1 : (layersOf env file).polys.has r.id = true := (trip_polys_has hr hok hd hs hw r.id).trans hin.2
    simp only [targetOf, getParam, e1, if_true, Option.getD_some, hgd _ e1 hp hin.1]
  | lanelet r =>
    obtain ⟨l, hl⟩ := has_get.mp hin.2
    obtain ⟨b, hb⟩ := hw.lanelets _ l hl
    obtain ⟨h1, -, -, h4, -⟩ := trip_lanelet hr hok hs hw hl hb
    have hh : (layersOf env file).lanelets.has r.id = true := by
      show (laneletsOf env file).1.has r.id = true
      rw [AMap.has_eq, laneletsOf, get_collected _ hw.ok.relations.nodup, hb, Option.bind_some, h4]; rfl
    have hb' := hb
    change (layersOf env file).relations.get r.id = _ at hb'
    have ht : AMap.get (AMap.emplace l.attrs "type" "lanelet") "type" = some "lanelet" := emplace_get_type (hr.laneletType _ l hl)
    simp only [targetOf, getParam, hb', bind, Option.bind, ht, if_true, hgd _ hh hp hin.1, hin.1]
    rfl
  | area r =>
    obtain ⟨l, hl⟩ := has_get.mp hin.2
    obtain ⟨b, hb⟩ := hw.areas _ l hl
    obtain ⟨-, h1, -, h4, -⟩ := trip_area hr hok hs hw hl hb
    have hh : (layersOf env file).areas.has r.id = true := by
      show (areasOf env file).1.has r.id = true
      rw [AMap.has_eq, areasOf, get_collected _ hw.ok.relations.nodup, hb, Option.bind_some, h4]; rfl
    have hb' := hb
    change (layersOf env file).relations.get r.id = _ at hb'
    have ht : AMap.get (AMap.emplace l.attrs "type" "multipolygon") "type" = some "multipolygon" := emplace_get_type (hr.areaType _ l hl)
    have n1 : ¬ (("multipolygon" : String) = "lanelet") := by decide
    simp only [targetOf, getParam, hb', bind, Option.bind, ht, if_true, n1, if_false, hgd _ hh hp hin.1, hin.1]
    rfl
  | expired => cases hin

/-- the relation of a regulatory element is loaded as the regulatory element -/
theorem trip_reg (hr : Representable env reverse rt m) (hok : MapOk m) (hd : Distinct m) (hs : SelfContained m)
    (hw : Written reverse m file) {i : Id} {g : MReg} (hg : m.regs.get i = some g) {rel : Relation}
    (hrel : file.relations.get i = some rel) :
    isType "lanelet" rel = false ∧ isType "multipolygon" rel = false ∧ isType "regulatory_element" rel = true ∧
    regOf env (layersOf env file) rel = (some ⟨g.id, g.attrs.emplace "type" "regulatory_element", g.params⟩, []) := by
  obtain ⟨b, hb⟩ := hw.regs i g hg
  rw [hrel] at hb
  have hty := emplace_get_type (hr.regType i g hg)
  have hk : g.id = i := hok.regs.key _ (AMap.mem_of_get hg)
  obtain ⟨p1, p2, p3⟩ := hr.params i g hg
  obtain ⟨sub, s1, s2, s3⟩ := hr.registry i g hg
  have e1 : (g.params.flatMap fun e => e.2.map fun p => (e.1, targetOf p)) =
      (g.params.flatMap fun e => e.2.map fun p => (e.1, p)).map fun x => (x.1, targetOf x.2) := by
    rw [List.map_flatMap]
    apply flatMap_congr'
    intro e _
    rw [List.map_map]; rfl
  have hmem : ∀ x ∈ (g.params.flatMap fun e => e.2.map fun p => (e.1, p)), x.2 ∈ paramsOf g := by
    intro x hx
    obtain ⟨e, he, hx⟩ := List.mem_flatMap.mp hx
    obtain ⟨p, hp, rfl⟩ := List.mem_map.mp hx
    exact List.mem_flatMap.mpr ⟨e, he, hp⟩
  have hpar : ∀ x ∈ (g.params.flatMap fun e => e.2.map fun p => (e.1, p)),
      paramOf (layersOf env file) i (targetOf x.2) = (some x.2, []) := fun x hx =>
    trip_param hr hok hd hs hw (hs.regs i g hg _ (hmem x hx)) (p3 _ (hmem x hx)) i
  have hitems : rel.members.items = (g.params.flatMap fun e => e.2.map fun p => (e.1, p)).map fun x => (x.1, some (targetOf x.2)) := by
    rw [Option.some.inj hb]
    simp only [stored]
    rw [e1, List.map_map]; rfl
  have hid : rel.id = i := by rw [Option.some.inj hb]
  have hat : rel.attrs = g.attrs.emplace "type" "regulatory_element" := by rw [Option.some.inj hb]
  have hrules : ruleList (layersOf env file) rel = g.params.flatMap fun e => e.2.map fun p => (e.1, p) := by
    unfold ruleList
    rw [hitems, List.filterMap_map, hid]
    conv => rhs; rw [← List.map_id (g.params.flatMap fun e => e.2.map fun p => (e.1, p))]
    apply filterMap_eq_map
    intro x hx
    simp only [Function.comp, Option.bind_some, hpar x hx, Option.map_some, id]
  have herr : ruleErrors (layersOf env file) rel = [] := by
    unfold ruleErrors
    rw [hitems, List.flatMap_eq_nil_iff, hid]
    intro y hy
    obtain ⟨x, hx, rfl⟩ := List.mem_map.mp hy
    simp only [hpar x hx]
  have ht : rel.attrs.get "type" = some "regulatory_element" := by rw [hat]; exact hty
  have htr : isType "regulatory_element" rel = true := by simp [isType, ht]
  refine ⟨by simp [isType, ht], by simp [isType, ht], htr, ?_⟩
  have n1 : ¬ (("subtype" : String) = "type") := by decide
  have hsub : AMap.get (AMap.emplace g.attrs "type" "regulatory_element") "subtype" = some sub := by
    rw [AMap.get_emplace, if_neg n1, s1]
  have hset : AMap.set (AMap.emplace g.attrs "type" "regulatory_element") "subtype" sub =
      AMap.emplace g.attrs "type" "regulatory_element" :=
    set_same (AMap.nodup_emplace _ _ _ (hok.regAttrs _ (AMap.mem_of_get hg))) hsub
  unfold regOf
  rw [if_pos htr, hrules, herr, groupParams_same p1 p2, hat, hsub, hid]
  simp only [factoryCreate, if_neg s2, hset]
  rw [← hk, s3]

theorem trip_regs (hr : Representable env reverse rt m) (hok : MapOk m) (hd : Distinct m) (hs : SelfContained m)
    (hw : Written reverse m file) (i : Id) : (regsOf env file).1.get i =
      (m.regs.get i).map fun g => { g with attrs := g.attrs.emplace "type" "regulatory_element" } := by
  rw [regsOf, get_collected _ hw.ok.relations.nodup]
  cases hg : m.regs.get i with
  | some g =>
    obtain ⟨b, hb⟩ := hw.regs i g hg
    rw [hb, Option.bind_some, (trip_reg hr hok hd hs hw hg hb).2.2.2]
    rfl
  | none =>
    cases hrel : file.relations.get i with
    | none => rfl
    | some rel =>
      have ht : isType "regulatory_element" rel = false := by
        rcases trip_relation hw hrel with ⟨l, hl⟩ | ⟨a, ha⟩ | ⟨g, hg'⟩
        · exact (trip_lanelet hr hok hs hw hl hrel).2.2.1
        · exact (trip_area hr hok hs hw ha hrel).2.2.1
        · rw [hg] at hg'; cases hg'
      rw [Option.bind_some, regOf, if_neg (by simp [ht])]
      rfl

theorem trip_reg_refs (hr : Representable env reverse rt m) (hok : MapOk m) (hd : Distinct m) (hs : SelfContained m)
    (hw : Written reverse m file) {rel : Relation} {rs : List Ref} (h : roleMembers "regulatory_element" rel = rs.map fun r => .relation r.id)
    (h1 : ∀ r ∈ rs, InLayer m.regs r) (h2 : ∀ r ∈ rs, r.inv = false) :
    regRefs (regsOf env file).1 rel = rs ∧ regRefErrors (regsOf env file).1 rel = [] := by
  have hh : ∀ r ∈ rs, (regsOf env file).1.has r.id = true := by
    intro r hr'
    rw [AMap.has_eq, trip_regs hr hok hd hs hw, Option.isSome_map, ← AMap.has_eq]
    exact (h1 r hr').2
  constructor
  · unfold regRefs
    rw [h, List.map_map]
    conv => rhs; rw [← List.map_id rs]
    apply List.map_congr_left
    intro r hr'
    simp only [Function.comp, Target.id]
    rw [getOrDummy_has (hh r hr')]
    exact ref_plain (h2 r hr') (h1 r hr').1
  · unfold regRefErrors
    rw [h, List.flatMap_eq_nil_iff]
    intro t ht
    obtain ⟨r, hr', rfl⟩ := List.mem_map.mp ht
    simp only [Target.id]
    rw [getOrDummy_has (hh r hr')]

end trip

/-- what has been written is loaded again -/
theorem load_written {env : Env P D} {reverse : P → Option (D × D × D)} {rt : P → P} {m : LMap P} {file : File D}
    (hok : MapOk m) (hd : Distinct m) (hs : SelfContained m) (hr : Representable env reverse rt m) (hw : Written reverse m file) :
    ∃ m', loadMap env file = some (m', []) ∧ SameMap rt m m' := by
  obtain ⟨ls, as, h2, -, -, h5, h6⟩ := loadMap_eq env hw.ok
  have lregs : ∀ {i l rel}, m.lanelets.get i = some l → file.relations.get i = some rel →
      regRefs (regsOf env file).1 rel = l.regs ∧ regRefErrors (regsOf env file).1 rel = [] := by
    intro i l rel hl hrel
    exact trip_reg_refs hr hok hd hs hw (trip_lanelet hr hok hs hw hl hrel).2.2.2.2 (hs.lanelets i l hl).2 fun r hr' =>
      hr.laneletRefs i l hl r (List.mem_append_right _ hr')
  have aregs : ∀ {i a rel}, m.areas.get i = some a → file.relations.get i = some rel →
      regRefs (regsOf env file).1 rel = a.regs ∧ regRefErrors (regsOf env file).1 rel = [] := by
    intro i a rel ha hrel
    exact trip_reg_refs hr hok hd hs hw (trip_area hr hok hs hw ha hrel).2.2.2.2 (hs.areas i a ha).2 (hr.areaRefs i a ha)
  have herr : loadErrors env file = [] := by
    unfold loadErrors
    rw [trip_point_errors hr hw, trip_way_errors hr hok hs hw]
    simp only [List.nil_append, List.append_eq_nil_iff, laneletsOf, areasOf, regsOf, collected, List.flatMap_eq_nil_iff]
    have hget : ∀ e ∈ file.relations, file.relations.get e.1 = some e.2 := fun e he => AMap.get_of_mem hw.ok.relations.nodup he
    refine ⟨⟨⟨⟨?_, ?_⟩, ?_⟩, ?_⟩, ?_⟩
    · intro e he
      rcases trip_relation hw (hget e he) with ⟨l, hl⟩ | ⟨a, ha⟩ | ⟨g, hg⟩
      · rw [(trip_lanelet hr hok hs hw hl (hget e he)).2.2.2.1]
      · rw [laneletOf, if_neg (by simp [(trip_area hr hok hs hw ha (hget e he)).1])]
      · rw [laneletOf, if_neg (by simp [(trip_reg hr hok hd hs hw hg (hget e he)).1])]
    · intro e he
      rcases trip_relation hw (hget e he) with ⟨l, hl⟩ | ⟨a, ha⟩ | ⟨g, hg⟩
      · rw [areaOf, if_neg (by simp [(trip_lanelet hr hok hs hw hl (hget e he)).2.1])]
      · rw [(trip_area hr hok hs hw ha (hget e he)).2.2.2.1]
      · rw [areaOf, if_neg (by simp [(trip_reg hr hok hd hs hw hg (hget e he)).2.1])]
    · intro e he
      rcases trip_relation hw (hget e he) with ⟨l, hl⟩ | ⟨a, ha⟩ | ⟨g, hg⟩
      · rw [regOf, if_neg (by simp [(trip_lanelet hr hok hs hw hl (hget e he)).2.2.1])]
      · rw [regOf, if_neg (by simp [(trip_area hr hok hs hw ha (hget e he)).2.2.1])]
      · rw [(trip_reg hr hok hd hs hw hg (hget e he)).2.2.2]
    · intro e he
      have ht := (List.mem_filter.mp he).2
      have he := (List.mem_filter.mp he).1
      simp only [Bool.and_eq_true] at ht
      rcases trip_relation hw (hget e he) with ⟨l, hl⟩ | ⟨a, ha⟩ | ⟨g, hg⟩
      · exact (lregs hl (hget e he)).2
      · rw [(trip_area hr hok hs hw ha (hget e he)).1] at ht; cases ht.1
      · rw [(trip_reg hr hok hd hs hw hg (hget e he)).1] at ht; cases ht.1
    · intro e he
      have ht := (List.mem_filter.mp he).2
      have he := (List.mem_filter.mp he).1
      simp only [Bool.and_eq_true] at ht
      rcases trip_relation hw (hget e he) with ⟨l, hl⟩ | ⟨a, ha⟩ | ⟨g, hg⟩
      · rw [(trip_lanelet hr hok hs hw hl (hget e he)).2.1] at ht; cases ht.1
      · exact (aregs ha (hget e he)).2
      · rw [(trip_reg hr hok hd hs hw hg (hget e he)).2.1] at ht; cases ht.1
  rw [herr] at h2
  refine ⟨_, h2, ⟨trip_points hr hok hw, trip_lines hr hok hs hw, trip_polys hr hok hs hw, ?_, ?_, trip_regs hr hok hd hs hw⟩⟩
  · intro i
    simp only
    rw [h5]
    cases hl : m.lanelets.get i with
    | some l =>
      obtain ⟨b, hb⟩ := hw.lanelets i l hl
      rw [hb, Option.bind_some, (trip_lanelet hr hok hs hw hl hb).2.2.2.1, (lregs hl hb).1]
      rfl
    | none =>
      cases hrel : file.relations.get i with
      | none => rfl
      | some rel =>
        have ht : isType "lanelet" rel = false := by
          rcases trip_relation hw hrel with ⟨l, hl'⟩ | ⟨a, ha⟩ | ⟨g, hg⟩
          · rw [hl] at hl'; cases hl'
          · exact (trip_area hr hok hs hw ha hrel).1
          · exact (trip_reg hr hok hd hs hw hg hrel).1
        rw [Option.bind_some, laneletOf, if_neg (by simp [ht])]
        rfl
  · intro i
    simp only
    rw [h6]
    cases ha : m.areas.get i with
    | some a =>
      obtain ⟨b, hb⟩ := hw.areas i a ha
      rw [hb, Option.bind_some, (trip_area hr hok hs hw ha hb).2.2.2.1, (aregs ha hb).1]
      rfl
    | none =>
      cases hrel : file.relations.get i with
      | none => rfl
      | some rel =>
        have ht : isType "multipolygon" rel = false := by
          rcases trip_relation hw hrel with ⟨l, hl⟩ | ⟨a, ha'⟩ | ⟨g, hg⟩
          · exact (trip_lanelet hr hok hs hw hl hrel).2.1
          · rw [ha] at ha'; cases ha'
          · exact (trip_reg hr hok hd hs hw hg hrel).2.1
        rw [Option.bind_some, areaOf, if_neg (by simp [ht])]
        rfl

/-- C34: writing a map and loading the file gives the same map, without errors, up to the positions, which are projected back and
forth. -/
theorem round_trip {env : Env P D} {reverse : P → Option (D × D × D)} {rt : P → P} (front : Nat → Nat → Bool) {m : LMap P}
    (hok : MapOk m) (hd : Distinct m) (hs : SelfContained m) (hr : Representable env reverse rt m) :
    ∃ file m', writeMap reverse front m = some (file, []) ∧ loadMap env file = some (m', []) ∧ SameMap rt m m' := by
  obtain ⟨file, h1, hw⟩ := write_written reverse front hok hd hs fun i p hp => by
    obtain ⟨g, hg, -⟩ := hr.project i p hp
    exact ⟨g, hg⟩
  obtain ⟨m', h2, h3⟩ := load_written hok hd hs hr hw
  exact ⟨file, m', h1, h2, h3⟩

/-! ### an example -/

/-- Example: the orientation of three points. -/
def cross (o a b : Int × Int) : Int := (a.1 - o.1) * (b.2 - o.2) - (a.2 - o.2) * (b.1 - o.1)

/-- twice the area that is enclosed clockwise -/
def clockArea (l : List (Int × Int)) : Int :=
  ((l.zip (l.tail ++ l.take 1)).map fun x => x.2.1 * x.1.2 - x.1.1 * x.2.2).sum

/-- positions in the plane -/
def tripEnv : Env (Int × Int) Int where
  forward lat lon _ := some (lon, lat)
  origin := (0, 0)
  asBool s := if s = "true" then some true else some false
  rightOf l r := decide (cross (l.head?.getD (0, 0)) (l.getLast?.getD (0, 0)) (r.head?.getD (0, 0)) < 0)
  leftOf l r := decide (cross (l.head?.getD (0, 0)) (l.getLast?.getD (0, 0)) (r.head?.getD (0, 0)) > 0)
  valid l := decide (clockArea l > 0)
  registry name d := if name = "traffic_light" then some d else none

/-- Example: an exact projection. -/
def tripReverse (p : Int × Int) : Option (Int × Int × Int) := some (p.2, p.1, 0)

/-- a lanelet, an area on its right, a polygon and a traffic light. The linestrings 12 and 13 are used in both directions. -/
def tripMap : LMap (Int × Int) where
  points := [(1, ⟨1, [("a", "b")], (0, 1)⟩), (2, ⟨2, [], (1, 1)⟩), (3, ⟨3, [], (0, 0)⟩), (4, ⟨4, [], (1, 0)⟩), (5, ⟨5, [], (0, -1)⟩)]
  lines := [(11, ⟨11, [("type", "curb")], [{ id := 1 }, { id := 2 }], true⟩), (12, ⟨12, [], [{ id := 4 }, { id := 3 }], false⟩),
    (13, ⟨13, [], [{ id := 4 }, { id := 5 }, { id := 3 }], false⟩)]
  polys := [(15, ⟨15, [], [{ id := 1 }, { id := 2 }, { id := 3 }]⟩)]
  lanelets := [(20, ⟨20, [("subtype", "road")], { id := 11 }, { id := 12, inv := true }, none, [{ id := 21 }]⟩)]
  areas := [(22, ⟨22, [], [{ id := 12, inv := true }, { id := 13 }], [], []⟩)]
  regs := [(21, ⟨21, [("subtype", "traffic_light")],
    [("refers", [.line { id := 11 }, .lanelet { id := 20 }]), ("ref_line", [.poly { id := 15 }, .area { id := 22 }])]⟩)]

theorem tripMap_ok : MapOk tripMap := by
  constructor <;> first | (constructor <;> decide) | (simp only [Attrs.Ok]; decide)

theorem has_keys {V : Type} {l : AMap Id V} {i : Id} {p : Id → Prop} (h : l.has i = true) (hp : ∀ e ∈ l, p e.1) : p i := by
  obtain ⟨e, he, rfl⟩ := List.mem_map.mp ((AMap.has_iff_mem ..).mp h)
  exact hp e he

theorem get_keys {V : Type} {l : AMap Id V} {p : Id → V → Prop} (hp : ∀ e ∈ l, p e.1 e.2) : ∀ i v, l.get i = some v → p i v :=
  fun _ _ h => hp _ (AMap.mem_of_get h)

theorem tripMap_distinct : Distinct tripMap := by
  constructor
  · intro i hi
    exact has_keys (p := fun i => tripMap.polys.has i = false) hi (by decide)
  · intro i hi
    exact has_keys (p := fun i => tripMap.lanelets.has i = false ∧ tripMap.areas.has i = false) hi (by decide)
  · intro i hi
    exact has_keys (p := fun i => tripMap.areas.has i = false) hi (by decide)
  · decide
  · decide
  · decide
  · decide
  all_goals
    intro e he r hr
    simp only [tripMap, List.mem_cons, List.not_mem_nil, or_false] at he
    subst he
    simp [paramsOf] at hr
    subst hr
    decide

theorem tripMap_contained : SelfContained tripMap := by
  constructor
  · exact get_keys (p := fun _ (l : MLine) => ∀ r ∈ l.pts, InLayer tripMap.points r) (by unfold InLayer; decide)
  · exact get_keys (p := fun _ (l : MPoly) => ∀ r ∈ l.pts, InLayer tripMap.points r) (by unfold InLayer; decide)
  · exact get_keys (p := fun _ (l : MLanelet) => (∀ r ∈ l.left :: l.right :: l.center.toList, InLayer tripMap.lines r) ∧
      ∀ r ∈ l.regs, InLayer tripMap.regs r) (by unfold InLayer; decide)
  · exact get_keys (p := fun _ (l : MArea) => (∀ r ∈ l.outer ++ l.inner.flatten, InLayer tripMap.lines r) ∧
      ∀ r ∈ l.regs, InLayer tripMap.regs r) (by unfold InLayer; decide)
  · refine get_keys (p := fun _ (g : MReg) => ∀ p ∈ paramsOf g, ParamIn tripMap p) ?_
    intro e he p hp
    simp only [tripMap, List.mem_cons, List.not_mem_nil, or_false] at he
    subst he
    simp [paramsOf] at hp
    rcases hp with rfl | rfl | rfl | rfl <;> exact ⟨rfl, rfl⟩

theorem tripMap_representable : Representable tripEnv tripReverse id tripMap where
  project := fun i p _ => ⟨(p.pos.2, p.pos.1, 0), rfl, rfl⟩
  linePts := get_keys (p := fun _ (l : MLine) => l.pts ≠ [] ∧ ∀ r ∈ l.pts, r.inv = false) (by decide)
  polyPts := get_keys (p := fun _ (l : MPoly) => l.pts ≠ [] ∧ ∀ r ∈ l.pts, r.inv = false) (by decide)
  lineArea := get_keys (p := fun _ (l : MLine) => (l.attrs.get "area").bind tripEnv.asBool ≠ some true) (by decide)
  polyArea := get_keys (p := fun _ (p : MPoly) => tripEnv.asBool ((p.attrs.get "area").getD "true") = some true) (by decide)
  laneletType := get_keys (p := fun _ (l : MLanelet) => (l.attrs.get "type").getD "lanelet" = "lanelet") (by decide)
  areaType := get_keys (p := fun _ (l : MArea) => (l.attrs.get "type").getD "multipolygon" = "multipolygon") (by decide)
  regType := get_keys (p := fun _ (l : MReg) => (l.attrs.get "type").getD "regulatory_element" = "regulatory_element") (by decide)
  bounds := by
    refine get_keys (p := fun _ (l : MLanelet) => Oriented tripEnv (linePositions tripEnv (moved id tripMap) l.left.id)
      (linePositions tripEnv (moved id tripMap) l.right.id) l.left.inv l.right.inv) ?_
    unfold Oriented
    decide
  laneletRefs := get_keys (p := fun _ (l : MLanelet) => ∀ r ∈ l.center.toList ++ l.regs, r.inv = false) (by decide)
  outer := by
    refine get_keys (p := fun _ (a : MArea) => SimpleRings [a.outer.map (refLine tripMap.lines)] ∧
      OrientedRing (ringValid tripEnv (moved id tripMap).points) (a.outer.map (refLine tripMap.lines))) ?_
    intro e he
    simp only [tripMap, List.mem_cons, List.not_mem_nil, or_false] at he
    subst he
    refine ⟨⟨?_, by decide, by decide⟩, ?_⟩
    · intro r hr
      obtain rfl := List.mem_singleton.mp hr
      refine ⟨?_, _, _, _, rfl, rfl, rfl, rfl⟩
      unfold Connected
      decide
    · unfold OrientedRing
      decide
  inner := by
    refine get_keys (p := fun _ (a : MArea) => SimpleRings (a.inner.map fun r => r.map (refLine tripMap.lines)) ∧
      ∀ r ∈ a.inner, OrientedRing (ringValid tripEnv (moved id tripMap).points) (r.map (refLine tripMap.lines))) ?_
    intro e he
    simp only [tripMap, List.mem_cons, List.not_mem_nil, or_false] at he
    subst he
    refine ⟨⟨?_, ?_, ?_⟩, ?_⟩ <;> simp
  areaRefs := get_keys (p := fun _ (a : MArea) => ∀ r ∈ a.regs, r.inv = false) (by decide)
  registry := by
    refine get_keys (p := fun _ (g : MReg) => ∃ s, g.attrs.get "subtype" = some s ∧ s ≠ "" ∧
      tripEnv.registry s ⟨g.id, g.attrs.emplace "type" "regulatory_element", g.params⟩ =
      some ⟨g.id, g.attrs.emplace "type" "regulatory_element", g.params⟩) ?_
    intro e he
    simp only [tripMap, List.mem_cons, List.not_mem_nil, or_false] at he
    subst he
    exact ⟨"traffic_light", rfl, by decide, rfl⟩
  params := by
    refine get_keys (p := fun _ (g : MReg) => (g.params.map (·.1)).Nodup ∧ (∀ e ∈ g.params, e.2 ≠ []) ∧ ∀ p ∈ paramsOf g, p.plain) ?_
    intro e he
    simp only [tripMap, List.mem_cons, List.not_mem_nil, or_false] at he
    subst he
    refine ⟨by decide, by decide, ?_⟩
    intro p hp
    simp [paramsOf] at hp
    rcases hp with rfl | rfl | rfl | rfl <;> rfl

/-- the area starts with the other linestring after loading -/
example : ∃ file m', writeMap tripReverse (fun _ _ => true) tripMap = some (file, []) ∧ loadMap tripEnv file = some (m', []) ∧
    m'.areas.get 22 = some ⟨22, [("type", "multipolygon")], [{ id := 13 }, { id := 12, inv := true }], [], []⟩ := by
  obtain ⟨file, m', h1, h2, h3⟩ := round_trip (fun _ _ => true) tripMap_ok tripMap_distinct tripMap_contained tripMap_representable
  exact ⟨file, m', h1, h2, h3.areas 22⟩

/-! ### what is lost -/

/-- points and bounds of a lanelet -/
def laneletMap (attrs : Attrs) (right : Ref) (lineAttrs : Attrs) (params : AMap String (List Param)) : LMap (Int × Int) where
  points := [(1, ⟨1, [], (0, 1)⟩), (2, ⟨2, [], (1, 1)⟩), (3, ⟨3, [], (0, 0)⟩), (4, ⟨4, [], (1, 0)⟩)]
  lines := [(11, ⟨11, [], [{ id := 1 }, { id := 2 }], false⟩), (12, ⟨12, [], [{ id := 3 }, { id := 4 }], false⟩),
    (13, ⟨13, lineAttrs, [{ id := 1 }, { id := 4 }], false⟩)]
  lanelets := [(20, ⟨20, attrs, { id := 11 }, right, none, [{ id := 21 }]⟩)]
  regs := [(21, ⟨21, [("subtype", "traffic_light")], params⟩)]

/-- the file that is written if no regulatory element has lanelets or areas -/
def simpleFile (reverse : P → Option (D × D × D)) (m : LMap P) : File D :=
  ⟨(writeNodes reverse m).1, (writeWays (writeNodes reverse m).1 m).1,
    (appendAll (writeNodes reverse m).1 (writeWays (writeNodes reverse m).1 m).1 m).relations⟩

theorem write_simple (reverse : P → Option (D × D × D)) (front : Nat → Nat → Bool) (m : LMap P)
    (h : (appendAll (writeNodes reverse m).1 (writeWays (writeNodes reverse m).1 m).1 m).todo = [])
    (he : (writeNodes reverse m).2 ++ (writeWays (writeNodes reverse m).1 m).2 ++
      (appendAll (writeNodes reverse m).1 (writeWays (writeNodes reverse m).1 m).1 m).errs = []) :
    writeMap reverse front m = some (simpleFile reverse m, []) := by
  unfold writeMap simpleFile
  simp only [h]
  rw [resolveAll]
  simp [he]

/-- a lanelet with another type attribute is lost, and no error is reported -/
theorem type_attribute_counterexample (front : Nat → Nat → Bool) : ∃ file m',
    writeMap tripReverse front (laneletMap [("type", "road")] { id := 12 } [] []) = some (file, []) ∧
    loadMap tripEnv file = some (m', []) ∧ m'.lanelets.get 20 = none :=
  ⟨_, _, write_simple _ _ _ rfl rfl, rfl, rfl⟩

/-- a linestring with the attribute area is a polygon after loading -/
theorem area_attribute_counterexample (front : Nat → Nat → Bool) : ∃ file m',
    writeMap tripReverse front (laneletMap [] { id := 12 } [("area", "true")] []) = some (file, []) ∧
    loadMap tripEnv file = some (m', []) ∧ m'.lines.get 13 = none ∧ m'.polys.has 13 = true :=
  ⟨_, _, write_simple _ _ _ rfl rfl, rfl, rfl, rfl⟩

/-- a linestring that a regulatory element refers to loses its direction -/
theorem inverted_parameter_counterexample (front : Nat → Nat → Bool) : ∃ file m',
    writeMap tripReverse front (laneletMap [] { id := 12 } [] [("refers", [.line { id := 13, inv := true }])]) = some (file, []) ∧
    loadMap tripEnv file = some (m', []) ∧ (m'.regs.get 21).map (·.params) = some [("refers", [.line { id := 13 }])] :=
  ⟨_, _, write_simple _ _ _ rfl rfl, rfl, rfl⟩

/-- a role without parameters is lost -/
theorem empty_role_counterexample (front : Nat → Nat → Bool) : ∃ file m',
    writeMap tripReverse front (laneletMap [] { id := 12 } [] [("refers", []), ("ref_line", [.line { id := 13 }])]) = some (file, []) ∧
    loadMap tripEnv file = some (m', []) ∧ (m'.regs.get 21).map (·.params) = some [("ref_line", [.line { id := 13 }])] :=
  ⟨_, _, write_simple _ _ _ rfl rfl, rfl, rfl⟩

/-- bounds that do not run along each other are turned -/
theorem bound_direction_counterexample (front : Nat → Nat → Bool) : ∃ file m',
    writeMap tripReverse front (laneletMap [] { id := 12, inv := true } [] []) = some (file, []) ∧
    loadMap tripEnv file = some (m', []) ∧ (m'.lanelets.get 20).map (·.right) = some { id := 12 } :=
  ⟨_, _, write_simple _ _ _ rfl rfl, rfl, rfl⟩

end Verif.Osm
