import Verif.Osm.WriteLemmas

/-!
C33: writing maps to OSM files.
-/
namespace Verif.Osm
variable {P D : Type}

/-! ### specification -/

/-- keys of a std::map are unique -/
def Attrs.Ok (a : Attrs) : Prop := (a.map (·.1)).Nodup

/-- the layers of a map -/
structure MapOk (m : LMap P) : Prop where
  points : Layer (·.id) m.points
  lines : Layer (·.id) m.lines
  polys : Layer (·.id) m.polys
  lanelets : Layer (·.id) m.lanelets
  areas : Layer (·.id) m.areas
  regs : Layer (·.id) m.regs
  pointAttrs : ∀ e ∈ m.points, e.2.attrs.Ok
  lineAttrs : ∀ e ∈ m.lines, e.2.attrs.Ok
  polyAttrs : ∀ e ∈ m.polys, e.2.attrs.Ok
  laneletAttrs : ∀ e ∈ m.lanelets, e.2.attrs.Ok
  areaAttrs : ∀ e ∈ m.areas, e.2.attrs.Ok
  regAttrs : ∀ e ∈ m.regs, e.2.attrs.Ok

/-- Specification: all parameters of a regulatory element. -/
def paramsOf (r : MReg) : List Param := r.params.flatMap (·.2)

/-- primitives that have the same type in OSM have different ids; this includes primitives that are referenced but not in the
map -/
structure Distinct (m : LMap P) : Prop where
  lines : ∀ i, m.lines.has i = true → m.polys.has i = false
  regs : ∀ i, m.regs.has i = true → m.lanelets.has i = false ∧ m.areas.has i = false
  lanelets : ∀ i, m.lanelets.has i = true → m.areas.has i = false
  bounds : ∀ e ∈ m.lanelets, ∀ r ∈ e.2.left :: e.2.right :: e.2.center.toList, m.polys.has r.id = false
  areaBounds : ∀ e ∈ m.areas, ∀ r ∈ e.2.outer ++ e.2.inner.flatten, m.polys.has r.id = false
  laneletRegs : ∀ e ∈ m.lanelets, ∀ r ∈ e.2.regs, m.lanelets.has r.id = false ∧ m.areas.has r.id = false
  areaRegs : ∀ e ∈ m.areas, ∀ r ∈ e.2.regs, m.lanelets.has r.id = false ∧ m.areas.has r.id = false
  lineParams : ∀ e ∈ m.regs, ∀ r, Param.line r ∈ paramsOf e.2 → m.polys.has r.id = false
  polyParams : ∀ e ∈ m.regs, ∀ r, Param.poly r ∈ paramsOf e.2 → m.lines.has r.id = false
  laneletParams : ∀ e ∈ m.regs, ∀ r, Param.lanelet r ∈ paramsOf e.2 → m.regs.has r.id = false ∧ m.areas.has r.id = false
  areaParams : ∀ e ∈ m.regs, ∀ r, Param.area r ∈ paramsOf e.2 → m.regs.has r.id = false ∧ m.lanelets.has r.id = false

section spec
variable (reverse : P → Option (D × D × D)) (m : LMap P)

/-- the node of a point -/
def nodeOfPoint (p : MPoint P) : Option (Node D) := (reverse p.pos).map fun g => ⟨p.id, p.attrs, g.1, g.2.1, g.2.2⟩

/-- the point is in the map and can be projected -/
def pointOk (i : Id) : Bool := ((m.points.get i).bind (nodeOfPoint reverse)).isSome

/-- the linestring is in the map, with all its points -/
def lineOk (i : Id) : Bool := (m.lines.get i).any fun l => l.pts.all fun r => pointOk reverse m r.id

/-- Specification: the polygon can be written. -/
def polyOk (i : Id) : Bool := (m.polys.get i).any fun p => p.pts.all fun r => pointOk reverse m r.id

/-- the member a parameter is written as, if it is part of the map -/
def paramMember (role : String) : Param → Option (String × Target)
  | .point r => if pointOk reverse m r.id then some (role, .node r.id) else none
  | .line r => if lineOk reverse m r.id then some (role, .way r.id) else none
  | .poly r => if polyOk reverse m r.id then some (role, .way r.id) else none
  | .lanelet r => if m.lanelets.has r.id then some (role, .relation r.id) else none
  | .area r => if m.areas.has r.id then some (role, .relation r.id) else none
  | .expired => none

/-- Specification: the members for a regulatory element. -/
def regMembers (r : MReg) : List (String × Target) := r.params.flatMap fun e => e.2.filterMap (paramMember reverse m e.1)

/-- linestrings of the map under a role -/
def wayMembers (role : String) (rs : List Ref) : List (String × Target) :=
  rs.filterMap fun r => if lineOk reverse m r.id then some (role, .way r.id) else none

/-- regulatory elements of the map -/
def ruleMembers (rs : List Ref) : List (String × Target) :=
  rs.filterMap fun r => if m.regs.has r.id then some ("regulatory_element", .relation r.id) else none

/-- Specification: the members for a lanelet. -/
def laneletMembers (l : MLanelet) : List (String × Target) :=
  wayMembers reverse m "left" [l.left] ++ wayMembers reverse m "right" [l.right] ++
    wayMembers reverse m "centerline" l.center.toList ++ ruleMembers m l.regs

/-- Specification: the members for an area. -/
def areaMembers (a : MArea) : List (String × Target) :=
  wayMembers reverse m "outer" a.outer ++ wayMembers reverse m "inner" a.inner.flatten ++ ruleMembers m a.regs

/-- the error for a parameter that is not a lanelet or area -/
def paramError (reg : Id) : Param → Option WriteError
  | .point r => if pointOk reverse m r.id then none else some (.param reg r.id)
  | .line r => if lineOk reverse m r.id then none else some (.param reg r.id)
  | .poly r => if polyOk reverse m r.id then none else some (.param reg r.id)
  | .lanelet _ => none
  | .area _ => none
  | .expired => some (.expired reg)

/-- the error for a lanelet or area -/
def relationError (reg : Id) : Param → Option WriteError
  | .lanelet r => if m.lanelets.has r.id then none else some (.unresolved reg r.id)
  | .area r => if m.areas.has r.id then none else some (.unresolved reg r.id)
  | _ => none

/-- Specification: the errors about members. -/
def memberErrors (relation : Id) (bounds regs : List Ref) : List WriteError :=
  (bounds.filterMap fun r => if lineOk reverse m r.id then none else some (.member relation r.id)) ++
    regs.filterMap fun r => if m.regs.has r.id then none else some (.member relation r.id)

/-- everything that is missing -/
def writeErrors : List WriteError :=
  (m.points.filterMap fun e => if pointOk reverse m e.1 then none else some (.projection e.1)) ++
  ((m.lines.filterMap fun e => if lineOk reverse m e.1 then none else some (.way e.1)) ++
   (m.polys.filterMap fun e => if polyOk reverse m e.1 then none else some (.way e.1))) ++
  ((m.regs.flatMap fun e => (paramsOf e.2).filterMap (paramError reverse m e.1)) ++
   (m.lanelets.flatMap fun e => memberErrors reverse m e.1 (e.2.left :: e.2.right :: e.2.center.toList) e.2.regs) ++
   (m.areas.flatMap fun e => memberErrors reverse m e.1 (e.2.outer ++ e.2.inner.flatten) e.2.regs)) ++
  m.regs.flatMap fun e => (paramsOf e.2).filterMap (relationError m e.1)

/-- a lanelet or area parameter -/
def Param.isRelation : Param → Bool
  | .lanelet _ => true
  | .area _ => true
  | _ => false

/-- behind a lanelet or area that is not in the map, no other lanelet or area follows in the parameters -/
def OrderOk : Prop := ∀ e ∈ m.regs, (paramsOf e.2).Pairwise fun a b => relationError m e.1 a ≠ none → b.isRelation = false

end spec

/-! ### nodes and ways -/

theorem writeNodes_spec (reverse : P → Option (D × D × D)) {m : LMap P} (h : MapOk m) :
    (∀ i, (writeNodes reverse m).1.get i = (m.points.get i).bind (nodeOfPoint reverse)) ∧
    (writeNodes reverse m).2 = m.points.filterMap fun e => if pointOk reverse m e.1 then none else some (.projection e.1) := by
  have key : ∀ (l : AMap Id (MPoint P)) (s : AMap Id (Node D) × List WriteError), (∀ e ∈ l, e.2.attrs.Ok) →
      l.foldl (fun s e => writeNode reverse s e.2) s =
      l.foldl (fun s e => putOr s ((·.id) e.2) (nodeOfPoint reverse e.2) (WriteError.projection e.2.id)) s := by
    intro l
    induction l with
    | nil => intro s _; rfl
    | cons e l ih =>
      intro s ha
      rw [List.foldl_cons, List.foldl_cons, ih _ fun x hx => ha x (List.mem_cons_of_mem _ hx)]
      congr 1
      unfold writeNode putOr nodeOfPoint
      rw [getAttributes_eq (ha e (List.mem_cons_self ..))]
      cases reverse e.2.pos <;> rfl
  obtain ⟨h1, h2⟩ := foldl_putOr (·.id) (nodeOfPoint reverse) (fun p => WriteError.projection p.id) m.points ([], []) h.points
  unfold writeNodes
  rw [key _ _ h.pointAttrs]
  refine ⟨fun i => by rw [h1]; simp, ?_⟩
  rw [h2, List.nil_append]
  apply filterMap_congr'
  intro e he
  unfold errOf pointOk
  have hk : e.2.id = e.1 := h.points.key e he
  rw [AMap.get_of_mem h.points.nodup he]
  simp only [hk]
  rfl

theorem writeNodes_has (reverse : P → Option (D × D × D)) {m : LMap P} (h : MapOk m) (i : Id) :
    (writeNodes reverse m).1.has i = pointOk reverse m i := by
  rw [AMap.has_eq, (writeNodes_spec reverse h).1]; rfl

/-- the way of a linestring or polygon -/
def wayOfLine (reverse : P → Option (D × D × D)) (m : LMap P) (l : MLine) : Option Way :=
  if l.pts.all fun r => pointOk reverse m r.id then some ⟨l.id, l.attrs, l.pts.map (·.id)⟩ else none

/-- Specification: the way for a polygon. -/
def wayOfPoly (reverse : P → Option (D × D × D)) (m : LMap P) (p : MPoly) : Option Way :=
  if p.pts.all fun r => pointOk reverse m r.id then some ⟨p.id, p.attrs.emplace "area" "true", p.pts.map (·.id)⟩ else none

theorem writeWays_spec (reverse : P → Option (D × D × D)) {m : LMap P} (h : MapOk m) :
    (∀ i, (writeWays (writeNodes reverse m).1 m).1.get i =
      ((m.lines.get i).bind (wayOfLine reverse m)).or ((m.polys.get i).bind (wayOfPoly reverse m))) ∧
    (writeWays (writeNodes reverse m).1 m).2 =
      (m.lines.filterMap fun e => if lineOk reverse m e.1 then none else some (.way e.1)) ++
      (m.polys.filterMap fun e => if polyOk reverse m e.1 then none else some (.way e.1)) := by
  have hn : ∀ pts : List Ref, (pts.all fun r => (writeNodes reverse m).1.has r.id) = pts.all fun r => pointOk reverse m r.id := by
    intro pts
    congr 1
    funext r
    exact writeNodes_has reverse h r.id
  have k1 : ∀ (l : AMap Id MLine) (s : AMap Id Way × List WriteError), (∀ e ∈ l, e.2.attrs.Ok) →
      l.foldl (fun s e => writeLine (writeNodes reverse m).1 s e.2) s =
      l.foldl (fun s e => putOr s ((·.id) e.2) (wayOfLine reverse m e.2) (WriteError.way e.2.id)) s := by
    intro l
    induction l with
    | nil => intro s _; rfl
    | cons e l ih =>
      intro s ha
      rw [List.foldl_cons, List.foldl_cons, ih _ fun x hx => ha x (List.mem_cons_of_mem _ hx)]
      congr 1
      have hv : (if e.2.inv then e.2.invert else e.2).view = e.2.pts := by
        cases hi : e.2.inv <;> simp [MLine.view, MLine.invert, hi]
      unfold writeLine writeOsmWay putOr wayOfLine
      rw [getAttributes_eq (ha e (List.mem_cons_self ..)), hv, hn]
      cases e.2.pts.all fun r => pointOk reverse m r.id <;> rfl
  have k2 : ∀ (l : AMap Id MPoly) (s : AMap Id Way × List WriteError), (∀ e ∈ l, e.2.attrs.Ok) →
      l.foldl (fun s e => writePoly (writeNodes reverse m).1 s e.2) s =
      l.foldl (fun s e => putOr s ((·.id) e.2) (wayOfPoly reverse m e.2) (WriteError.way e.2.id)) s := by
    intro l
    induction l with
    | nil => intro s _; rfl
    | cons e l ih =>
      intro s ha
      rw [List.foldl_cons, List.foldl_cons, ih _ fun x hx => ha x (List.mem_cons_of_mem _ hx)]
      congr 1
      unfold writePoly writeOsmWay putOr wayOfPoly
      rw [getAttributes_eq (ha e (List.mem_cons_self ..)), hn]
      cases e.2.pts.all fun r => pointOk reverse m r.id <;> rfl
  unfold writeWays
  rw [k1 _ _ h.lineAttrs, k2 _ _ h.polyAttrs]
  obtain ⟨h1, h2⟩ := foldl_putOr (·.id) (wayOfLine reverse m) (fun p => WriteError.way p.id) m.lines ([], []) h.lines
  obtain ⟨h3, h4⟩ := foldl_putOr (·.id) (wayOfPoly reverse m) (fun p => WriteError.way p.id) m.polys
    (m.lines.foldl (fun s e => putOr s ((·.id) e.2) (wayOfLine reverse m e.2) (WriteError.way e.2.id)) ([], [])) h.polys
  refine ⟨fun i => ?_, ?_⟩
  · rw [h3, h1]; simp
  · rw [h4, h2, List.nil_append]
    congr 1
    · apply filterMap_congr'
      intro e he
      unfold errOf lineOk wayOfLine
      have hk : e.2.id = e.1 := h.lines.key e he
      rw [AMap.get_of_mem h.lines.nodup he]
      simp only [Option.any_some, hk]
      by_cases hc : (e.2.pts.all fun r => pointOk reverse m r.id) = true
      · simp only [hc, if_true, Option.isSome_some]
      · simp only [hc, if_false, Option.isSome_none]; rfl
    · apply filterMap_congr'
      intro e he
      unfold errOf polyOk wayOfPoly
      have hk : e.2.id = e.1 := h.polys.key e he
      rw [AMap.get_of_mem h.polys.nodup he]
      simp only [Option.any_some, hk]
      by_cases hc : (e.2.pts.all fun r => pointOk reverse m r.id) = true
      · simp only [hc, if_true, Option.isSome_some]
      · simp only [hc, if_false, Option.isSome_none]; rfl

theorem writeWays_has (reverse : P → Option (D × D × D)) {m : LMap P} (h : MapOk m) (i : Id) :
    (writeWays (writeNodes reverse m).1 m).1.has i = (lineOk reverse m i || polyOk reverse m i) := by
  rw [AMap.has_eq, (writeWays_spec reverse h).1, Option.isSome_or]
  unfold lineOk polyOk
  congr 1
  · cases m.lines.get i with
    | none => rfl
    | some l =>
      simp only [Option.bind_some, Option.any_some, wayOfLine]
      cases l.pts.all fun r => pointOk reverse m r.id <;> rfl
  · cases m.polys.get i with
    | none => rfl
    | some l =>
      simp only [Option.bind_some, Option.any_some, wayOfPoly]
      cases l.pts.all fun r => pointOk reverse m r.id <;> rfl

theorem lineOk_of_not {reverse : P → Option (D × D × D)} {m : LMap P} {i : Id} (h : m.lines.has i = false) :
    lineOk reverse m i = false := by
  rw [AMap.has_eq] at h
  have : m.lines.get i = none := by simpa using h
  simp [lineOk, this]

theorem polyOk_of_not {reverse : P → Option (D × D × D)} {m : LMap P} {i : Id} (h : m.polys.has i = false) :
    polyOk reverse m i = false := by
  rw [AMap.has_eq] at h
  have : m.polys.get i = none := by simpa using h
  simp [polyOk, this]

/-! ### relations -/

section relations
variable (reverse : P → Option (D × D × D)) (m : LMap P)

/-- a parameter with placeholders for lanelets and areas -/
def absParam (role : String) : Param → Option (String × (Target ⊕ Id))
  | .point r => if pointOk reverse m r.id then some (role, .inl (.node r.id)) else none
  | .line r => if lineOk reverse m r.id then some (role, .inl (.way r.id)) else none
  | .poly r => if polyOk reverse m r.id then some (role, .inl (.way r.id)) else none
  | .lanelet r => some (role, .inr r.id)
  | .area r => some (role, .inr r.id)
  | .expired => none

/-- Helper of the proofs. -/
def entryReg (r : MReg) : Entry WriteError where
  id := r.id
  attrs := r.attrs.emplace "type" "regulatory_element"
  xs := r.params.flatMap fun e => e.2.filterMap (absParam reverse m e.1)
  es := (paramsOf r).filterMap (paramError reverse m r.id)

/-- Helper of the proofs. -/
def inlM (x : String × Target) : String × (Target ⊕ Id) := (x.1, .inl x.2)

/-- Helper of the proofs. -/
def entryLanelet (l : MLanelet) : Entry WriteError where
  id := l.id
  attrs := l.attrs.emplace "type" "lanelet"
  xs := (laneletMembers reverse m l).map inlM
  es := memberErrors reverse m l.id (l.left :: l.right :: l.center.toList) l.regs

/-- Helper of the proofs. -/
def entryArea (a : MArea) : Entry WriteError where
  id := a.id
  attrs := a.attrs.emplace "type" "multipolygon"
  xs := (areaMembers reverse m a).map inlM
  es := memberErrors reverse m a.id (a.outer ++ a.inner.flatten) a.regs

/-- Helper of the proofs: all relations in the order of writing. -/
def entries : List (Entry WriteError) :=
  m.regs.map (fun e => entryReg reverse m e.2) ++ m.lanelets.map (fun e => entryLanelet reverse m e.2) ++
    m.areas.map (fun e => entryArea reverse m e.2)

end relations

theorem appendReg_eq {reverse : P → Option (D × D × D)} {m : LMap P} (h : MapOk m) (hd : Distinct m) {e : Id × MReg} (he : e ∈ m.regs)
    (s : RelState WriteError) :
    appendReg (writeNodes reverse m).1 (writeWays (writeNodes reverse m).1 m).1 s e.2 = addRel s (entryReg reverse m e.2) := by
  have hv : ∀ (role : String) (p : Param), p ∈ paramsOf e.2 → ∀ s : RelState WriteError,
      visit (writeNodes reverse m).1 (writeWays (writeNodes reverse m).1 m).1 e.2.id role s p =
      addM s e.2.id (absParam reverse m role p).toList (paramError reverse m e.2.id p).toList := by
    intro role p hp s
    cases p with
    | point r =>
      simp only [visit, absParam, paramError, writeNodes_has reverse h]
      cases pointOk reverse m r.id
      · simp [error_addM s e.2.id]
      · simp [pushM_addM]
    | line r =>
      simp only [visit, absParam, paramError, writeWays_has reverse h, polyOk_of_not (hd.lineParams e he r hp), Bool.or_false]
      cases lineOk reverse m r.id
      · simp [error_addM s e.2.id]
      · simp [pushM_addM]
    | poly r =>
      simp only [visit, absParam, paramError, writeWays_has reverse h, lineOk_of_not (hd.polyParams e he r hp), Bool.false_or]
      cases polyOk reverse m r.id
      · simp [error_addM s e.2.id]
      · simp [pushM_addM]
    | lanelet r => simp [visit, absParam, paramError, pushM_addM]
    | area r => simp [visit, absParam, paramError, pushM_addM]
    | expired => simp [visit, absParam, paramError, error_addM s e.2.id]
  unfold appendReg addRel
  rw [getAttributes_eq (h.regAttrs e he)]
  rw [foldl_addM e.2.id _ (fun x => x.2.filterMap (absParam reverse m x.1)) (fun x => x.2.filterMap (paramError reverse m e.2.id))]
  · unfold entryReg
    congr 1
    unfold paramsOf
    rw [List.filterMap_flatMap]
  · intro s' _ x hx
    rw [foldl_addM e.2.id _ (fun p => (absParam reverse m x.1 p).toList) (fun p => (paramError reverse m e.2.id p).toList)]
    · rw [flatMap_toList, flatMap_toList]
    · intro s'' _ p hp
      exact hv x.1 p (List.mem_flatMap.mpr ⟨x, hx, hp⟩) s''

theorem insertWays_eq {reverse : P → Option (D × D × D)} {m : LMap P} (h : MapOk m) (id : Id) (role : String) (rs : List Ref)
    (hr : ∀ r ∈ rs, m.polys.has r.id = false) (s : RelState WriteError) :
    rs.foldl (insertWay (writeWays (writeNodes reverse m).1 m).1 id role) s =
    addM s id ((wayMembers reverse m role rs).map inlM)
      (rs.filterMap fun r => if lineOk reverse m r.id then none else some (.member id r.id)) := by
  rw [foldl_addM id _ (fun r => ((if lineOk reverse m r.id then some (role, Target.way r.id) else none).map inlM).toList)
    (fun r => (if lineOk reverse m r.id then none else some (WriteError.member id r.id)).toList)]
  · rw [flatMap_toList, flatMap_toList]
    unfold wayMembers
    rw [List.map_filterMap]
  · intro s' _ r hr'
    unfold insertWay
    rw [writeWays_has reverse h, polyOk_of_not (hr r hr'), Bool.or_false]
    cases lineOk reverse m r.id
    · simp [error_addM s' id]
    · simp [pushM_addM, inlM]

theorem insertRels_eq {m : LMap P} (id : Id) (rs : List Ref) (s : RelState WriteError)
    (hs : ∀ r ∈ rs, s.relations.has r.id = m.regs.has r.id) :
    rs.foldl (insertRelation id "regulatory_element") s =
    addM s id ((ruleMembers m rs).map inlM)
      (rs.filterMap fun r => if m.regs.has r.id then none else some (.member id r.id)) := by
  rw [foldl_addM id _ (fun r => ((if m.regs.has r.id then some ("regulatory_element", Target.relation r.id) else none).map inlM).toList)
    (fun r => (if m.regs.has r.id then none else some (WriteError.member id r.id)).toList)]
  · rw [flatMap_toList, flatMap_toList]
    unfold ruleMembers
    rw [List.map_filterMap]
  · intro s' hs' r hr
    unfold insertRelation
    rw [hs', hs r hr]
    cases m.regs.has r.id
    · simp [error_addM s' id]
    · simp [pushM_addM, inlM]

theorem has_newRelation {E : Type} (s : RelState E) (id : Id) (attrs : Attrs) (i : Id) :
    (newRelation s id attrs).relations.has i = (s.relations.has i || decide (i = id)) := by
  simp only [newRelation]
  rw [AMap.has_eq, AMap.get_emplace, AMap.has_eq]
  by_cases hi : i = id <;> simp [hi]

/-- the regulatory elements are written, and besides them only lanelets and areas -/
def RegsDone (m : LMap P) (s : RelState WriteError) : Prop :=
  ∀ i, m.lanelets.has i = false → m.areas.has i = false → s.relations.has i = m.regs.has i

theorem has_of_mem {V : Type} {l : AMap Id V} {e : Id × V} (he : e ∈ l) : l.has e.1 = true := by
  rw [AMap.has_iff_mem]; exact List.mem_map_of_mem he

theorem appendLanelet_eq {reverse : P → Option (D × D × D)} {m : LMap P} (h : MapOk m) (hd : Distinct m) {e : Id × MLanelet}
    (he : e ∈ m.lanelets) (s : RelState WriteError) (hs : RegsDone m s) :
    appendLanelet (writeWays (writeNodes reverse m).1 m).1 s e.2 = addRel s (entryLanelet reverse m e.2) := by
  have hb := hd.bounds e he
  unfold appendLanelet addRel
  rw [getAttributes_eq (h.laneletAttrs e he)]
  have l1 := insertWays_eq (reverse := reverse) h e.2.id "left" [e.2.left] fun r hr => hb r (by simp at hr; simp [hr])
  have l2 := insertWays_eq (reverse := reverse) h e.2.id "right" [e.2.right] fun r hr => hb r (by simp at hr; simp [hr])
  have l3 := insertWays_eq (reverse := reverse) h e.2.id "centerline" e.2.center.toList fun r hr => hb r (by
    simp only [List.mem_cons]; exact .inr (.inr hr))
  simp only [List.foldl_cons, List.foldl_nil] at l1 l2
  simp only []
  rw [l1, l2, l3, addM_addM, addM_addM, insertRels_eq (m := m), addM_addM]
  · unfold entryLanelet
    congr 1
    · simp [laneletMembers]
    · simp only [memberErrors, List.append_assoc, List.filterMap_cons, List.filterMap_nil]
      cases lineOk reverse m e.2.left.id <;> cases lineOk reverse m e.2.right.id <;> simp
  · intro r hr
    obtain ⟨g1, g2⟩ := hd.laneletRegs e he r hr
    rw [has_addM, has_newRelation, hs r.id g1 g2]
    have : ¬ r.id = e.2.id := by
      intro hc
      rw [hc, h.lanelets.key e he, has_of_mem he] at g1
      exact absurd g1 (by simp)
    simp [this]

theorem appendArea_eq {reverse : P → Option (D × D × D)} {m : LMap P} (h : MapOk m) (hd : Distinct m) {e : Id × MArea}
    (he : e ∈ m.areas) (s : RelState WriteError) (hs : RegsDone m s) :
    appendArea (writeWays (writeNodes reverse m).1 m).1 s e.2 = addRel s (entryArea reverse m e.2) := by
  have hb := hd.areaBounds e he
  unfold appendArea addRel
  rw [getAttributes_eq (h.areaAttrs e he)]
  simp only []
  rw [insertWays_eq (reverse := reverse) h e.2.id "outer" e.2.outer fun r hr => hb r (List.mem_append_left _ hr),
    insertWays_eq (reverse := reverse) h e.2.id "inner" e.2.inner.flatten fun r hr => hb r (List.mem_append_right _ hr),
    addM_addM, insertRels_eq (m := m), addM_addM]
  · unfold entryArea
    congr 1
    · simp [areaMembers]
    · simp [memberErrors]
  · intro r hr
    obtain ⟨g1, g2⟩ := hd.areaRegs e he r hr
    rw [has_addM, has_newRelation, hs r.id g1 g2]
    have : ¬ r.id = e.2.id := by
      intro hc
      rw [hc, h.areas.key e he, has_of_mem he] at g2
      exact absurd g2 (by simp)
    simp [this]

theorem appendAll_eq (reverse : P → Option (D × D × D)) {m : LMap P} (h : MapOk m) (hd : Distinct m) :
    appendAll (writeNodes reverse m).1 (writeWays (writeNodes reverse m).1 m).1 m =
    (entries reverse m).foldl addRel ⟨[], [], []⟩ := by
  have hfold : ∀ {V : Type} (l : AMap Id V) (step : RelState WriteError → V → RelState WriteError) (f : V → Entry WriteError)
      (I : RelState WriteError → Prop) (s : RelState WriteError), I s →
      (∀ e ∈ l, ∀ s, I s → step s e.2 = addRel s (f e.2) ∧ I (addRel s (f e.2))) →
      l.foldl (fun s e => step s e.2) s = (l.map fun e => f e.2).foldl addRel s ∧ I ((l.map fun e => f e.2).foldl addRel s) := by
    intro V l step f I
    induction l with
    | nil => intro s hs _; exact ⟨rfl, hs⟩
    | cons e l ih =>
      intro s hs hstep
      obtain ⟨h1, h2⟩ := hstep e (List.mem_cons_self ..) s hs
      rw [List.foldl_cons, h1, List.map_cons, List.foldl_cons]
      exact ih _ h2 fun x hx => hstep x (List.mem_cons_of_mem _ hx)
  have hregs : ∀ l : AMap Id MReg, (∀ e ∈ l, e ∈ m.regs) → ∀ s : RelState WriteError,
      l.foldl (fun s e => appendReg (writeNodes reverse m).1 (writeWays (writeNodes reverse m).1 m).1 s e.2) s =
        (l.map fun e => entryReg reverse m e.2).foldl addRel s ∧
      ∀ i, ((l.map fun e => entryReg reverse m e.2).foldl addRel s).relations.has i = (s.relations.has i || AMap.has l i) := by
    intro l
    induction l with
    | nil => intro _ s; simp [AMap.has]
    | cons e l ih =>
      intro hl s
      obtain ⟨g1, g2⟩ := ih (fun x hx => hl x (List.mem_cons_of_mem _ hx)) (addRel s (entryReg reverse m e.2))
      rw [List.foldl_cons, appendReg_eq h hd (hl e (List.mem_cons_self ..)), List.map_cons, List.foldl_cons]
      refine ⟨g1, fun i => ?_⟩
      rw [g2, has_addRel, AMap.has_cons]
      have : (entryReg reverse m e.2).id = e.1 := h.regs.key e (hl e (List.mem_cons_self ..))
      rw [this, Bool.or_assoc]
      congr 2
      by_cases hi : e.1 = i
      · simp [hi]
      · have hi' : ¬ i = e.1 := fun x => hi x.symm
        simp [hi, hi']
  obtain ⟨r1, r2⟩ := hregs m.regs (fun _ he => he) ⟨[], [], []⟩
  have hR : RegsDone m ((m.regs.map fun e => entryReg reverse m e.2).foldl addRel ⟨[], [], []⟩) := by
    intro i _ _
    rw [r2]; simp [AMap.has]
  obtain ⟨l1, l2⟩ := hfold m.lanelets (appendLanelet (writeWays (writeNodes reverse m).1 m).1) (entryLanelet reverse m) (RegsDone m) _ hR
    (fun e he s hs => ⟨appendLanelet_eq h hd he s hs, fun i g1 g2 => by
      have hne : ¬ i = (entryLanelet reverse m e.2).id := by
        intro hc
        rw [hc, show (entryLanelet reverse m e.2).id = e.1 from h.lanelets.key e he, has_of_mem he] at g1
        exact absurd g1 (by simp)
      rw [has_addRel, hs i g1 g2]
      simp [hne]⟩)
  obtain ⟨a1, -⟩ := hfold m.areas (appendArea (writeWays (writeNodes reverse m).1 m).1) (entryArea reverse m) (RegsDone m) _ l2
    (fun e he s hs => ⟨appendArea_eq h hd he s hs, fun i g1 g2 => by
      have hne : ¬ i = (entryArea reverse m e.2).id := by
        intro hc
        rw [hc, show (entryArea reverse m e.2).id = e.1 from h.areas.key e he, has_of_mem he] at g2
        exact absurd g2 (by simp)
      rw [has_addRel, hs i g1 g2]
      simp [hne]⟩)
  unfold appendAll entries
  simp only []
  rw [r1, l1, a1, List.foldl_append, List.foldl_append]

theorem entries_ids (reverse : P → Option (D × D × D)) {m : LMap P} (h : MapOk m) :
    (entries reverse m).map (·.id) = m.regs.map (·.1) ++ m.lanelets.map (·.1) ++ m.areas.map (·.1) := by
  unfold entries
  simp only [List.map_append, List.map_map]
  congr 1
  · congr 1
    · exact List.map_congr_left fun e he => h.regs.key e he
    · exact List.map_congr_left fun e he => h.lanelets.key e he
  · exact List.map_congr_left fun e he => h.areas.key e he

theorem entries_nodup (reverse : P → Option (D × D × D)) {m : LMap P} (h : MapOk m) (hd : Distinct m) :
    ((entries reverse m).map (·.id)).Nodup := by
  rw [entries_ids reverse h]
  have hh : ∀ {V : Type} {l : AMap Id V} {i : Id}, i ∈ l.map (·.1) → l.has i = true := fun hi => (AMap.has_iff_mem ..).mpr hi
  refine List.nodup_append.mpr ⟨List.nodup_append.mpr ⟨h.regs.nodup, h.lanelets.nodup, ?_⟩, h.areas.nodup, ?_⟩
  · rintro a ha b hb rfl
    have := (hd.regs a (hh ha)).1
    rw [hh hb] at this
    exact absurd this (by simp)
  · rintro a ha b hb rfl
    rcases List.mem_append.mp ha with ha | ha
    · have := (hd.regs a (hh ha)).2
      rw [hh hb] at this
      exact absurd this (by simp)
    · have := hd.lanelets a (hh ha)
      rw [hh hb] at this
      exact absurd this (by simp)

theorem unique_entry {E : Type} : ∀ (es : List (Entry E)), (es.map (·.id)).Nodup → ∀ e ∈ es,
    es.filter (fun x => x.id = e.id) = [e] ∧ es.find? (fun x => x.id = e.id) = some e
  | [], _, e, he => by cases he
  | x :: es, hn, e, he => by
    obtain ⟨h1, h2⟩ := List.nodup_cons.mp hn
    rcases List.mem_cons.mp he with rfl | he
    · have : es.filter (fun x => decide (x.id = e.id)) = [] := by
        rw [List.filter_eq_nil_iff]
        intro y hy hc
        simp only [decide_eq_true_eq] at hc
        exact h1 (List.mem_map.mpr ⟨y, hy, hc⟩)
      simp [this]
    · have hne : ¬ x.id = e.id := fun hc => h1 (List.mem_map.mpr ⟨e, he, hc.symm⟩)
      obtain ⟨g1, g2⟩ := unique_entry es h2 e he
      simp [hne, g1, g2]

theorem final_inlM (ex : Id → Bool) : ∀ xs : List (String × Target), final ex (xs.map inlM) = xs
  | [] => rfl
  | x :: xs => by
    have := final_inlM ex xs
    unfold final at this ⊢
    rw [List.map_cons, List.filterMap_cons]
    simp only [inlM]
    rw [this]

theorem settled_inlM (xs : List (String × Target)) : settled (xs.map inlM) := by
  intro m hm
  obtain ⟨x, _, rfl⟩ := List.mem_map.mp hm
  exact ⟨x.2, rfl⟩

theorem good_of_settled {ex : Id → Bool} {A : Abs} (h : settled A) : GoodAbs ex A := by
  unfold GoodAbs
  rw [List.pairwise_iff_forall_sublist]
  intro a b hab ref hr
  obtain ⟨t, ht⟩ := h a (hab.subset (by simp))
  rw [ht] at hr
  cases hr

theorem refsOf_settled (id : Id) {A : Abs} (h : settled A) : refsOf id A = [] := by
  unfold refsOf
  rw [List.filterMap_eq_nil_iff]
  intro m hm
  obtain ⟨t, ht⟩ := h m hm
  rw [ht]

/-- the ids of all relations -/
def relOk (m : LMap P) (i : Id) : Bool := m.regs.has i || m.lanelets.has i || m.areas.has i

theorem final_reg (reverse : P → Option (D × D × D)) {m : LMap P} (hd : Distinct m) {e : Id × MReg} (he : e ∈ m.regs) :
    final (relOk m) (entryReg reverse m e.2).xs = regMembers reverse m e.2 := by
  unfold final entryReg regMembers
  simp only []
  rw [List.filterMap_flatMap]
  apply flatMap_congr'
  intro x hx
  rw [List.filterMap_filterMap]
  apply filterMap_congr'
  intro p hp
  have hpp : p ∈ paramsOf e.2 := List.mem_flatMap.mpr ⟨x, hx, hp⟩
  cases p with
  | point r => simp only [absParam, paramMember]; split <;> rfl
  | line r => simp only [absParam, paramMember]; split <;> rfl
  | poly r => simp only [absParam, paramMember]; split <;> rfl
  | lanelet r =>
    obtain ⟨h1, h2⟩ := hd.laneletParams e he r hpp
    simp [absParam, paramMember, relOk, h1, h2]
  | area r =>
    obtain ⟨h1, h2⟩ := hd.areaParams e he r hpp
    simp [absParam, paramMember, relOk, h1, h2]
  | expired => rfl

theorem absParam_inr {reverse : P → Option (D × D × D)} {m : LMap P} {role : String} {p : Param} {x : String × (Target ⊕ Id)}
    (h : absParam reverse m role p = some x) (hp : p.isRelation = false) : ∃ t, x.2 = Sum.inl t := by
  cases p with
  | point r => simp only [absParam] at h; split at h <;> simp at h; exact ⟨_, by rw [← h]⟩
  | line r => simp only [absParam] at h; split at h <;> simp at h; exact ⟨_, by rw [← h]⟩
  | poly r => simp only [absParam] at h; split at h <;> simp at h; exact ⟨_, by rw [← h]⟩
  | lanelet r => simp [Param.isRelation] at hp
  | area r => simp [Param.isRelation] at hp
  | expired => simp [absParam] at h

theorem good_reg (reverse : P → Option (D × D × D)) {m : LMap P} (ho : OrderOk m) {e : Id × MReg} (he : e ∈ m.regs) :
    GoodAbs (relOk m) (entryReg reverse m e.2).xs := by
  have hflat : (entryReg reverse m e.2).xs =
      (e.2.params.flatMap fun x => x.2.map fun p => (x.1, p)).filterMap fun y => absParam reverse m y.1 y.2 := by
    unfold entryReg
    simp only []
    rw [List.filterMap_flatMap]
    apply flatMap_congr'
    intro x _
    rw [List.filterMap_map]; rfl
  have hpair : (e.2.params.flatMap fun x => x.2.map fun p => (x.1, p)).Pairwise
      fun a b => relationError m e.1 a.2 ≠ none → b.2.isRelation = false := by
    have h1 : (e.2.params.flatMap fun x => x.2.map fun p => (x.1, p)).map (·.2) = paramsOf e.2 := by
      unfold paramsOf
      rw [List.map_flatMap]
      apply flatMap_congr'
      intro x _
      simp [List.map_map]
    have h2 := ho e he
    rw [← h1, List.pairwise_map] at h2
    exact h2
  have hmem : ∀ y ∈ (e.2.params.flatMap fun x => x.2.map fun p => (x.1, p)), y.2 ∈ paramsOf e.2 := by
    intro y hy
    obtain ⟨x, hx, hxy⟩ := List.mem_flatMap.mp hy
    obtain ⟨p, hp, rfl⟩ := List.mem_map.mp hxy
    exact List.mem_flatMap.mpr ⟨x, hx, hp⟩
  rw [hflat]
  unfold GoodAbs
  rw [List.pairwise_filterMap]
  refine (List.pairwise_iff_forall_sublist.mpr ?_)
  intro a b hab x hx y hy ref href hex
  have hab' := (List.pairwise_iff_forall_sublist.mp hpair) hab
  refine absParam_inr hy (hab' ?_)
  have ha := hmem a (hab.subset (by simp))
  obtain ⟨role, p⟩ := a
  simp only at hx ha
  cases p with
  | point r => simp only [absParam] at hx; split at hx <;> simp at hx; rw [← hx] at href; cases href
  | line r => simp only [absParam] at hx; split at hx <;> simp at hx; rw [← hx] at href; cases href
  | poly r => simp only [absParam] at hx; split at hx <;> simp at hx; rw [← hx] at href; cases href
  | lanelet r =>
    simp only [absParam, Option.some.injEq] at hx
    rw [← hx] at href
    obtain rfl : r.id = ref := by simpa using href
    simp only [relOk, Bool.or_eq_false_iff] at hex
    simp [relationError, hex.1.2]
  | area r =>
    simp only [absParam, Option.some.injEq] at hx
    rw [← hx] at href
    obtain rfl : r.id = ref := by simpa using href
    simp only [relOk, Bool.or_eq_false_iff] at hex
    simp [relationError, hex.2]
  | expired => simp [absParam] at hx

theorem refs_reg (reverse : P → Option (D × D × D)) {m : LMap P} (h : MapOk m) (hd : Distinct m) {e : Id × MReg} (he : e ∈ m.regs) :
    ((refsOf (entryReg reverse m e.2).id (entryReg reverse m e.2).xs).filter fun x => !relOk m x.2).map
        (fun x => WriteError.unresolved x.1 x.2) =
      (paramsOf e.2).filterMap (relationError m e.1) := by
  unfold refsOf entryReg paramsOf
  simp only []
  rw [← List.filterMap_eq_map, ← List.filterMap_eq_filter, List.filterMap_filterMap, List.filterMap_filterMap,
    List.filterMap_flatMap, List.filterMap_flatMap]
  apply flatMap_congr'
  intro x hx
  rw [List.filterMap_filterMap]
  apply filterMap_congr'
  intro p hp
  have hpp : p ∈ paramsOf e.2 := List.mem_flatMap.mpr ⟨x, hx, hp⟩
  have hk : e.2.id = e.1 := h.regs.key e he
  cases p with
  | point r => simp only [absParam, relationError]; split <;> rfl
  | line r => simp only [absParam, relationError]; split <;> rfl
  | poly r => simp only [absParam, relationError]; split <;> rfl
  | lanelet r =>
    obtain ⟨h1, h2⟩ := hd.laneletParams e he r hpp
    simp only [absParam, relationError, Option.bind_some, relOk, h1, h2, Bool.false_or, Bool.or_false, hk]
    cases hl : m.lanelets.has r.id <;> simp [Option.guard, relOk, h1, h2, hl]
  | area r =>
    obtain ⟨h1, h2⟩ := hd.areaParams e he r hpp
    simp only [absParam, relationError, Option.bind_some, relOk, h1, h2, Bool.false_or, Bool.or_false, hk]
    cases hl : m.areas.has r.id <;> simp [Option.guard, relOk, h1, h2, hl]
  | expired => rfl

/-! ### the theorems -/

/-- members as they are stored -/
def stored (xs : List (String × Target)) : List (String × Option Target) := xs.map fun x => (x.1, some x.2)

/-- C33: unless a lanelet or area parameter that is not in the map is followed by another one, writing succeeds; each written
relation holds exactly its members that are part of the map, in order; everything missing is reported. -/
theorem write_spec_partial (reverse : P → Option (D × D × D)) (front : Nat → Nat → Bool) {m : LMap P} (h : MapOk m) (hd : Distinct m)
    (ho : OrderOk m) :
    ∃ file errs, writeMap reverse front m = some (file, errs) ∧
      (∀ i, file.nodes.get i = (m.points.get i).bind (nodeOfPoint reverse)) ∧
      (∀ i, file.ways.get i = ((m.lines.get i).bind (wayOfLine reverse m)).or ((m.polys.get i).bind (wayOfPoly reverse m))) ∧
      (∀ i r, m.regs.get i = some r → ∃ b, file.relations.get i =
        some ⟨i, r.attrs.emplace "type" "regulatory_element", ⟨b, stored (regMembers reverse m r)⟩⟩) ∧
      (∀ i l, m.lanelets.get i = some l → ∃ b, file.relations.get i =
        some ⟨i, l.attrs.emplace "type" "lanelet", ⟨b, stored (laneletMembers reverse m l)⟩⟩) ∧
      (∀ i a, m.areas.get i = some a → ∃ b, file.relations.get i =
        some ⟨i, a.attrs.emplace "type" "multipolygon", ⟨b, stored (areaMembers reverse m a)⟩⟩) ∧
      (∀ i, file.relations.has i = relOk m i) ∧
      errs = writeErrors reverse m := by
  obtain ⟨s, hs⟩ : ∃ s, (entries reverse m).foldl addRel ⟨[], [], []⟩ = s := ⟨_, rfl⟩
  have h0 : PI (⟨[], [], []⟩ : RelState WriteError) (fun _ => []) :=
    ⟨⟨fun r rel hr => by simp at hr, fun u hu => by simp at hu⟩, fun _ _ => rfl⟩
  obtain ⟨h1, h2, h3, h4⟩ := addRels_inv (entries reverse m) h0
  rw [hs] at h1 h2 h3 h4
  simp only [List.nil_append, List.map_nil, AMap.get_nil, Option.map_none, Option.none_or] at h1 h2 h3 h4
  have hmem : ∀ i, relOk m i = true ↔ i ∈ (entries reverse m).map (·.id) := by
    intro i
    rw [entries_ids reverse h]
    simp only [relOk, Bool.or_eq_true, AMap.has_iff_mem, List.mem_append]
  have hhas : ∀ i, s.relations.has i = relOk m i := by
    intro i
    have := congrArg Option.isSome (h4 i)
    rw [Option.isSome_map, Option.isSome_map] at this
    rw [AMap.has_eq, this, Bool.eq_iff_iff, List.find?_isSome, hmem, List.mem_map]
    simp only [decide_eq_true_eq]
  have hnd := entries_nodup reverse h hd
  have hA : ∀ e ∈ entries reverse m, ((entries reverse m).filter fun x => x.id = e.id).flatMap (·.xs) = e.xs := by
    intro e he
    rw [(unique_entry _ hnd e he).1]; simp
  have hcases : ∀ e ∈ entries reverse m, (∃ x ∈ m.regs, e = entryReg reverse m x.2) ∨ settled e.xs := by
    intro e he
    unfold entries at he
    rcases List.mem_append.mp he with he | he
    · rcases List.mem_append.mp he with he | he
      · obtain ⟨x, hx, rfl⟩ := List.mem_map.mp he
        exact .inl ⟨x, hx, rfl⟩
      · obtain ⟨x, hx, rfl⟩ := List.mem_map.mp he
        exact .inr (settled_inlM _)
    · obtain ⟨x, hx, rfl⟩ := List.mem_map.mp he
      exact .inr (settled_inlM _)
  have hgood : ∀ r, GoodAbs (relOk m) (((entries reverse m).filter fun x => x.id = r).flatMap (·.xs)) := by
    intro r
    by_cases hr : r ∈ (entries reverse m).map (·.id)
    · obtain ⟨e, he, rfl⟩ := List.mem_map.mp hr
      rw [hA e he]
      rcases hcases e he with ⟨x, hx, rfl⟩ | hset
      · exact good_reg reverse ho hx
      · exact good_of_settled hset
    · have : (entries reverse m).filter (fun x => decide (x.id = r)) = [] := by
        rw [List.filter_eq_nil_iff]
        intro x hx hc
        simp only [decide_eq_true_eq] at hc
        exact hr (List.mem_map.mpr ⟨x, hx, hc⟩)
      rw [this]
      exact List.Pairwise.nil
  obtain ⟨rels', e1, e2, e3⟩ := resolveAll_spec false front (relOk m) _ s.relations s.todo _ [] rfl hhas h1.ri (.inr hgood)
  have hrel : ∀ e ∈ entries reverse m, ∃ b, rels'.get e.id =
      some ⟨e.id, e.attrs, ⟨b, (final (relOk m) e.xs).map fun x => (x.1, some x.2)⟩⟩ := by
    intro e he
    have h4e := h4 e.id
    rw [(unique_entry _ hnd e he).2, Option.map_some] at h4e
    obtain ⟨rel, hr1, hr2⟩ := Option.map_eq_some_iff.mp h4e
    obtain ⟨b, hb⟩ := e3 e.id rel hr1
    obtain ⟨hid, hat⟩ := Prod.mk.inj hr2
    refine ⟨b, ?_⟩
    rw [hb, hA e he, ← hid, ← hat]
  have hw : writeMap reverse front m = some (⟨(writeNodes reverse m).1, (writeWays (writeNodes reverse m).1 m).1, rels'⟩,
      (writeNodes reverse m).2 ++ (writeWays (writeNodes reverse m).1 m).2 ++ s.errs ++
        ((s.todo.filter fun u => !relOk m u.ref).map fun u => (u.relation, u.ref)).map fun e => WriteError.unresolved e.1 e.2) := by
    have hall := appendAll_eq reverse h hd
    rw [hs] at hall
    unfold writeMap
    simp only [hall, bind, Option.bind, e1]
    rfl
  refine ⟨_, _, hw, (writeNodes_spec reverse h).1, (writeWays_spec reverse h).1, ?_, ?_, ?_, ?_, ?_⟩
  · intro i r hr
    have hm := AMap.mem_of_get hr
    have hk : r.id = i := h.regs.key _ hm
    obtain ⟨b, hb⟩ := hrel (entryReg reverse m r) (by
      unfold entries
      exact List.mem_append_left _ (List.mem_append_left _ (List.mem_map.mpr ⟨_, hm, rfl⟩)))
    refine ⟨b, ?_⟩
    rw [final_reg reverse hd hm] at hb
    rw [← hk]; exact hb
  · intro i l hl
    have hm := AMap.mem_of_get hl
    have hk : l.id = i := h.lanelets.key _ hm
    obtain ⟨b, hb⟩ := hrel (entryLanelet reverse m l) (by
      unfold entries
      exact List.mem_append_left _ (List.mem_append_right _ (List.mem_map.mpr ⟨_, hm, rfl⟩)))
    refine ⟨b, ?_⟩
    rw [show (entryLanelet reverse m l).xs = (laneletMembers reverse m l).map inlM from rfl, final_inlM] at hb
    rw [← hk]; exact hb
  · intro i l hl
    have hm := AMap.mem_of_get hl
    have hk : l.id = i := h.areas.key _ hm
    obtain ⟨b, hb⟩ := hrel (entryArea reverse m l) (by
      unfold entries
      exact List.mem_append_right _ (List.mem_map.mpr ⟨_, hm, rfl⟩))
    refine ⟨b, ?_⟩
    rw [show (entryArea reverse m l).xs = (areaMembers reverse m l).map inlM from rfl, final_inlM] at hb
    rw [← hk]; exact hb
  · intro i
    rw [← hhas, Bool.eq_iff_iff, AMap.has_iff_mem, AMap.has_iff_mem]
    simp only [e2]
  · have hfm : ∀ (l : List Unresolved), ((l.filter fun u => !relOk m u.ref).map fun u => (u.relation, u.ref)) =
        (l.map fun u => (u.relation, u.ref)).filter fun x => !relOk m x.2 := by
      intro l
      rw [List.filter_map]; rfl
    unfold writeErrors
    rw [(writeNodes_spec reverse h).2, (writeWays_spec reverse h).2, h2, hfm, h3]
    congr 1
    · congr 1
      unfold entries
      simp only [List.flatMap_append, List.flatMap_map]
      congr 1
      · congr 1
        · apply flatMap_congr'
          intro e he
          have hk : e.2.id = e.1 := h.regs.key e he
          simp only [entryReg, hk]
        · apply flatMap_congr'
          intro e he
          have hk : e.2.id = e.1 := h.lanelets.key e he
          simp only [entryLanelet, hk]
      · apply flatMap_congr'
        intro e he
        have hk : e.2.id = e.1 := h.areas.key e he
        simp only [entryArea, hk]
    · unfold entries
      simp only [List.flatMap_append, List.flatMap_map, List.filter_append, List.map_append]
      have z1 : (m.lanelets.flatMap fun e => refsOf (entryLanelet reverse m e.2).id (entryLanelet reverse m e.2).xs) = [] := by
        rw [List.flatMap_eq_nil_iff]
        intro e _
        exact refsOf_settled _ (settled_inlM _)
      have z2 : (m.areas.flatMap fun e => refsOf (entryArea reverse m e.2).id (entryArea reverse m e.2).xs) = [] := by
        rw [List.flatMap_eq_nil_iff]
        intro e _
        exact refsOf_settled _ (settled_inlM _)
      rw [z1, z2]
      simp only [List.filter_nil, List.map_nil, List.append_nil, List.filter_flatMap, List.map_flatMap]
      apply flatMap_congr'
      intro e he
      exact refs_reg reverse h hd he

/-! ### a map that meets the hypotheses -/

/-- a lanelet with a regulatory element that refers to it, and to things that are not in the map -/
def exMap : LMap Nat where
  points := [(1, ⟨1, [("k", "v")], 5⟩), (2, ⟨2, [], 6⟩)]
  lines := [(3, ⟨3, [], [{ id := 1 }, { id := 2 }], true⟩), (4, ⟨4, [], [{ id := 2 }, { id := 1 }], false⟩)]
  lanelets := [(10, ⟨10, [("subtype", "road")], { id := 3, inv := true }, { id := 4 }, none, [{ id := 20 }]⟩)]
  regs := [(20, ⟨20, [], [("a", [.lanelet { id := 10 }, .line { id := 3 }, .point { id := 99 }, .lanelet { id := 77 }]),
    ("b", [.expired, .line { id := 4 }])]⟩)]

example : MapOk exMap ∧ Distinct exMap ∧ OrderOk exMap := by
  refine ⟨?_, ?_, ?_⟩
  · constructor <;> first | (constructor <;> decide) | (simp only [Attrs.Ok]; decide)
  · have h1 : ∀ i : Int, exMap.regs.has i = true → i = 20 := by intro i; simp [exMap, AMap.has_iff_mem]
    have h2 : ∀ i : Int, exMap.lanelets.has i = true → i = 10 := by intro i; simp [exMap, AMap.has_iff_mem]
    constructor
    · intro i _; rfl
    · intro i hi; rw [h1 i hi]; decide
    · intro i hi; rfl
    · decide
    · decide
    · decide
    · decide
    · intro e _ r _; rfl
    · intro e he r hr
      obtain rfl : e = (20, _) := by simpa [exMap] using he
      simp [paramsOf] at hr
    · intro e he r hr
      obtain rfl : e = (20, _) := by simpa [exMap] using he
      simp [paramsOf] at hr
      rcases hr with rfl | rfl <;> decide
    · intro e he r hr
      obtain rfl : e = (20, _) := by simpa [exMap] using he
      simp [paramsOf] at hr
  · unfold OrderOk
    decide

example : regMembers (fun p => some (p, p, p)) exMap ⟨20, [], [("a", [.lanelet { id := 10 }, .line { id := 3 }, .point { id := 99 },
      .lanelet { id := 77 }]), ("b", [.expired, .line { id := 4 }])]⟩ = [("a", .relation 10), ("a", .way 3), ("b", .way 4)] ∧
    writeErrors (fun p => some (p, p, p)) exMap = [.param 20 99, .expired 20, .unresolved 20 77] := by decide

/-! ### what goes wrong without `OrderOk` -/

/-- regulatory element 20 refers to lanelet 77, which is not in the map, and then to lanelet 10, which is -/
def badMap : LMap Nat where
  points := [(1, ⟨1, [], 5⟩), (2, ⟨2, [], 6⟩)]
  lines := [(3, ⟨3, [], [{ id := 1 }, { id := 2 }], false⟩), (4, ⟨4, [], [{ id := 2 }, { id := 1 }], false⟩)]
  lanelets := [(10, ⟨10, [], { id := 3 }, { id := 4 }, none, []⟩)]
  regs := [(20, ⟨20, [], [("refers", [.lanelet { id := 77 }, .lanelet { id := 10 }])]⟩)]

/-- C33 fails: writing is undefined behaviour (the address past the last member is computed, dereferenced and written to), as the
index of a placeholder behind the removed one is not adapted. -/
theorem missing_lanelet_counterexample (front : Nat → Nat → Bool) :
    writeMap (fun p => some (p, p, p)) front badMap = none := by
  have hs : appendAll (writeNodes (fun p => some (p, p, p)) badMap).1
      (writeWays (writeNodes (fun p => some (p, p, p)) badMap).1 badMap).1 badMap =
    ⟨[(20, ⟨20, [("type", "regulatory_element")], ⟨0, [("refers", none), ("refers", none)]⟩⟩),
      (10, ⟨10, [("type", "lanelet")], ⟨0, [("left", some (.way 3)), ("right", some (.way 4))]⟩⟩)],
     [⟨20, 77, 0⟩, ⟨20, 10, 1⟩], []⟩ := by rfl
  unfold writeMap
  simp only [hs, bind, Option.bind]
  rw [resolveAll]
  have h1 : resolveOne false front
    [(20, ⟨20, [("type", "regulatory_element")], ⟨0, [("refers", none), ("refers", none)]⟩⟩),
      (10, ⟨10, [("type", "lanelet")], ⟨0, [("left", some (.way 3)), ("right", some (.way 4))]⟩⟩)] ⟨20, 77, 0⟩ [⟨20, 10, 1⟩] = none := by
    cases hf : front 0 2 <;>
    simp [resolveOne, AMap.get, AMap.has, removeAndFix, Roles.index, Roles.erase, otherPlaceholders, List.zipIdx, hf]
  simp only [h1, bind, Option.bind]

end Verif.Osm
