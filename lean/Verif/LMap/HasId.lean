import Verif.LMap.Props

/-!
Property C101: `utils::has` and `utils::findUsages` by id.
-/
namespace Verif.LMap

/-! ### Model -/

/-- utils::has for linestrings, LineString.h 789-792 -/
def hasLs (c : Content) (ids : Obj → Int) (h : Handle) (id : Int) : Bool := (pointsOf c h).any fun p => ids p.obj == id

/-- utils::has for polygons, LineString.h 789-792 -/
def hasPoly (c : Content) (ids : Obj → Int) (n : Nat) (id : Int) : Bool := (c.polygonPoints n).any fun p => ids ⟨.point, p⟩ == id

/-- utils::has for lanelets, Lanelet.cpp 307-311 -/
def hasLanelet (c : Content) (ids : Obj → Int) (h : Handle) (id : Int) : Bool :=
  hasLs c ids (leftBound c h) id || hasLs c ids (rightBound c h) id || (c.laneletRegs h.obj.n).any fun r => ids ⟨.regElem, r⟩ == id

/-- utils::has for areas: the points of the outer bound, Area.h 324, CompoundLineString.h 354-357. That the polygon has a point that ends one linestring
and begins the next one only once makes no difference here. -/
def hasArea (c : Content) (ids : Obj → Int) (n : Nat) (id : Int) : Bool :=
  ((c.outer n).flatMap fun l => pointsOf c (lsHandle l)).any fun p => ids p.obj == id

/-- HasIdVisitor, RegulatoryElement.cpp 11-36: what one parameter adds to found_ -/
def hasParam (c : Content) (ids : Obj → Int) (id : Int) (p : Handle) : Bool :=
  match p.obj.kind with
  | .point => ids p.obj == id
  | .lineString => ids p.obj == id || hasLs c ids p id
  | .polygon => ids p.obj == id || hasPoly c ids p.obj.n id
  | .lanelet => if expired c p.obj then false else ids p.obj == id || hasLanelet c ids p id
  | .area => if expired c p.obj then false else ids p.obj == id || hasArea c ids p.obj.n id
  | .regElem => false

/-- utils::has for regulatory elements, RegulatoryElement.cpp 164-168 -/
def hasReg (c : Content) (ids : Obj → Int) (n : Nat) (id : Int) : Bool := (c.params n).foldl (fun found p => found || hasParam c ids id p) false

/-- utils::has; for points there is none (false). Places as at the functions above. -/
def has (c : Content) (ids : Obj → Int) (h : Handle) (id : Int) : Bool :=
  match h.obj.kind with
  | .point => false
  | .lineString => hasLs c ids h id
  | .polygon => hasPoly c ids h.obj.n id
  | .lanelet => hasLanelet c ids h id
  | .area => hasArea c ids h.obj.n id
  | .regElem => hasReg c ids h.obj.n id

/-- utils::findUsages of a layer and an id, LaneletMap.cpp 778-784. For areas and points it is only a declaration (785-791). -/
def findUsagesById (c : Content) (s : MapSt) (k : Kind) (id : Int) : List Handle := (elems s k).filter fun h => has c s.ids h id

/-! ### Specification -/

/-- Specification. What a primitive consists of, itself left out: the points of linestrings and polygons; bounds, their points and the regulatory elements of
lanelets and areas. -/
inductive Part (c : Content) : Obj → Obj → Prop where
  | point {n p : Nat} : p ∈ c.points n → Part c ⟨.lineString, n⟩ ⟨.point, p⟩
  | corner {n p : Nat} : p ∈ c.polygonPoints n → Part c ⟨.polygon, n⟩ ⟨.point, p⟩
  | left {n : Nat} : Part c ⟨.lanelet, n⟩ ⟨.lineString, (c.left n).1⟩
  | right {n : Nat} : Part c ⟨.lanelet, n⟩ ⟨.lineString, (c.right n).1⟩
  | rule {n r : Nat} : r ∈ c.laneletRegs n → Part c ⟨.lanelet, n⟩ ⟨.regElem, r⟩
  | outer {n : Nat} {l : Nat × Bool} : l ∈ c.outer n → Part c ⟨.area, n⟩ ⟨.lineString, l.1⟩
  | inner {n : Nat} {ring : List (Nat × Bool)} {l : Nat × Bool} : ring ∈ c.inner n → l ∈ ring → Part c ⟨.area, n⟩ ⟨.lineString, l.1⟩
  | areaRule {n r : Nat} : r ∈ c.areaRegs n → Part c ⟨.area, n⟩ ⟨.regElem, r⟩
  | deeper {o x y : Obj} : Part c o x → Part c x y → Part c o y

/-- Specification. What a regulatory element refers to: its parameters that are not expired, and what they consist of. -/
def Refers (c : Content) (r : Nat) (x : Obj) : Prop :=
  ∃ p ∈ c.params r, expired c p.obj = false ∧ p.obj.kind ≠ .regElem ∧ (x = p.obj ∨ Part c p.obj x)

/-- Specification. A part of the primitive, or something that the regulatory element refers to, has the id. -/
def HasPart (c : Content) (ids : Obj → Int) (h : Handle) (id : Int) : Prop :=
  ∃ x, ids x = id ∧ (if h.obj.kind = .regElem then Refers c h.obj.n x else Part c h.obj x)

/-! ### Proofs -/

theorem mem_pointsOf {c : Content} {h : Handle} {x : Handle} : x ∈ pointsOf c h ↔ ∃ p ∈ c.points h.obj.n, x = Handle.of .point p := by
  unfold pointsOf
  split <;> simp [eq_comm]

theorem hasLs_iff {c : Content} {ids : Obj → Int} {h : Handle} {id : Int} :
    hasLs c ids h id = true ↔ ∃ p ∈ c.points h.obj.n, ids ⟨.point, p⟩ = id := by
  simp only [hasLs, List.any_eq_true, beq_iff_eq, mem_pointsOf]
  constructor
  · rintro ⟨_, ⟨p, hp, rfl⟩, h⟩; exact ⟨p, hp, h⟩
  · rintro ⟨p, hp, h⟩; exact ⟨_, ⟨p, hp, rfl⟩, h⟩

theorem part_point {c : Content} {o x : Obj} (h : Part c o x) (hk : o.kind = .point ∨ o.kind = .regElem) : False := by
  induction h with
  | deeper _ _ ih _ => exact ih hk
  | _ => simp at hk

theorem part_line {c : Content} {o x : Obj} (h : Part c o x) (hk : o.kind = .lineString) : ∃ p ∈ c.points o.n, x = ⟨.point, p⟩ := by
  induction h with
  | point hp => exact ⟨_, hp, rfl⟩
  | deeper _ h2 ih _ =>
    obtain ⟨p, _, rfl⟩ := ih hk
    exact (part_point h2 (.inl rfl)).elim
  | _ => simp at hk

theorem part_polygon {c : Content} {o x : Obj} (h : Part c o x) (hk : o.kind = .polygon) : ∃ p ∈ c.polygonPoints o.n, x = ⟨.point, p⟩ := by
  induction h with
  | corner hp => exact ⟨_, hp, rfl⟩
  | deeper _ h2 ih _ =>
    obtain ⟨p, _, rfl⟩ := ih hk
    exact (part_point h2 (.inl rfl)).elim
  | _ => simp at hk

/-- Linestrings and polygons: `has` is true exactly for the ids of their points. -/
theorem has_line_iff (c : Content) (ids : Obj → Int) (h : Handle) (id : Int) (hk : h.obj.kind = .lineString ∨ h.obj.kind = .polygon) :
    has c ids h id = true ↔ HasPart c ids h id := by
  obtain ⟨⟨k, n⟩, inv⟩ := h
  simp only at hk
  unfold HasPart
  rcases hk with rfl | rfl
  · simp only [has, hasLs_iff]
    constructor
    · rintro ⟨p, hp, hid⟩; exact ⟨_, hid, by simpa using Part.point hp⟩
    · rintro ⟨x, hid, hx⟩
      obtain ⟨p, hp, rfl⟩ := part_line (by simpa using hx) rfl
      exact ⟨p, hp, hid⟩
  · simp only [has, hasPoly, List.any_eq_true, beq_iff_eq]
    constructor
    · rintro ⟨p, hp, hid⟩; exact ⟨_, hid, by simpa using Part.corner hp⟩
    · rintro ⟨x, hid, hx⟩
      obtain ⟨p, hp, rfl⟩ := part_polygon (by simpa using hx) rfl
      exact ⟨p, hp, hid⟩

theorem hasLanelet_iff {c : Content} {ids : Obj → Int} {h : Handle} {id : Int} :
    hasLanelet c ids h id = true ↔ (∃ p, (p ∈ c.points (c.left h.obj.n).1 ∨ p ∈ c.points (c.right h.obj.n).1) ∧ ids ⟨.point, p⟩ = id) ∨
      ∃ r ∈ c.laneletRegs h.obj.n, ids ⟨.regElem, r⟩ = id := by
  simp only [hasLanelet, Bool.or_eq_true, hasLs_iff, List.any_eq_true, beq_iff_eq]
  refine or_congr ?_ Iff.rfl
  rw [← exists_or]
  refine exists_congr fun p => ?_
  cases hi : h.inv <;> simp [leftBound, rightBound, lsHandle, invertLs, hi, or_and_right, or_comm]

theorem hasArea_iff {c : Content} {ids : Obj → Int} {n : Nat} {id : Int} :
    hasArea c ids n id = true ↔ ∃ l ∈ c.outer n, ∃ p ∈ c.points l.1, ids ⟨.point, p⟩ = id := by
  simp only [hasArea, List.any_eq_true, beq_iff_eq, List.mem_flatMap, mem_pointsOf]
  constructor
  · rintro ⟨_, ⟨l, hl, p, hp, rfl⟩, h⟩; exact ⟨l, hl, p, hp, h⟩
  · rintro ⟨l, hl, p, hp, h⟩; exact ⟨_, ⟨l, hl, p, hp, rfl⟩, h⟩

/-- Lanelets: `has` is true exactly for the ids of the points of the bounds and of the regulatory elements, in both directions of the lanelet. Missing are the
bounds themselves (`has_bound_counterexample`). -/
theorem has_lanelet_partial (c : Content) (ids : Obj → Int) (n : Nat) (inv : Bool) (id : Int) :
    has c ids ⟨⟨.lanelet, n⟩, inv⟩ id = true ↔ ∃ x, ids x = id ∧ Part c ⟨.lanelet, n⟩ x ∧ x.kind ≠ .lineString := by
  show hasLanelet c ids ⟨⟨.lanelet, n⟩, inv⟩ id = true ↔ _
  rw [hasLanelet_iff]
  constructor
  · rintro (⟨p, hp | hp, h⟩ | ⟨r, hr, h⟩)
    · exact ⟨_, h, .deeper .left (.point hp), by simp⟩
    · exact ⟨_, h, .deeper .right (.point hp), by simp⟩
    · exact ⟨_, h, .rule hr, by simp⟩
  · rintro ⟨x, hid, hx, hk⟩
    have key : ∀ o x, Part c o x → o = ⟨.lanelet, n⟩ → x = ⟨.lineString, (c.left n).1⟩ ∨ x = ⟨.lineString, (c.right n).1⟩ ∨
        (∃ p, (p ∈ c.points (c.left n).1 ∨ p ∈ c.points (c.right n).1) ∧ x = ⟨.point, p⟩) ∨ ∃ r ∈ c.laneletRegs n, x = ⟨.regElem, r⟩ := by
      intro o x h
      induction h with
      | left => rintro ⟨⟩; exact .inl rfl
      | right => rintro ⟨⟩; exact .inr (.inl rfl)
      | rule hr => rintro ⟨⟩; exact .inr (.inr (.inr ⟨_, hr, rfl⟩))
      | deeper _ h2 ih _ =>
        intro ho
        rcases ih ho with rfl | rfl | ⟨p, _, rfl⟩ | ⟨r, _, rfl⟩
        · obtain ⟨p, hp, rfl⟩ := part_line h2 rfl
          exact .inr (.inr (.inl ⟨p, .inl hp, rfl⟩))
        · obtain ⟨p, hp, rfl⟩ := part_line h2 rfl
          exact .inr (.inr (.inl ⟨p, .inr hp, rfl⟩))
        · exact (part_point h2 (.inl rfl)).elim
        · exact (part_point h2 (.inr rfl)).elim
      | _ => intro h; simp at h
    rcases key _ _ hx rfl with rfl | rfl | ⟨p, hp, rfl⟩ | ⟨r, hr, rfl⟩
    · exact absurd rfl hk
    · exact absurd rfl hk
    · exact .inl ⟨p, hp, hid⟩
    · exact .inr ⟨r, hr, hid⟩

/-- Areas: `has` is true exactly for the ids of the points of the outer bound. Missing are the linestrings, the inner bounds and the regulatory elements
(`has_area_counterexample`). -/
theorem has_area_partial (c : Content) (ids : Obj → Int) (n : Nat) (inv : Bool) (id : Int) :
    has c ids ⟨⟨.area, n⟩, inv⟩ id = true ↔ ∃ l ∈ c.outer n, ∃ x, Part c ⟨.lineString, l.1⟩ x ∧ ids x = id := by
  show hasArea c ids n id = true ↔ _
  rw [hasArea_iff]
  constructor
  · rintro ⟨l, hl, p, hp, h⟩; exact ⟨l, hl, _, .point hp, h⟩
  · rintro ⟨l, hl, x, hx, h⟩
    obtain ⟨p, hp, rfl⟩ := part_line hx rfl
    exact ⟨l, hl, p, hp, h⟩

theorem foldl_or {α : Type} (f : α → Bool) (l : List α) (b : Bool) : l.foldl (fun found p => found || f p) b = (b || l.any f) := by
  induction l generalizing b with
  | nil => simp
  | cons x l ih => rw [List.foldl_cons, ih, List.any_cons, Bool.or_assoc]

/-- Regulatory elements: `has` is true exactly for the ids of the parameters that are not expired, and for what `has` finds in these. -/
theorem has_rule_iff (c : Content) (ids : Obj → Int) (r : Nat) (inv : Bool) (id : Int) :
    has c ids ⟨⟨.regElem, r⟩, inv⟩ id = true ↔
      ∃ p ∈ c.params r, expired c p.obj = false ∧ p.obj.kind ≠ .regElem ∧ (ids p.obj = id ∨ has c ids p id = true) := by
  show hasReg c ids r id = true ↔ _
  unfold hasReg
  rw [foldl_or, Bool.false_or, List.any_eq_true]
  refine exists_congr fun p => and_congr_right fun _ => ?_
  obtain ⟨⟨k, n⟩, i⟩ := p
  cases k <;> simp [hasParam, has, expired]

/-- `has` is true only for ids of parts, or of what the regulatory element refers to. -/
theorem has_sound (c : Content) (ids : Obj → Int) (h : Handle) (id : Int) (hh : has c ids h id = true) : HasPart c ids h id := by
  have key : ∀ h : Handle, h.obj.kind ≠ .regElem → has c ids h id = true → ∃ x, ids x = id ∧ Part c h.obj x := by
    intro h hk hh
    obtain ⟨⟨k, n⟩, inv⟩ := h
    cases k with
    | point => simp [has] at hh
    | regElem => simp at hk
    | lineString => obtain ⟨x, h1, h2⟩ := (has_line_iff c ids _ id (.inl rfl)).1 hh; exact ⟨x, h1, by simpa using h2⟩
    | polygon => obtain ⟨x, h1, h2⟩ := (has_line_iff c ids _ id (.inr rfl)).1 hh; exact ⟨x, h1, by simpa using h2⟩
    | lanelet => obtain ⟨x, h1, h2, _⟩ := (has_lanelet_partial c ids n inv id).1 hh; exact ⟨x, h1, h2⟩
    | area => obtain ⟨l, hl, x, h1, h2⟩ := (has_area_partial c ids n inv id).1 hh; exact ⟨x, h2, .deeper (.outer hl) h1⟩
  by_cases hk : h.obj.kind = .regElem
  · obtain ⟨⟨k, n⟩, inv⟩ := h
    simp only at hk; subst hk
    obtain ⟨p, hp, he, hpk, hor⟩ := (has_rule_iff c ids n inv id).1 hh
    rcases hor with hor | hor
    · exact ⟨p.obj, hor, by rw [if_pos rfl]; exact ⟨p, hp, he, hpk, .inl rfl⟩⟩
    · obtain ⟨x, h1, h2⟩ := key p hpk hor
      exact ⟨x, h1, by rw [if_pos rfl]; exact ⟨p, hp, he, hpk, .inr h2⟩⟩
  · obtain ⟨x, h1, h2⟩ := key h hk hh
    exact ⟨x, h1, by rw [if_neg hk]; exact h2⟩

/-- The id of a bound of a lanelet is never found, unless a point of the bounds or a regulatory element of the lanelet has the same id. -/
theorem has_bound (c : Content) (ids : Obj → Int) (n : Nat) (inv : Bool) (id : Int)
    (hp : ∀ p, p ∈ c.points (c.left n).1 ∨ p ∈ c.points (c.right n).1 → ids ⟨.point, p⟩ ≠ id) (hr : ∀ r ∈ c.laneletRegs n, ids ⟨.regElem, r⟩ ≠ id) :
    has c ids ⟨⟨.lanelet, n⟩, inv⟩ id = false := by
  rw [← Bool.not_eq_true]
  intro h
  rcases hasLanelet_iff.1 h with ⟨p, h1, h2⟩ | ⟨r, h1, h2⟩
  · exact hp p h1 h2
  · exact hr r h1 h2

theorem nodup_of_keys {α : Type} {s : List (Int × α)} {f : α → Int} (h : (s.map (·.1)).Nodup) (hk : ∀ e ∈ s, e.1 = f e.2) : (s.map (·.2)).Nodup := by
  have : (s.map (·.2)).map f = s.map (·.1) := by
    rw [List.map_map]; exact List.map_congr_left fun e he => (hk e he).symm
  rw [← this] at h
  rw [List.Nodup, List.pairwise_map] at h
  exact h.imp fun {a b} hne (he : a = b) => hne (congrArg f he)

/-- `findUsages(layer, id)` gives exactly the elements of the layer for which `has` is true, each of them once. -/
theorem findUsagesById_iff {c : Content} {U : List Obj} (hU : Complete c U) {s : MapSt} (h : Reachable c U s) (k : Kind) (id : Int) :
    (∀ y, y ∈ findUsagesById c s k id ↔ y ∈ elems s k ∧ has c s.ids y id = true) ∧ (findUsagesById c s k id).Nodup := by
  obtain ⟨w, st, -⟩ := reachable_inv hU h
  exact ⟨fun y => List.mem_filter, (nodup_of_keys (f := fun h : Handle => s.ids h.obj) (st.nodup k) (w.key k)).filter _⟩

/-- For points, `findUsages(layer, id)` gives the same linestrings and polygons as `layer.findUsages(point)`, if no other point has the id. -/
theorem findUsagesById_point {c : Content} {U : List Obj} (hU : Complete c U) {s : MapSt} (h : Reachable c U s) (k : Kind)
    (hk : k = .lineString ∨ k = .polygon) (p : Nat) (hinj : ∀ q, s.ids ⟨.point, q⟩ = s.ids ⟨.point, p⟩ → q = p) (y : Handle) :
    y ∈ findUsagesById c s k (s.ids ⟨.point, p⟩) ↔ y ∈ findUsages c s k (Handle.of .point p) := by
  rw [(findUsagesById_iff hU h k _).1, findUsages_iff hU h]
  obtain ⟨w, -, -⟩ := reachable_inv hU h
  refine and_congr_right fun hy => ?_
  have hyk : y.obj.kind = k := by
    obtain ⟨e, he, rfl⟩ := List.mem_map.1 hy; exact w.kind k e he
  obtain ⟨⟨ky, n⟩, inv⟩ := y
  simp only at hyk; subst hyk
  have hexp : expired c (Handle.of .point p).obj = false := rfl
  rw [hexp]
  have hof : ∀ q, Handle.of .point q = Handle.of .point p ↔ q = p := fun q => by simp [Handle.of]
  rcases hk with rfl | rfl
  · simp only [has, hasLs_iff, and_true]
    constructor
    · rintro ⟨q, hq, hid⟩
      have := hinj q hid; subst this
      have hm : Handle.of .point q ∈ pointsOf c ⟨⟨.lineString, n⟩, inv⟩ := mem_pointsOf.2 ⟨q, hq, rfl⟩
      simpa [owned, pointsOf] using hm
    · intro hm
      have hm' : Handle.of .point p ∈ pointsOf c ⟨⟨.lineString, n⟩, inv⟩ := by simpa [owned, pointsOf] using hm
      obtain ⟨q, hq, he⟩ := mem_pointsOf.1 hm'
      have := (hof q).1 he.symm; subst this
      exact ⟨q, hq, rfl⟩
  · simp only [has, hasPoly, List.any_eq_true, beq_iff_eq, and_true, owned, List.mem_map, hof]
    constructor
    · rintro ⟨q, hq, hid⟩; exact ⟨q, hq, hinj q hid⟩
    · rintro ⟨q, hq, rfl⟩; exact ⟨q, hq, rfl⟩

/-- Whatever `layer.findUsages` gives for a parameter or a regulatory element, `findUsages(layer, id)` gives for its id. -/
theorem findUsagesById_covers {c : Content} {U : List Obj} (hU : Complete c U) {s : MapSt} (h : Reachable c U s) :
    (∀ x y, x.obj.kind ≠ .regElem → y ∈ findUsages c s .regElem x → y ∈ findUsagesById c s .regElem (s.ids x.obj)) ∧
    (∀ r y, y ∈ findRegUsages s .lanelet r → y ∈ findUsagesById c s .lanelet (s.ids ⟨.regElem, r⟩)) := by
  obtain ⟨w, -, -⟩ := reachable_inv hU h
  have kind : ∀ k y, y ∈ elems s k → y.obj.kind = k := fun k y hy => by
    obtain ⟨e, he, rfl⟩ := List.mem_map.1 hy; exact w.kind k e he
  constructor
  · intro x y hxk hy
    rw [findUsages_iff hU h] at hy
    obtain ⟨hy, ho, he⟩ := hy
    refine ((findUsagesById_iff hU h _ _).1 y).2 ⟨hy, ?_⟩
    have hyk := kind _ y hy
    obtain ⟨⟨ky, n⟩, inv⟩ := y
    simp only at hyk; subst hyk
    exact (has_rule_iff c s.ids n inv _).2 ⟨x, ho, he, hxk, .inl rfl⟩
  · intro r y hy
    rw [findRegUsages_iff hU h] at hy
    obtain ⟨hy, hr⟩ := hy
    refine ((findUsagesById_iff hU h _ _).1 y).2 ⟨hy, ?_⟩
    have hyk := kind _ y hy
    obtain ⟨⟨ky, n⟩, inv⟩ := y
    simp only at hyk; subst hyk
    exact hasLanelet_iff.2 (.inr ⟨r, hr, rfl⟩)

/-! ### Examples -/

/-- Example. Different ids for all objects of `exC`. -/
def exIds (o : Obj) : Int := match o.kind with
  | .point => 10 + o.n | .lineString => 20 + o.n | .polygon => 30 + o.n | .lanelet => 40 + o.n | .area => 50 + o.n | .regElem => 60 + o.n

/-- C101, disagreement. A lanelet has a left bound, but `utils::has(lanelet, leftBound.id())` is false, and so findUsages(laneletLayer, id) misses the lanelet that
laneletLayer.findUsages(leftBound) gives. -/
theorem has_bound_counterexample : ∃ (c : Content) (U : List Obj) (s : MapSt) (y b : Handle), Complete c U ∧ Reachable c U s ∧
    y ∈ findUsages c s .lanelet b ∧ HasPart c s.ids y (s.ids b.obj) ∧ has c s.ids y (s.ids b.obj) = false ∧
    y ∉ findUsagesById c s .lanelet (s.ids b.obj) := by
  have h0 : Reachable exC exU (.empty exIds 1000) := .empty _ _ (by omega)
  obtain ⟨s', h1, h2⟩ := add_terminates exU_complete h0 ⟨⟨.lanelet, 0⟩, false⟩ (by decide)
  have h1' := Reachable.add (U := exU) ⟨⟨.lanelet, 0⟩, false⟩ h0 (by decide) h1
  have hids : ∀ o, s'.ids o = exIds o := by
    obtain ⟨s2, e, p⟩ := add_post exC exU exU_complete ⟨⟨.lanelet, 0⟩, false⟩ (by decide) _ (reachable_inv exU_complete h0).1
    rw [h1] at e; cases e
    intro o
    refine p.le.ids o ?_
    show exIds o ≠ 0
    obtain ⟨k, n⟩ := o
    cases k <;> simp only [exIds] <;> omega
  have hfalse : has exC s'.ids ⟨⟨.lanelet, 0⟩, false⟩ (s'.ids ⟨.lineString, 0⟩) = false := by
    rw [funext hids]; decide
  obtain ⟨w, -, -⟩ := reachable_inv exU_complete h1'
  have hmem : (⟨⟨.lanelet, 0⟩, false⟩ : Handle) ∈ elems s' .lanelet ∨ (⟨⟨.lanelet, 0⟩, true⟩ : Handle) ∈ elems s' .lanelet := by
    obtain ⟨_, y, hy⟩ := (exists_iff s' _).1 h2
    have hk := w.key _ _ hy
    have hkind := w.kind _ _ hy
    obtain ⟨⟨ky, n⟩, inv⟩ := y
    simp only at hkind; subst hkind
    simp only [hids, exIds] at hk
    have : n = 0 := by omega
    subst this
    cases inv
    · exact .inl (List.mem_map.2 ⟨_, hy, rfl⟩)
    · exact .inr (List.mem_map.2 ⟨_, hy, rfl⟩)
  rcases hmem with hmem | hmem
  · refine ⟨exC, exU, s', ⟨⟨.lanelet, 0⟩, false⟩, ⟨⟨.lineString, 0⟩, false⟩, exU_complete, h1', ?_, ?_, hfalse, ?_⟩
    · exact (findUsages_iff exU_complete h1' _ _ _).2 ⟨hmem, by decide, rfl⟩
    · exact ⟨_, rfl, by rw [if_neg (by decide)]; exact .left⟩
    · intro h; rw [((findUsagesById_iff exU_complete h1' _ _).1 _), hfalse] at h; simp at h
  · have hfalse' : has exC s'.ids ⟨⟨.lanelet, 0⟩, true⟩ (s'.ids ⟨.lineString, 0⟩) = false := by
      rw [funext hids]; decide
    refine ⟨exC, exU, s', ⟨⟨.lanelet, 0⟩, true⟩, ⟨⟨.lineString, 0⟩, true⟩, exU_complete, h1', ?_, ?_, hfalse', ?_⟩
    · exact (findUsages_iff exU_complete h1' _ _ _).2 ⟨hmem, by decide, rfl⟩
    · exact ⟨_, rfl, by rw [if_neg (by decide)]; exact .left⟩
    · intro h; rw [((findUsagesById_iff exU_complete h1' _ _).1 _), hfalse'] at h; simp at h

/-- Example. An area with the outer bound 0, the inner bound 1 and the regulatory element 5. -/
def exArea : Content := { exC with outer := fun _ => [(0, false)], inner := fun _ => [[(1, true)]], areaRegs := fun _ => [5] }

/-- C101, disagreement. An area has inner bounds and regulatory elements, but `utils::has` does not find them, nor the linestrings of its outer bound. -/
theorem has_area_counterexample :
    (∀ x ∈ [Obj.mk .lineString 0, .mk .lineString 1, .mk .point 2, .mk .regElem 5], Part exArea ⟨.area, 0⟩ x ∧
      has exArea exIds ⟨⟨.area, 0⟩, false⟩ (exIds x) = false) ∧ has exArea exIds ⟨⟨.area, 0⟩, false⟩ (exIds ⟨.point, 1⟩) = true := by
  refine ⟨?_, by decide⟩
  intro x hx
  simp only [List.mem_cons, List.not_mem_nil, or_false] at hx
  have h0 : (0, false) ∈ exArea.outer 0 := by decide
  have h1 : [(1, true)] ∈ exArea.inner 0 := by decide
  rcases hx with rfl | rfl | rfl | rfl
  · exact ⟨.outer h0, by decide⟩
  · exact ⟨.inner h1 (l := (1, true)) (by decide), by decide⟩
  · exact ⟨.deeper (.inner h1 (l := (1, true)) (by decide)) (.point (by decide)), by decide⟩
  · exact ⟨.areaRule (by decide), by decide⟩

/-- Example of `has_rule_iff`: the regulatory element 0 of `exC` has its lanelet 40, the points of its bounds, the linestring 22 and, as part of the lanelet, itself. -/
example : [40, 10, 13, 22, 60, 20, 61].map (has exC exIds ⟨⟨.regElem, 0⟩, false⟩) = [true, true, true, true, true, false, false] := by decide
example : [10, 13, 60, 20, 40].map (has exC exIds ⟨⟨.lanelet, 0⟩, true⟩) = [true, true, true, false, false] := by decide

end Verif.LMap
