import Verif.Osm.RegisterIds
import Verif.Osm.RoundTrip

/-!
C54: writing OSM documents and reading them again. Model of OsmFileWriter, lanelet2_io/src/OsmFile.cpp 96-187.

Not modelled: the text of the document (pugixml), the attributes `version`, `visible`, `upload` and `generator`, which the reader
ignores. Texts of numbers are parameters: see `Verif.Osm.Josm` for the format. Primitives are written in the order of the lists.
-/
namespace Verif.Osm
open scoped List
variable {P D : Type}

/-! ### model -/

/-- how numbers are written and read; OsmFile.cpp 59-64, 131-149, 205-222 -/
structure Numbers (D : Type) where
  /-- a coordinate: toJosmStyle(d) -/
  coord : D → String
  /-- a height: toJosmStyle(d, josm_format_elevation) -/
  ele : D → String
  /-- `d == 0.` -/
  isZero : D → Bool
  zero : D
  /-- text to double: as_double -/
  num : String → D

/-- Primitive::type, OsmFile.h 41, 50, 59 -/
def Target.type : Target → String
  | .node _ => "node"
  | .way _ => "way"
  | .relation _ => "relation"

/-- writeNodes, OsmFile.cpp 131-149 with writeAttributes 123-129 -/
def writeXNode (f : Numbers D) (n : Node D) : XNode :=
  ⟨n.id, false, some (f.coord n.lat), some (f.coord n.lon), (if f.isZero n.ele then [] else [("ele", f.ele n.ele)]) ++ n.attrs⟩

/-- writeWays, OsmFile.cpp 151-166 -/
def writeXWay (w : Way) : XWay := ⟨w.id, false, w.nodes, w.attrs⟩

/-- one member, OsmFile.cpp 178-182; `none`: undefined behaviour, as the pointer is null -/
def writeXMember (x : String × Option Target) : Option XMember := x.2.map fun t => ⟨t.type, t.id, x.1⟩

/-- writeRelations, OsmFile.cpp 169-186 -/
def writeXRelation (r : Relation) : Option XRelation := do
  let ms ← r.members.items.mapM writeXMember
  return ⟨r.id, false, ms, r.attrs⟩

/-- write, OsmFile.cpp 98-120 -/
def writeDoc (f : Numbers D) (file : File D) : Option Doc := do
  let rs ← file.relations.mapM fun e => writeXRelation e.2
  return ⟨file.nodes.map fun e => writeXNode f e.2, file.ways.map fun e => writeXWay e.2, rs⟩

/-! ### specification -/

/-- a file without dangling pointers and without attributes called `ele`; Specification. -/
structure DocOk (file : File D) : Prop where
  ok : FileOk file
  refs : ∀ e ∈ file.ways, ∀ n ∈ e.2.nodes, file.nodes.has n = true
  nodeMembers : ∀ e ∈ file.relations, ∀ x ∈ e.2.members.items, ∀ i, x.2 = some (.node i) → file.nodes.has i = true
  wayMembers : ∀ e ∈ file.relations, ∀ x ∈ e.2.members.items, ∀ i, x.2 = some (.way i) → file.ways.has i = true
  nodeEle : ∀ e ∈ file.nodes, e.2.attrs.has "ele" = false
  wayEle : ∀ e ∈ file.ways, e.2.attrs.has "ele" = false
  relationEle : ∀ e ∈ file.relations, e.2.attrs.has "ele" = false

/-- a coordinate that has been written and read; Specification. -/
def Numbers.trip (f : Numbers D) (d : D) : D := f.num (f.coord d)

/-- a height that has been written and read; Specification. -/
def Numbers.tripEle (f : Numbers D) (d : D) : D := if f.isZero d then f.zero else f.num (f.ele d)

/-- the same file up to coordinates; Specification. -/
structure SameFile (f : Numbers D) (file file' : File D) : Prop where
  nodes : ∀ i, file'.nodes.get i = (file.nodes.get i).map fun n => ⟨n.id, n.attrs, f.trip n.lat, f.trip n.lon, f.tripEle n.ele⟩
  ways : ∀ i, file'.ways.get i = file.ways.get i
  relations : ∀ i, (file'.relations.get i).map (fun r => (r.id, r.attrs, r.members.items)) =
    (file.relations.get i).map fun r => (r.id, r.attrs, r.members.items)

/-! ### proofs -/

theorem readTags_same {a : Attrs} (h : a.Ok) (he : a.has "ele" = false) : readTags a = a := by
  have key : ∀ (l pre : Attrs), ((pre ++ l).map (·.1)).Nodup → (∀ t ∈ l, t.1 ≠ "ele") →
      l.foldl (fun a t => if t.1 = "ele" then a else AMap.set a t.1 t.2) pre = pre ++ l := by
    intro l
    induction l with
    | nil => intro pre _ _; simp
    | cons t l ih =>
      intro pre hn he
      have hnot : AMap.has pre t.1 = false := by
        rw [Bool.eq_false_iff]
        intro hc
        have hc := (AMap.has_iff_mem _ _).mp hc
        rw [List.map_append, List.map_cons, List.nodup_append] at hn
        exact hn.2.2 _ hc t.1 (List.mem_cons_self ..) rfl
      have hs : AMap.set pre t.1 t.2 = pre ++ [t] := by
        unfold AMap.set
        rw [hnot]; simp
      rw [List.foldl_cons, if_neg (he t (by simp)), hs, ih (pre ++ [t]) (by rw [List.append_assoc]; exact hn)
        fun x hx => he x (by simp [hx]), List.append_assoc]
      rfl
  unfold readTags
  rw [key a [] h]
  · rfl
  · intro t ht hc
    have : AMap.has a "ele" = true := (AMap.has_iff_mem _ _).mpr (List.mem_map.mpr ⟨t, ht, hc⟩)
    rw [he] at this; cases this

theorem readTags_ele (a : Attrs) (v : String) : readTags (("ele", v) :: a) = readTags a := by
  unfold readTags
  rw [List.foldl_cons, if_pos rfl]

theorem find_ele {a : Attrs} (he : a.has "ele" = false) : a.find? (fun t => t.1 = "ele") = none := by
  rw [List.find?_eq_none]
  intro t ht hc
  have : AMap.has a "ele" = true := (AMap.has_iff_mem _ _).mpr (List.mem_map.mpr ⟨t, ht, by simpa using hc⟩)
  rw [he] at this; cases this

theorem nodeOf_write (f : Numbers D) {n : Node D} (h : n.attrs.Ok) (he : n.attrs.has "ele" = false) :
    nodeOf f.zero f.num (writeXNode f n) = ⟨n.id, n.attrs, f.trip n.lat, f.trip n.lon, f.tripEle n.ele⟩ := by
  unfold nodeOf writeXNode Numbers.trip Numbers.tripEle
  by_cases hz : f.isZero n.ele = true
  · simp only [hz, if_true, List.nil_append, readTags_same h he, find_ele he, asDouble, Option.map_none]
  · rw [Bool.not_eq_true] at hz
    simp [hz, readTags_ele, readTags_same h he, asDouble]

/-- looking up by id in a list of converted values -/
theorem find_converted {V X : Type} {l : AMap Id V} {g : V → X} {idf : X → Id} (hid : ∀ e ∈ l, idf (g e.2) = e.1) (i : Id) :
    (l.map fun e => g e.2).find? (fun x => idf x = i) = (l.get i).map g := by
  induction l with
  | nil => rfl
  | cons e l ih =>
    have ih := ih fun x hx => hid x (List.mem_cons_of_mem _ hx)
    rw [List.map_cons, List.find?_cons, AMap.get_cons, hid e (by simp), ih]
    by_cases he : e.1 = i <;> simp [he]

theorem get_reverse {V : Type} {l : AMap Id V} (h : (l.map (·.1)).Nodup) (i : Id) : AMap.get l.reverse i = l.get i := by
  have h' : ((AMap.get l.reverse i) = l.get i) := by
    cases hg : l.get i with
    | some v =>
      have hm := AMap.mem_of_get hg
      exact AMap.get_of_mem (m := l.reverse) (by rw [List.map_reverse]; exact (List.reverse_perm _).nodup_iff.mpr h) (e := (i, v))
        (List.mem_reverse.mpr hm)
    | none =>
      cases hg' : AMap.get l.reverse i with
      | none => rfl
      | some v =>
        have hm := List.mem_reverse.mp (AMap.mem_of_get hg')
        rw [AMap.get_of_mem h hm] at hg
        cases hg
  exact h'

theorem lastWith_converted {V X : Type} {l : AMap Id V} {g : V → X} {idf : X → Id} (h : (l.map (·.1)).Nodup)
    (hid : ∀ e ∈ l, idf (g e.2) = e.1) (i : Id) : lastWith idf (l.map fun e => g e.2) i = (l.get i).map g := by
  unfold lastWith
  rw [← List.map_reverse, find_converted (fun e he => hid e (List.mem_reverse.mp he)), get_reverse h]

/-- relations with valid pointers can be written; Helper of the proofs. -/
def xrel (r : Relation) : XRelation := ⟨r.id, false, r.members.items.filterMap writeXMember, r.attrs⟩

theorem mapM_some {α β : Type} {f : α → Option β} {g : α → β} {l : List α} (h : ∀ a ∈ l, f a = some (g a)) :
    l.mapM f = some (l.map g) := by
  induction l with
  | nil => rfl
  | cons a l ih =>
    rw [List.mapM_cons, h a (by simp), ih fun x hx => h x (List.mem_cons_of_mem _ hx)]
    rfl

theorem writeXRelation_eq {r : Relation} (h : NonNull r) : writeXRelation r = some (xrel r) := by
  have key : r.members.items.mapM writeXMember = some (r.members.items.filterMap writeXMember) := by
    unfold NonNull at h
    generalize r.members.items = l at h ⊢
    induction l with
    | nil => rfl
    | cons x l ih =>
      obtain ⟨t, ht⟩ := h x (by simp)
      have e : writeXMember x = some ⟨t.type, t.id, x.1⟩ := by simp [writeXMember, ht]
      rw [List.mapM_cons, e, ih fun y hy => h y (List.mem_cons_of_mem _ hy), List.filterMap_cons, e]
      rfl
  unfold writeXRelation xrel
  rw [key]
  rfl

/-- the document for a file; Helper of the proofs. -/
def docOf (f : Numbers D) (file : File D) : Doc :=
  ⟨file.nodes.map fun e => writeXNode f e.2, file.ways.map fun e => writeXWay e.2, file.relations.map fun e => xrel e.2⟩

theorem fileOk_nonNull {file : File D} (h : FileOk file) : ∀ e ∈ file.relations, NonNull e.2 := by
  intro e he x hx
  obtain ⟨t, ht, -⟩ := h.members e he x hx
  exact ⟨t, ht⟩

theorem writeDoc_eq (f : Numbers D) {file : File D} (h : FileOk file) : writeDoc f file = some (docOf f file) := by
  unfold writeDoc docOf
  rw [mapM_some (g := fun e => xrel e.2) fun e he => writeXRelation_eq (fileOk_nonNull h e he)]
  rfl

theorem filter_live {α : Type} {l : List α} {d : α → Bool} (h : ∀ x ∈ l, d x = false) : (l.filter fun x => !d x) = l := by
  rw [List.filter_eq_self]
  intro x hx
  simp [h x hx]

/-- C54: writing a file and reading it again gives the same file without errors. Only coordinates pass through their decimal text,
and a height of zero is not written. -/
theorem read_writeDoc (f : Numbers D) (front : Nat → Nat → Bool) {file : File D} (h : DocOk file) :
    ∃ doc file', writeDoc f file = some doc ∧ read f.zero f.num front doc = some (file', []) ∧ SameFile f file file' := by
  have hdoc := writeDoc_eq f h.ok
  obtain ⟨doc, hd⟩ : ∃ doc, docOf f file = doc := ⟨_, rfl⟩
  rw [hd] at hdoc
  have ln : liveNodes doc = file.nodes.map fun e => writeXNode f e.2 := by
    rw [← hd]
    exact filter_live (by intro x hx; obtain ⟨e, -, rfl⟩ := List.mem_map.mp hx; rfl)
  have lw : liveWays doc = file.ways.map fun e => writeXWay e.2 := by
    rw [← hd]
    exact filter_live (by intro x hx; obtain ⟨e, -, rfl⟩ := List.mem_map.mp hx; rfl)
  have lr : liveRelations doc = file.relations.map fun e => xrel e.2 := by
    rw [← hd]
    exact filter_live (by intro x hx; obtain ⟨e, -, rfl⟩ := List.mem_map.mp hx; rfl)
  have hn : ∀ i, HasNode doc i ↔ file.nodes.has i = true := by
    intro i
    unfold HasNode
    rw [ln, AMap.has_iff_mem]
    simp only [List.mem_map]
    constructor
    · rintro ⟨x, ⟨e, he, rfl⟩, hi⟩
      exact ⟨e, he, (h.ok.nodes.key e he).symm.trans hi⟩
    · rintro ⟨e, he, hi⟩
      exact ⟨_, ⟨e, he, rfl⟩, (h.ok.nodes.key e he).trans hi⟩
  have hw : ∀ i, HasWay doc i ↔ file.ways.has i = true := by
    intro i
    unfold HasWay
    rw [lw, AMap.has_iff_mem]
    simp only [List.mem_map]
    constructor
    · rintro ⟨x, ⟨e, he, rfl⟩, hi⟩
      exact ⟨e, he, (h.ok.ways.key e he).symm.trans hi⟩
    · rintro ⟨e, he, hi⟩
      exact ⟨_, ⟨e, he, rfl⟩, (h.ok.ways.key e he).trans hi⟩
  have hr : ∀ i, HasRelation doc i ↔ file.relations.has i = true := by
    intro i
    unfold HasRelation
    rw [lr, AMap.has_iff_mem]
    simp only [List.mem_map]
    constructor
    · rintro ⟨x, ⟨e, he, rfl⟩, hi⟩
      exact ⟨e, he, (h.ok.relations.key e he).symm.trans hi⟩
    · rintro ⟨e, he, hi⟩
      exact ⟨_, ⟨e, he, rfl⟩, (h.ok.relations.key e he).trans hi⟩
  have hmem : ∀ e ∈ file.relations, ∀ x ∈ e.2.members.items, ∃ t, x.2 = some t ∧
      target (HasNode doc) (HasWay doc) (HasRelation doc) ⟨t.type, t.id, x.1⟩ = some (x.1, t) := by
    intro e he x hx
    obtain ⟨t, ht, hrel⟩ := h.ok.members e he x hx
    refine ⟨t, ht, ?_⟩
    have n1 : ¬ ("way" = "node") := by decide
    have n2 : ¬ ("relation" = "node") := by decide
    have n3 : ¬ ("relation" = "way") := by decide
    cases t with
    | node i => simp [target, Target.type, Target.id, (hn i).mpr (h.nodeMembers e he x hx i ht)]
    | way i => simp [target, Target.type, Target.id, n1, (hw i).mpr (h.wayMembers e he x hx i ht)]
    | relation i => simp [target, Target.type, Target.id, n2, n3, (hr i).mpr (hrel i rfl)]
  have hitems : ∀ e ∈ file.relations,
      ((xrel e.2).members.filterMap (target (HasNode doc) (HasWay doc) (HasRelation doc))).map (fun m => (m.1, some m.2)) =
        e.2.members.items := by
    intro e he
    have hm := hmem e he
    unfold xrel
    simp only
    generalize e.2.members.items = l at hm ⊢
    induction l with
    | nil => rfl
    | cons x l ih =>
      obtain ⟨t, ht, h1⟩ := hm x (by simp)
      have e1 : writeXMember x = some ⟨t.type, t.id, x.1⟩ := by simp [writeXMember, ht]
      rw [List.filterMap_cons, e1]
      simp only
      rw [List.filterMap_cons, h1]
      simp only [List.map_cons]
      rw [ih fun y hy => hm y (List.mem_cons_of_mem _ hy), ← ht]
  obtain ⟨file', errs, h1, g1, g2, g3, g4, -⟩ := read_spec f.zero f.num front doc
  have herr : errs = [] := by
    rw [read_no_errors f.zero f.num front doc file' errs h1]
    constructor
    · intro x hx r hr'
      rw [lw] at hx
      obtain ⟨e, he, rfl⟩ := List.mem_map.mp hx
      exact (hn r).mpr (h.refs e he r hr')
    · intro x hx m hm
      rw [lr] at hx
      obtain ⟨e, he, rfl⟩ := List.mem_map.mp hx
      obtain ⟨y, hy, h2⟩ := List.mem_filterMap.mp hm
      obtain ⟨t, ht, hrel⟩ := h.ok.members e he y hy
      simp only [writeXMember, ht, Option.map_some, Option.some.injEq] at h2
      subst h2
      have n1 : ¬ ("way" = "node") := by decide
      have n2 : ¬ ("relation" = "node") := by decide
      have n3 : ¬ ("relation" = "way") := by decide
      have n4 : ¬ ("node" = "way") := by decide
      have n5 : ¬ ("node" = "relation") := by decide
      have n6 : ¬ ("way" = "relation") := by decide
      cases t with
      | node i => simp [Target.type, Target.id, (hn i).mpr (h.nodeMembers e he y hy i ht)]
      | way i => simp [Target.type, Target.id, (hw i).mpr (h.wayMembers e he y hy i ht)]
      | relation i => simp [Target.type, Target.id, (hr i).mpr (hrel i rfl)]
  subst herr
  refine ⟨doc, file', hdoc, h1, ?_, ?_, ?_⟩
  · intro i
    rw [g1, ln, lastWith_converted (g := writeXNode f) (idf := XNode.id) h.ok.nodes.nodup fun e he => h.ok.nodes.key e he]
    cases hg : file.nodes.get i with
    | none => rfl
    | some n =>
      have hm := AMap.mem_of_get hg
      simp only [Option.map_some]
      rw [nodeOf_write f (h.ok.nodeAttrs _ hm) (h.nodeEle _ hm)]
  · intro i
    rw [g2, lw, lastWith_converted (g := writeXWay) (idf := XWay.id) h.ok.ways.nodup fun e he => h.ok.ways.key e he]
    cases hg : file.ways.get i with
    | none => rfl
    | some w =>
      have hm := AMap.mem_of_get hg
      have hall : ∀ r ∈ (writeXWay w).refs, HasNode doc r := fun r hr' => (hn r).mpr (h.refs _ hm r hr')
      simp only [Option.map_some, wayOf]
      rw [if_pos hall]
      simp only [writeXWay]
      rw [readTags_same (h.ok.wayAttrs _ hm) (h.wayEle _ hm)]
  · intro i
    cases hg : file.relations.get i with
    | none =>
      have : file'.relations.get i = none := by
        rw [g3, hr, AMap.has_eq, hg]; simp
      rw [this]
    | some rel =>
      have hm := AMap.mem_of_get hg
      cases hg' : file'.relations.get i with
      | none =>
        rw [g3, hr, AMap.has_eq, hg] at hg'
        exact absurd rfl hg'
      | some rel' =>
        obtain ⟨k1, ⟨x, k2, k3⟩, k4⟩ := g4 i rel' hg'
        have hid : rel.id = i := h.ok.relations.key _ hm
        rw [lr, find_converted (g := xrel) (idf := XRelation.id) fun e he => h.ok.relations.key e he, hg] at k2
        obtain rfl := Option.some.inj k2
        have hattr : rel'.attrs = rel.attrs := by
          rw [k3]
          exact readTags_same (h.ok.relationAttrs _ hm) (h.relationEle _ hm)
        have hms : membersOf doc i = (xrel rel).members := by
          unfold membersOf
          rw [lr, List.filter_map]
          have : (file.relations.filter ((fun x : XRelation => decide (x.id = i)) ∘ fun e => xrel e.2)) = [(i, rel)] := by
            have hnd := h.ok.relations.nodup
            have hkey := h.ok.relations.key
            generalize file.relations = l at hg hnd hkey
            induction l with
            | nil => cases hg
            | cons e l ih =>
              rw [AMap.get_cons] at hg
              have hk := hkey e (by simp)
              rw [List.filter_cons]
              by_cases hei : e.1 = i
              · rw [if_pos hei] at hg
                obtain rfl := Option.some.inj hg
                have hc : ((fun x : XRelation => decide (x.id = i)) ∘ fun e : Id × Relation => xrel e.2) e = true := by
                  simp only [Function.comp, decide_eq_true_eq]
                  exact hk.trans hei
                rw [if_pos hc]
                have : l.filter ((fun x : XRelation => decide (x.id = i)) ∘ fun e => xrel e.2) = [] := by
                  rw [List.filter_eq_nil_iff]
                  intro y hy hc
                  simp only [Function.comp, decide_eq_true_eq] at hc
                  have hy1 : y.1 = i := (hkey y (by simp [hy])).symm.trans hc
                  rw [List.map_cons, List.nodup_cons] at hnd
                  exact hnd.1 (by rw [hei, ← hy1]; exact List.mem_map.mpr ⟨y, hy, rfl⟩)
                rw [this, ← hei]
              · rw [if_neg hei] at hg
                have hc : ¬ ((fun x : XRelation => decide (x.id = i)) ∘ fun e : Id × Relation => xrel e.2) e = true := by
                  simp only [Function.comp, decide_eq_true_eq]
                  exact fun hc => hei (hk.symm.trans hc)
                rw [if_neg hc]
                exact ih hg (by rw [List.map_cons, List.nodup_cons] at hnd; exact hnd.2) fun y hy => hkey y (by simp [hy])
          rw [this]; simp
        simp only [Option.map_some, Option.some.injEq, Prod.mk.injEq]
        refine ⟨k1.trans hid.symm, hattr, ?_⟩
        rw [k4, hms]
        exact hitems _ hm

/-! ### maps -/

/-- no attribute is called `ele`; Specification. -/
structure NoEle (m : LMap P) : Prop where
  points : ∀ i p, m.points.get i = some p → p.attrs.has "ele" = false
  lines : ∀ i l, m.lines.get i = some l → l.attrs.has "ele" = false
  polys : ∀ i l, m.polys.get i = some l → l.attrs.has "ele" = false
  lanelets : ∀ i l, m.lanelets.get i = some l → l.attrs.has "ele" = false
  areas : ∀ i a, m.areas.get i = some a → a.attrs.has "ele" = false
  regs : ∀ i g, m.regs.get i = some g → g.attrs.has "ele" = false

/-- projecting a position and passing the coordinates through their text; Specification. -/
def Numbers.reverse (f : Numbers D) (reverse : P → Option (D × D × D)) (p : P) : Option (D × D × D) :=
  (reverse p).map fun g => (f.trip g.1, f.trip g.2.1, f.tripEle g.2.2)

theorem emplace_ele {a : Attrs} (h : a.has "ele" = false) {k : String} (hk : "ele" ≠ k) (v : String) :
    (a.emplace k v).has "ele" = false := by
  rw [AMap.has_eq] at h ⊢
  rw [AMap.get_emplace, if_neg hk]
  exact h

theorem written_way {reverse : P → Option (D × D × D)} {m : LMap P} {file : File D} (hw : Written reverse m file) {i : Id} {w : Way}
    (h : file.ways.get i = some w) : (∃ l, m.lines.get i = some l ∧ w = ⟨i, l.attrs, l.pts.map (·.id)⟩) ∨
      ∃ p, m.polys.get i = some p ∧ w = ⟨i, p.attrs.emplace "area" "true", p.pts.map (·.id)⟩ := by
  cases hl : m.lines.get i with
  | some l => rw [hw.lines i l hl] at h; exact .inl ⟨l, rfl, (Option.some.inj h).symm⟩
  | none =>
    cases hp : m.polys.get i with
    | some p => rw [hw.polys i p hp] at h; exact .inr ⟨p, rfl, (Option.some.inj h).symm⟩
    | none => rw [hw.noWay i hl hp] at h; cases h

/-- what is written for a self-contained map can be read again -/
theorem written_docOk {reverse : P → Option (D × D × D)} {m : LMap P} {file : File D} (hs : SelfContained m) (he : NoEle m)
    (hp : ∀ i p, m.points.get i = some p → ∃ g, reverse p.pos = some g) (hw : Written reverse m file) : DocOk file := by
  have hnode : ∀ i, m.points.has i = true → file.nodes.has i = true := by
    intro i hi
    obtain ⟨p, h1⟩ := has_get.mp hi
    obtain ⟨g, h2⟩ := hp i p h1
    rw [AMap.has_eq, hw.nodes, h1, Option.bind_some, nodeOfPoint, h2]; rfl
  have hline : ∀ i, m.lines.has i = true → file.ways.has i = true := by
    intro i hi
    obtain ⟨p, h1⟩ := has_get.mp hi
    rw [AMap.has_eq, hw.lines i p h1]; rfl
  have hpoly : ∀ i, m.polys.has i = true → file.ways.has i = true := by
    intro i hi
    obtain ⟨p, h1⟩ := has_get.mp hi
    rw [AMap.has_eq, hw.polys i p h1]; rfl
  have hget : ∀ e ∈ file.relations, file.relations.get e.1 = some e.2 := fun e he' => AMap.get_of_mem hw.ok.relations.nodup he'
  -- members of relations
  have hmem : ∀ e ∈ file.relations, ∀ x ∈ e.2.members.items, (∀ i, x.2 = some (.node i) → file.nodes.has i = true) ∧
      ∀ i, x.2 = some (.way i) → file.ways.has i = true := by
    intro e he' x hx
    have hg := hget e he'
    rcases trip_relation hw hg with ⟨l, hl⟩ | ⟨a, ha⟩ | ⟨g, hr⟩
    · obtain ⟨b, h1⟩ := hw.lanelets _ l hl
      rw [hg] at h1
      rw [Option.some.inj h1] at hx
      obtain ⟨y, hy, rfl⟩ := List.mem_map.mp hx
      have hin := (hs.lanelets _ l hl).1
      simp only [List.cons_append, List.mem_cons, List.mem_append, List.mem_map] at hy
      rcases hy with rfl | rfl | ⟨c, hc, rfl⟩ | ⟨c, hc, rfl⟩
      · exact ⟨by simp, fun i hi => by
          simp only [Option.some.injEq, Target.way.injEq] at hi; subst hi; exact hline _ (hin l.left (by simp)).2⟩
      · exact ⟨by simp, fun i hi => by
          simp only [Option.some.injEq, Target.way.injEq] at hi; subst hi; exact hline _ (hin l.right (by simp)).2⟩
      · exact ⟨by simp, fun i hi => by
          simp only [Option.some.injEq, Target.way.injEq] at hi; subst hi
          exact hline _ (hin c (List.mem_cons_of_mem _ (List.mem_cons_of_mem _ hc))).2⟩
      · exact ⟨by simp, by simp⟩
    · obtain ⟨b, h1⟩ := hw.areas _ a ha
      rw [hg] at h1
      rw [Option.some.inj h1] at hx
      obtain ⟨y, hy, rfl⟩ := List.mem_map.mp hx
      have hin := (hs.areas _ a ha).1
      simp only [List.mem_append, List.mem_map] at hy
      rcases hy with (⟨c, hc, rfl⟩ | ⟨c, hc, rfl⟩) | ⟨c, hc, rfl⟩
      · exact ⟨by simp, fun i hi => by
          simp only [Option.some.injEq, Target.way.injEq] at hi; subst hi; exact hline _ (hin c (List.mem_append_left _ hc)).2⟩
      · exact ⟨by simp, fun i hi => by
          simp only [Option.some.injEq, Target.way.injEq] at hi; subst hi; exact hline _ (hin c (List.mem_append_right _ hc)).2⟩
      · exact ⟨by simp, by simp⟩
    · obtain ⟨b, h1⟩ := hw.regs _ g hr
      rw [hg] at h1
      rw [Option.some.inj h1] at hx
      obtain ⟨y, hy, rfl⟩ := List.mem_map.mp hx
      obtain ⟨q, hq, hy⟩ := List.mem_flatMap.mp hy
      obtain ⟨pr, hpr, rfl⟩ := List.mem_map.mp hy
      have hin := hs.regs _ g hr pr (List.mem_flatMap.mpr ⟨q, hq, hpr⟩)
      cases pr with
      | point r => exact ⟨fun i hi => by
          simp only [targetOf, Option.some.injEq, Target.node.injEq] at hi; subst hi; exact hnode _ hin.2, by simp [targetOf]⟩
      | line r => exact ⟨by simp [targetOf], fun i hi => by
          simp only [targetOf, Option.some.injEq, Target.way.injEq] at hi; subst hi; exact hline _ hin.2⟩
      | poly r => exact ⟨by simp [targetOf], fun i hi => by
          simp only [targetOf, Option.some.injEq, Target.way.injEq] at hi; subst hi; exact hpoly _ hin.2⟩
      | lanelet r => exact ⟨by simp [targetOf], by simp [targetOf]⟩
      | area r => exact ⟨by simp [targetOf], by simp [targetOf]⟩
      | expired => exact absurd hin id
  refine ⟨hw.ok, ?_, fun e he' x hx => (hmem e he' x hx).1, fun e he' x hx => (hmem e he' x hx).2, ?_, ?_, ?_⟩
  · intro e he' n hn
    have hg := AMap.get_of_mem hw.ok.ways.nodup he'
    rcases written_way hw hg with ⟨l, h1, h2⟩ | ⟨l, h1, h2⟩
    · rw [h2] at hn
      obtain ⟨r, hr, rfl⟩ := List.mem_map.mp hn
      exact hnode _ (hs.lines _ l h1 r hr).2
    · rw [h2] at hn
      obtain ⟨r, hr, rfl⟩ := List.mem_map.mp hn
      exact hnode _ (hs.polys _ l h1 r hr).2
  · intro e he'
    have hg := AMap.get_of_mem hw.ok.nodes.nodup he'
    rw [hw.nodes] at hg
    obtain ⟨p, h1, h2⟩ := Option.bind_eq_some_iff.mp hg
    obtain ⟨g, -, h3⟩ := Option.map_eq_some_iff.mp h2
    rw [← h3]
    exact he.points _ p h1
  · intro e he'
    have hg := AMap.get_of_mem hw.ok.ways.nodup he'
    rcases written_way hw hg with ⟨l, h1, h2⟩ | ⟨l, h1, h2⟩
    · rw [h2]; exact he.lines _ l h1
    · rw [h2]; exact emplace_ele (he.polys _ l h1) (by decide) _
  · intro e he'
    have hg := hget e he'
    rcases trip_relation hw hg with ⟨l, hl⟩ | ⟨a, ha⟩ | ⟨g, hr⟩
    · obtain ⟨b, h1⟩ := hw.lanelets _ l hl
      rw [hg] at h1
      rw [Option.some.inj h1]
      exact emplace_ele (he.lanelets _ l hl) (by decide) _
    · obtain ⟨b, h1⟩ := hw.areas _ a ha
      rw [hg] at h1
      rw [Option.some.inj h1]
      exact emplace_ele (he.areas _ a ha) (by decide) _
    · obtain ⟨b, h1⟩ := hw.regs _ g hr
      rw [hg] at h1
      rw [Option.some.inj h1]
      exact emplace_ele (he.regs _ g hr) (by decide) _

/-- the file that has been read is the one that would have been written with the coordinates from the text -/
theorem written_trip {reverse : P → Option (D × D × D)} {m : LMap P} {file file' : File D} (f : Numbers D)
    (hw : Written reverse m file) (hok : FileOk file') (hsame : SameFile f file file') : Written (f.reverse reverse) m file' := by
  have hrel : ∀ {i : Id} {attrs : Attrs} {items : List (String × Option Target)},
      (∃ b, file.relations.get i = some ⟨i, attrs, ⟨b, items⟩⟩) → ∃ b, file'.relations.get i = some ⟨i, attrs, ⟨b, items⟩⟩ := by
    rintro i attrs items ⟨b, hb⟩
    have h1 := hsame.relations i
    rw [hb] at h1
    obtain ⟨⟨id', attrs', b', items'⟩, h2, h3⟩ := Option.map_eq_some_iff.mp h1
    simp only [Prod.mk.injEq] at h3
    obtain ⟨rfl, rfl, rfl⟩ := h3
    exact ⟨b', h2⟩
  refine ⟨hok, ?_, ?_, ?_, ?_, fun i g hg => hrel (hw.regs i g hg), fun i l hl => hrel (hw.lanelets i l hl),
    fun i a ha => hrel (hw.areas i a ha), ?_⟩
  · intro i
    rw [hsame.nodes, hw.nodes]
    cases m.points.get i with
    | none => rfl
    | some p =>
      simp only [Option.bind_some, nodeOfPoint, Numbers.reverse]
      cases reverse p.pos <;> rfl
  · intro i l hl
    rw [hsame.ways]; exact hw.lines i l hl
  · intro i l hl
    rw [hsame.ways]; exact hw.polys i l hl
  · intro i h1 h2
    rw [hsame.ways]; exact hw.noWay i h1 h2
  · intro i hi
    have h1 := hsame.relations i
    rw [hw.noRelation i hi] at h1
    simpa using h1

/-- C54: writing a map to an OSM document and loading that gives the same map, without errors. Only positions change: `rt` is what
projecting back and forth and the text of the coordinates do. -/
theorem text_round_trip {env : Env P D} {reverse : P → Option (D × D × D)} {rt : P → P} (f : Numbers D)
    (front front' : Nat → Nat → Bool) {m : LMap P} (hok : MapOk m) (hd : Distinct m) (hs : SelfContained m) (he : NoEle m)
    (hr : Representable env (f.reverse reverse) rt m) :
    ∃ file doc r, writeMap reverse front m = some (file, []) ∧ writeDoc f file = some doc ∧
      parse f.zero f.num front' env doc = some r ∧ r.readErrors = [] ∧ r.loadErrors = [] ∧ SameMap rt m r.map := by
  have hp : ∀ i p, m.points.get i = some p → ∃ g, reverse p.pos = some g := by
    intro i p h1
    obtain ⟨g, h2, -⟩ := hr.project i p h1
    obtain ⟨g', h3, -⟩ := Option.map_eq_some_iff.mp h2
    exact ⟨g', h3⟩
  obtain ⟨file, h1, hw⟩ := write_written reverse front hok hd hs hp
  obtain ⟨doc, file', h2, h3, h4⟩ := read_writeDoc f front' (written_docOk hs he hp hw)
  have hw' := written_trip f hw (read_fileOk _ _ _ _ h3) h4
  obtain ⟨m', h5, h6⟩ := load_written hok hd hs hr hw'
  exact ⟨file, doc, ⟨m', [], [], registrations file' m'⟩, h1, h2, by simp [parse, h3, h5], rfl, rfl, h6⟩

/-! ### examples -/

/-- integers as text; Example. -/
def intNumbers : Numbers Int where
  coord d := if d < 0 then "n" ++ String.ofList (List.replicate d.natAbs 'x') else String.ofList (List.replicate d.natAbs 'x')
  ele d := if d < 0 then "n" ++ String.ofList (List.replicate d.natAbs 'x') else String.ofList (List.replicate d.natAbs 'x')
  isZero d := d = 0
  zero := 0
  num s := match s.toList with
    | 'n' :: l => -l.length
    | l => l.length

example : DocOk exFile := by
  refine ⟨⟨⟨by decide, by decide⟩, ⟨by decide, by decide⟩, ⟨by decide, by decide⟩, ?_, ?_, ?_, ?_⟩, by decide, ?_, ?_, by decide,
    by decide, by decide⟩
  · simp only [Attrs.Ok]; decide
  · simp only [Attrs.Ok]; decide
  · simp only [Attrs.Ok]; decide
  · intro e he x hx
    simp only [exFile, List.mem_cons, List.not_mem_nil, or_false] at he
    rcases he with rfl | rfl <;> simp only [List.mem_cons, List.not_mem_nil, or_false] at hx <;>
      rcases hx with rfl | rfl | rfl <;> refine ⟨_, rfl, ?_⟩ <;> intro i hi <;> cases hi <;> decide
  · intro e he x hx i hi
    simp only [exFile, List.mem_cons, List.not_mem_nil, or_false] at he
    rcases he with rfl | rfl <;> simp only [List.mem_cons, List.not_mem_nil, or_false] at hx <;>
      rcases hx with rfl | rfl | rfl <;> cases hi
  · intro e he x hx i hi
    simp only [exFile, List.mem_cons, List.not_mem_nil, or_false] at he
    rcases he with rfl | rfl <;> simp only [List.mem_cons, List.not_mem_nil, or_false] at hx <;>
      rcases hx with rfl | rfl | rfl <;> cases hi <;> decide

theorem intNumbers_reverse : intNumbers.reverse tripReverse = tripReverse := by
  have htrip : ∀ d : Int, intNumbers.trip d = d := by
    intro d
    unfold Numbers.trip
    simp only [intNumbers]
    by_cases hd : d < 0
    · simp [hd]; omega
    · have : d.natAbs = d := by omega
      cases hn : d.natAbs with
      | zero => simp [hd]; omega
      | succ n => simp [hd, List.replicate_succ]; omega
  funext p
  have h0 : intNumbers.tripEle 0 = 0 := rfl
  simp [Numbers.reverse, tripReverse, htrip, h0]

/-- the map of the round trip of files -/
example : ∃ file doc r, writeMap tripReverse (fun _ _ => true) tripMap = some (file, []) ∧ writeDoc intNumbers file = some doc ∧
    parse 0 intNumbers.num (fun _ _ => false) tripEnv doc = some r ∧ r.readErrors = [] ∧ r.loadErrors = [] ∧
    SameMap id tripMap r.map := by
  have hrep : Representable tripEnv (intNumbers.reverse tripReverse) id tripMap := by rw [intNumbers_reverse]; exact tripMap_representable
  refine text_round_trip intNumbers _ _ tripMap_ok tripMap_distinct tripMap_contained ?_ hrep
  constructor <;> exact get_keys (by decide)

/-- Disagreement with C54 if an attribute is called `ele`: it is taken for the height of a point, and lost for other primitives. -/
theorem ele_attribute_counterexample : ∃ doc,
    writeDoc intNumbers ⟨[(1, ⟨1, [("ele", "xxxxx")], 0, 0, 0⟩)], [(2, ⟨2, [("ele", "7")], [1]⟩)], []⟩ = some doc ∧
    read 0 intNumbers.num (fun _ _ => true) doc = some (⟨[(1, ⟨1, [], 0, 0, 5⟩)], [(2, ⟨2, [], [1]⟩)], []⟩, []) := by
  refine ⟨_, rfl, ?_⟩
  have h : ∀ (nodes : AMap Id (Node Int)) ways, readRelations (fun _ _ => true) nodes ways [] = some ([], []) := by
    intro nodes ways
    unfold readRelations
    have h2 : resolveAll true (fun _ _ => true) [] [] [] = some ([], []) := by rw [resolveAll]
    simp only [List.foldl_nil, h2]
    rfl
  unfold read
  simp only [List.reverse_nil]
  rw [h]
  rfl

end Verif.Osm
