import Verif.Osm.LoadLemmas
import Verif.Osm.ReadProps

/-!
C35: loading maps from OSM files.
-/
namespace Verif.Osm
open scoped List
variable {P D : Type}

/-! ### specification -/

/-- a reference to an element of the layer -/
def InLayer {V : Type} (layer : AMap Id V) (r : Ref) : Prop := r.dummy = false ∧ layer.has r.id = true

/-- Specification: what a parameter refers to is in the map. -/
def ParamIn (m : LMap P) : Param → Prop
  | .point r => InLayer m.points r
  | .line r => InLayer m.lines r
  | .poly r => InLayer m.polys r
  | .lanelet r => InLayer m.lanelets r
  | .area r => InLayer m.areas r
  | .expired => False

/-- everything that is referenced is in the map -/
structure SelfContained (m : LMap P) : Prop where
  lines : ∀ i l, m.lines.get i = some l → ∀ r ∈ l.pts, InLayer m.points r
  polys : ∀ i l, m.polys.get i = some l → ∀ r ∈ l.pts, InLayer m.points r
  lanelets : ∀ i l, m.lanelets.get i = some l →
    (∀ r ∈ l.left :: l.right :: l.center.toList, InLayer m.lines r) ∧ ∀ r ∈ l.regs, InLayer m.regs r
  areas : ∀ i a, m.areas.get i = some a → (∀ r ∈ a.outer ++ a.inner.flatten, InLayer m.lines r) ∧ ∀ r ∈ a.regs, InLayer m.regs r
  regs : ∀ i g, m.regs.get i = some g → ∀ p ∈ paramsOf g, ParamIn m p

/-- constructors of regulatory elements keep the id and add no parameters -/
def RegistryOk (env : Env P D) : Prop :=
  ∀ name d g, env.registry name d = some g → g.id = d.id ∧ ∀ p ∈ paramsOf g, p ∈ paramsOf d

/-- a reference to a linestring of the map, with the ids of its points -/
def refLine (lines : AMap Id MLine) (r : Ref) : Line := ⟨r.id, ((lines.get r.id).map fun l => l.pts.map (·.id)).getD [], r.inv⟩

/-- rings that use each of the given linestrings at most once; exactly once, if they can be partitioned into rings at all -/
structure RingsFrom (env : Env P D) (m : LMap P) (rings : List (List Ref)) (ids : List Id) : Prop where
  ring : ∀ r ∈ rings, IsRing (r.map (refLine m.lines)) ∧ ringValid env m.points (r.map (refLine m.lines)) = true
  once : ∃ unused, rings.flatten.map (·.id) ++ unused ~ ids
  all : EvenEnds (ids.map fun i => refLine m.lines { id := i }) → rings.flatten.map (·.id) ~ ids

/-- the parameter a member of a regulatory element becomes -/
def paramFor (file : File D) (m : LMap P) : Target → Param
  | .node i => .point { id := i }
  | .way i => if m.polys.has i then .poly { id := i } else .line { id := i }
  | .relation i => if (file.relations.get i).any fun r => r.attrs.get "type" = some "lanelet" then .lanelet { id := i }
    else .area { id := i }

/-- the positions of a linestring of the map -/
def linePositions (env : Env P D) (m : LMap P) (i : Id) : List P :=
  ((m.lines.get i).map fun l => l.pts.map fun p => posOf env m.points p.id).getD []

/-- the directions of the bounds `l` and `r`: the left one is inverted if the right one would not be right of it, then the right
one if the left one would not be left of it -/
def Oriented (env : Env P D) (l r : List P) (a b : Bool) : Prop :=
  if (l.length ≤ 1 ∧ r.length ≤ 1) ∨ l = [] ∨ r = [] then a = false ∧ b = false
  else (a = true ↔ 1 < l.length ∧ env.rightOf l r = false) ∧
    (b = true ↔ 1 < r.length ∧ env.leftOf r (if a then l.reverse else l) = false)

/-- the map has everything that is in the file -/
structure Complete (env : Env P D) (file : File D) (m : LMap P) : Prop where
  nodes : ∀ i n, file.nodes.get i = some n → ∃ p, env.forward n.lat n.lon n.ele = some p ∧ m.points.get i = some ⟨i, n.attrs, p⟩
  ways : ∀ i w, file.ways.get i = some w → w.nodes ≠ [] ∧
    if (w.attrs.get "area").bind env.asBool = some true then m.polys.get i = some ⟨i, w.attrs, w.nodes.map fun n => { id := n }⟩
    else m.lines.get i = some ⟨i, w.attrs, w.nodes.map fun n => { id := n }, false⟩
  lanelets : ∀ i r, file.relations.get i = some r → r.attrs.get "type" = some "lanelet" → ∃ (left right : Id) (center : Option Id) (a b : Bool),
    roleMembers "left" r = [.way left] ∧ roleMembers "right" r = [.way right] ∧
    roleMembers "centerline" r = center.toList.map .way ∧
    Oriented env (linePositions env m left) (linePositions env m right) a b ∧
    m.lanelets.get i = some ⟨i, r.attrs, { id := left, inv := a }, { id := right, inv := b }, center.map fun c => { id := c },
      (roleMembers "regulatory_element" r).map fun t => { id := t.id }⟩
  areas : ∀ i r, file.relations.get i = some r → r.attrs.get "type" = some "multipolygon" → ∃ outerIds innerIds outer inner,
    roleMembers "outer" r = outerIds.map .way ∧ roleMembers "inner" r = innerIds.map .way ∧
    RingsFrom env m [outer] outerIds ∧ RingsFrom env m inner innerIds ∧
    m.areas.get i = some ⟨i, r.attrs, outer, inner, (roleMembers "regulatory_element" r).map fun t => { id := t.id }⟩
  regs : ∀ i r, file.relations.get i = some r → r.attrs.get "type" = some "regulatory_element" → ∃ subtype rule params g,
    r.attrs.get "subtype" = some subtype ∧ rule = (if subtype = "" then "regulatory_element" else subtype) ∧
    (∀ role, params.get role = nonEmpty ((roleMembers role r).map (paramFor file m))) ∧
    env.registry rule ⟨i, r.attrs.set "subtype" rule, params⟩ = some g ∧ m.regs.get i = some g

/-- the map has nothing that is not in the file -/
structure Sound (file : File D) (m : LMap P) : Prop where
  points : ∀ i, m.points.has i = true → file.nodes.has i = true
  ways : ∀ i, m.lines.has i = true ∨ m.polys.has i = true → file.ways.has i = true
  lanelets : ∀ i, m.lanelets.has i = true → ∃ r, file.relations.get i = some r ∧ r.attrs.get "type" = some "lanelet"
  areas : ∀ i, m.areas.has i = true → ∃ r, file.relations.get i = some r ∧ r.attrs.get "type" = some "multipolygon"
  regs : ∀ i, m.regs.has i = true → ∃ r, file.relations.get i = some r ∧ r.attrs.get "type" = some "regulatory_element"

/-! ### proofs -/

theorem getOrDummy_nil {V : Type} {layer : AMap Id V} {i c : Id} (h : (getOrDummy layer i c).2 = []) :
    layer.has i = true ∧ (getOrDummy layer i c).1 = { id := i } := by
  unfold getOrDummy at h ⊢
  split at h
  · rename_i hh
    exact ⟨hh, by rw [if_pos hh]⟩
  · cases h

theorem borderOf_nil {lines : AMap Id MLine} {r : Relation} {role : String} (h : (borderOf lines r role).2 = []) :
    ∃ i, roleMembers role r = [.way i] ∧ lines.has i = true ∧ (borderOf lines r role).1 = { id := i } := by
  unfold borderOf at h ⊢
  split at h
  · rename_i i hi
    obtain ⟨h1, h2⟩ := getOrDummy_nil h
    exact ⟨i, hi, h1, h2⟩
  · cases h
  · cases h

theorem centerOf_nil {lines : AMap Id MLine} {r : Relation} (h : (centerOf lines r).2 = []) :
    ∃ c : Option Id, roleMembers "centerline" r = c.toList.map .way ∧ (∀ i, c = some i → lines.has i = true) ∧
      (centerOf lines r).1 = c.map fun c => { id := c } := by
  unfold centerOf at h ⊢
  split at h
  · rename_i he
    refine ⟨none, by simpa using he, by simp, by rw [if_pos he]; rfl⟩
  · rename_i he
    obtain ⟨i, h1, h2, h3⟩ := borderOf_nil h
    refine ⟨some i, by simpa using h1, ?_, by rw [if_neg he, h3]; rfl⟩
    intro j hj
    rw [← Option.some.inj hj]
    exact h2

theorem ite_invert (c : Prop) [Decidable c] (r : Ref) : ∃ a, (if c then r.invert else r) = { r with inv := a } := by
  by_cases h : c
  · exact ⟨!r.inv, by rw [if_pos h]; rfl⟩
  · exact ⟨r.inv, by rw [if_neg h]⟩

theorem align_same (env : Env P D) (points : AMap Id (MPoint P)) (lines : AMap Id MLine) (l r : Ref) :
    ∃ a b, align env points lines l r = ({ l with inv := a }, { r with inv := b }) := by
  unfold align
  simp only
  split
  · exact ⟨l.inv, r.inv, rfl⟩
  · obtain ⟨a, ha⟩ := ite_invert (env.rightOf (positions env points lines l) (positions env points lines r) = false ∧
      (positions env points lines l).length > 1) l
    rw [ha]
    obtain ⟨b, hb⟩ := ite_invert (env.leftOf (positions env points lines r) (positions env points lines { l with inv := a }) = false ∧
      (positions env points lines r).length > 1) r
    rw [hb]
    exact ⟨a, b, rfl⟩

theorem positions_eq (env : Env P D) (m : LMap P) (i : Id) (a : Bool) :
    positions env m.points m.lines { id := i, inv := a } = if a then (linePositions env m i).reverse else linePositions env m i := by
  unfold positions linePositions
  cases m.lines.get i <;> cases a <;> rfl

theorem align_oriented {env : Env P D} {m : LMap P} {l r : Id} {a b : Bool}
    (h : align env m.points m.lines { id := l } { id := r } = ({ id := l, inv := a }, { id := r, inv := b })) :
    Oriented env (linePositions env m l) (linePositions env m r) a b := by
  unfold align at h
  have e1 : positions env m.points m.lines { id := l } = linePositions env m l := positions_eq env m l false
  have e2 : positions env m.points m.lines { id := r } = linePositions env m r := positions_eq env m r false
  simp only [e1, e2] at h
  unfold Oriented
  split at h
  · rename_i hc
    rw [if_pos (by tauto)]
    simp only [Prod.mk.injEq, Ref.mk.injEq, true_and, and_true] at h
    exact ⟨h.1.symm, h.2.symm⟩
  · rename_i hc
    rw [if_neg (by tauto)]
    obtain ⟨h1, h2⟩ := Prod.mk.inj h
    rw [h1, positions_eq] at h2
    generalize (if a then (linePositions env m l).reverse else linePositions env m l) = q at h2 ⊢
    constructor
    · split at h1 <;> rename_i hl <;> simp only [Ref.invert, Ref.mk.injEq, true_and, and_true] at h1 <;> subst h1
      · exact ⟨fun _ => ⟨hl.2, hl.1⟩, fun _ => rfl⟩
      · exact ⟨fun h => (by cases h), fun h => absurd ⟨h.2, h.1⟩ hl⟩
    · split at h2 <;> rename_i hl <;> simp only [Ref.invert, Ref.mk.injEq, true_and, and_true] at h2 <;> subst h2
      · exact ⟨fun _ => ⟨hl.2, hl.1⟩, fun _ => rfl⟩
      · exact ⟨fun h => (by cases h), fun h => absurd ⟨h.2, h.1⟩ hl⟩

theorem lineErrors_nil {lines : AMap Id MLine} {r : Relation} {role : String} (h : roleLineErrors lines r role = []) :
    ∃ ids : List Id, roleMembers role r = ids.map .way ∧ (∀ i ∈ ids, lines.has i = true) ∧
      (roleLines lines r role) = ids.filterMap lines.get := by
  unfold roleLineErrors at h
  unfold roleLines
  generalize roleMembers role r = ts at h
  induction ts with
  | nil => exact ⟨[], rfl, by simp, rfl⟩
  | cons t ts ih =>
    rw [List.flatMap_cons, List.append_eq_nil_iff] at h
    obtain ⟨ids, h1, h2, h3⟩ := ih h.2
    cases t with
    | node i => exact absurd h.1 (by simp [lineError])
    | relation i => exact absurd h.1 (by simp [lineError])
    | way i =>
      have hi : lines.has i = true := by
        have := h.1
        unfold lineError at this
        simp only at this
        by_contra hc
        rw [if_neg hc] at this
        cases this
      refine ⟨i :: ids, by rw [h1]; rfl, ?_, ?_⟩
      · intro j hj
        rcases List.mem_cons.mp hj with rfl | hj
        · exact hi
        · exact h2 j hj
      · rw [List.filterMap_cons, List.filterMap_cons, h3]

theorem refLine_of {lines : AMap Id MLine} {ids : List Id} (hl : Layer (·.id) lines) {l : Line}
    (h : base l ∈ ((ids.filterMap lines.get).map MLine.toLine).map base) :
    refLine lines l.toRef = l ∧ lines.has l.id = true := by
  rw [List.map_map] at h
  obtain ⟨x, hx, hb⟩ := List.mem_map.mp h
  obtain ⟨i, _, hi⟩ := List.mem_filterMap.mp hx
  have hk : x.id = i := hl.key _ (AMap.mem_of_get hi)
  obtain ⟨id, pts, inv⟩ := l
  simp only [Function.comp, base, MLine.toLine, Prod.mk.injEq] at hb
  obtain ⟨rfl, rfl⟩ := hb
  rw [hk]
  refine ⟨?_, by rw [AMap.has_eq, hi]; rfl⟩
  simp [refLine, Line.toRef, hi]

/-- the rings of linestrings of the map -/
theorem ringsOf_spec (env : Env P D) {m : LMap P} (hl : Layer (·.id) m.lines) (hp : ∀ e ∈ m.lines, e.2.pts ≠ [])
    (hinv : ∀ e ∈ m.lines, e.2.inv = false) {ids : List Id}
    (hids : ∀ i ∈ ids, m.lines.has i = true) (hne : (ringsOf env m.points (ids.filterMap m.lines.get)).2 = []) :
    RingsFrom env m ((ringsOf env m.points (ids.filterMap m.lines.get)).1.map fun x => x.map Line.toRef) ids ∧
    (∀ ring ∈ (ringsOf env m.points (ids.filterMap m.lines.get)).1, ring ≠ [] ∧
      ∀ l ∈ ring, InLayer m.lines l.toRef) := by
  have hpts : ∀ l ∈ (ids.filterMap m.lines.get).map MLine.toLine, l.pts ≠ [] := by
    intro l hl
    obtain ⟨x, hx, rfl⟩ := List.mem_map.mp hl
    obtain ⟨i, _, hi⟩ := List.mem_filterMap.mp hx
    have := hp _ (AMap.mem_of_get hi)
    simpa [MLine.toLine] using this
  have hidmap : (((ids.filterMap m.lines.get).map MLine.toLine).map base).map (·.1) = ids := by
    clear hne hpts
    induction ids with
    | nil => rfl
    | cons i ids ih =>
      have hi := hids i (List.mem_cons_self ..)
      rw [AMap.has_eq] at hi
      obtain ⟨x, hx⟩ := Option.isSome_iff_exists.mp hi
      have hk : x.id = i := hl.key _ (AMap.mem_of_get hx)
      have := ih fun j hj => hids j (List.mem_cons_of_mem _ hj)
      simp only [List.filterMap_cons, hx, List.map_cons, this]
      simp [base, MLine.toLine, hk]
  have hlines : (ids.filterMap m.lines.get).map MLine.toLine = ids.map fun i => refLine m.lines { id := i } := by
    clear hne hpts hidmap
    induction ids with
    | nil => rfl
    | cons i ids ih =>
      have hi := hids i (List.mem_cons_self ..)
      rw [AMap.has_eq] at hi
      obtain ⟨x, hx⟩ := Option.isSome_iff_exists.mp hi
      have hk : x.id = i := hl.key _ (AMap.mem_of_get hx)
      have hv : x.inv = false := hinv _ (AMap.mem_of_get hx)
      have := ih fun j hj => hids j (List.mem_cons_of_mem _ hj)
      simp only [List.filterMap_cons, hx, List.map_cons, this]
      simp [MLine.toLine, refLine, hk, hx, hv]
  obtain ⟨rings, errs, unused, h1, h2, h3, h4⟩ :=
    assembleBoundary_spec_partial (ringValid env m.points) _ hpts
  have hr : ringsOf env m.points (ids.filterMap m.lines.get) = (rings, errs) := by
    unfold ringsOf; rw [h1]; rfl
  rw [hr] at hne ⊢
  simp only at hne ⊢
  subst hne
  have hmem : ∀ ring ∈ rings, ∀ l ∈ ring, refLine m.lines l.toRef = l ∧ m.lines.has l.id = true := by
    intro ring hring l hl'
    apply refLine_of hl (ids := ids)
    apply h3.subset
    exact List.mem_append_left _ (List.mem_map_of_mem (List.mem_flatten.mpr ⟨ring, hring, hl'⟩))
  have hring : ∀ ring ∈ rings, (ring.map Line.toRef).map (refLine m.lines) = ring := by
    intro ring hr
    rw [List.map_map]
    conv => rhs; rw [← List.map_id ring]
    exact List.map_congr_left fun l hl' => (hmem ring hr l hl').1
  have hflat : ((rings.map fun x => x.map Line.toRef).flatten.map (·.id)) = (rings.flatten.map base).map (·.1) := by
    rw [← List.map_flatten, List.map_map, List.map_map]; rfl
  refine ⟨⟨?_, ?_, ?_⟩, ?_⟩
  · intro r hr
    obtain ⟨ring, hrg, rfl⟩ := List.mem_map.mp hr
    rw [hring ring hrg]
    exact h2 ring hrg
  · refine ⟨(unused.map base).map (·.1), ?_⟩
    rw [hflat, ← List.map_append]
    have := h3.map (·.1)
    rw [hidmap] at this
    exact this
  · intro hev
    rw [← hlines] at hev
    obtain ⟨rings', errs', g1, -, -, g4⟩ := assembleBoundary_complete (ringValid env m.points) _ hpts hev
    rw [h1] at g1
    obtain ⟨rfl, rfl⟩ := Prod.mk.inj (Option.some.inj g1)
    have := (g4 rfl).map (·.1)
    rw [hidmap] at this
    rw [hflat]
    exact this
  · intro ring hrg
    refine ⟨?_, fun l hl' => ⟨rfl, (hmem ring hrg l hl').2⟩⟩
    rintro rfl
    obtain ⟨-, f, l, p, hf, -⟩ := (h2 [] hrg).1
    simp at hf

/-! ### files from documents -/

theorem resolveOne_keys {shift : Bool} {front : Nat → Nat → Bool} {relations : AMap Id Relation} {u : Unresolved}
    {todo : List Unresolved} {r : AMap Id Relation × List Unresolved × Bool}
    (h : resolveOne shift front relations u todo = some r) :
    r.1.map (·.1) = relations.map (·.1) ∧ r.2.1.length = todo.length := by
  unfold resolveOne at h
  cases h1 : relations.get u.relation with
  | none => rw [h1] at h; cases h
  | some relation =>
  cases h2 : relation.members.index u.addr with
  | none => rw [h1, Option.bind_eq_bind, Option.bind_some, h2] at h; cases h
  | some k =>
  cases h3 : relation.members.items[k]? with
  | none => rw [h1, Option.bind_eq_bind, Option.bind_some, h2, Option.bind_eq_bind, Option.bind_some, h3] at h; cases h
  | some item =>
  rw [h1, Option.bind_eq_bind, Option.bind_some, h2, Option.bind_eq_bind, Option.bind_some, h3, Option.bind_eq_bind,
    Option.bind_some] at h
  split at h
  · cases h
  split at h
  · obtain rfl := Option.some.inj h
    exact ⟨by simp only; exact AMap.keys_modify .., rfl⟩
  cases h4 : removeAndFix shift front u.addr relation.members with
  | none => rw [h4] at h; cases h
  | some x =>
  rw [h4, Option.bind_eq_bind, Option.bind_some] at h
  obtain rfl := Option.some.inj h
  exact ⟨by simp only; exact AMap.keys_modify .., by simp⟩

theorem resolveAll_keys {shift : Bool} {front : Nat → Nat → Bool} : ∀ (n : Nat) {relations : AMap Id Relation}
    {todo : List Unresolved} {errs : List (Id × Id)} {r : AMap Id Relation × List (Id × Id)}, todo.length = n →
    resolveAll shift front relations todo errs = some r → r.1.map (·.1) = relations.map (·.1) := by
  intro n
  induction n with
  | zero =>
    intro relations todo errs r hn h
    obtain rfl := List.length_eq_zero_iff.mp hn
    rw [resolveAll] at h
    obtain rfl := Option.some.inj h
    rfl
  | succ n ih =>
    intro relations todo errs r hn h
    cases todo with
    | nil => cases hn
    | cons u todo =>
      rw [resolveAll] at h
      simp only [bind, Option.bind] at h
      split at h
      · cases h
      rename_i x hx
      obtain ⟨k1, k2⟩ := resolveOne_keys hx
      rw [ih (by simpa [k2] using hn) h, k1]

theorem foldl_keeps {α β : Type} {p : β → Prop} {f : β → α → β} (hf : ∀ b a, p b → p (f b a)) : ∀ (l : List α) (b : β), p b →
    p (l.foldl f b)
  | [], _, h => h
  | a :: l, b, h => foldl_keeps hf l (f b a) (hf b a h)

theorem readTags_nodup (tags : List (String × String)) : (readTags tags).Ok := by
  unfold readTags Attrs.Ok
  refine foldl_keeps (p := fun (a : Attrs) => (List.map (fun e : String × String => e.1) a).Nodup) (fun a t h => ?_) _ _ List.nodup_nil
  split
  · exact h
  · exact AMap.nodup_set _ _ _ h

/-- a file that was read from a document has valid pointers -/
theorem read_fileOk (zero : D) (num : String → D) (front : Nat → Nat → Bool) (doc : Doc) {file : File D} {errs : List ReadError}
    (h : read zero num front doc = some (file, errs)) : FileOk file := by
  obtain ⟨file', errs', h', hn, hw, hx, hr, -⟩ := read_spec zero num front doc
  rw [h] at h'
  obtain ⟨rfl, rfl⟩ := Prod.mk.inj (Option.some.inj h')
  have hdup : (file.nodes.map (·.1)).Nodup ∧ (file.ways.map (·.1)).Nodup ∧ (file.relations.map (·.1)).Nodup := by
    unfold read readRelations at h
    simp only [bind, Option.bind] at h
    split at h
    · cases h
    rename_i x hx
    split at hx
    · cases hx
    rename_i y hy
    obtain rfl := Option.some.inj hx
    obtain ⟨rfl, -⟩ := Prod.mk.inj (Option.some.inj h)
    refine ⟨?_, ?_, ?_⟩
    · unfold readNodes
      refine foldl_keeps (p := fun (a : AMap Id (Node D)) => (List.map (fun e : Id × Node D => e.1) a).Nodup) (fun a t h => ?_) _ _ List.nodup_nil
      split
      · exact h
      · exact AMap.nodup_set _ _ _ h
    · unfold readWays
      refine foldl_keeps (p := fun (a : AMap Id Way × List ReadError) => (List.map (fun e : Id × Way => e.1) a.1).Nodup) (fun a t h => ?_) _ _ List.nodup_nil
      simp only
      split
      · exact h
      · exact AMap.nodup_set _ _ _ h
    · rw [resolveAll_keys _ rfl hy]
      refine foldl_keeps (p := fun (a : RelState ReadError) => (List.map (fun e : Id × Relation => e.1) a.relations).Nodup) (fun a t h => ?_) _ _ List.nodup_nil
      unfold readRelation
      split
      · exact h
      · refine foldl_keeps (p := fun (a : RelState ReadError) => (List.map (fun e : Id × Relation => e.1) a.relations).Nodup) (fun a t h => ?_) _ _ ?_
        rotate_left
        · exact AMap.nodup_emplace _ _ _ h
        unfold readMember
        simp only
        split
        · split
          · rw [AMap.keys_modify]; exact h
          · exact h
        · split
          · split
            · rw [AMap.keys_modify]; exact h
            · exact h
          · split
            · rw [AMap.keys_modify]; exact h
            · exact h
  have gn : ∀ e ∈ file.nodes, ∃ x, e.2 = nodeOf zero num x ∧ x.id = e.1 := by
    intro e he
    have hg := AMap.get_of_mem hdup.1 he
    rw [hn] at hg
    obtain ⟨x, hx1, hx2⟩ := Option.map_eq_some_iff.mp hg
    refine ⟨x, hx2.symm, ?_⟩
    have := List.find?_some hx1
    simpa using this
  have gw : ∀ e ∈ file.ways, ∃ x, e.2 = wayOf doc x ∧ x.id = e.1 := by
    intro e he
    have hg := AMap.get_of_mem hdup.2.1 he
    rw [hw] at hg
    obtain ⟨x, hx1, hx2⟩ := Option.map_eq_some_iff.mp hg
    refine ⟨x, hx2.symm, ?_⟩
    have := List.find?_some hx1
    simpa using this
  have gr : ∀ e ∈ file.relations, _ := fun e he => hr e.1 e.2 (AMap.get_of_mem hdup.2.2 he)
  refine ⟨⟨hdup.1, ?_⟩, ⟨hdup.2.1, ?_⟩, ⟨hdup.2.2, fun e he => (gr e he).1⟩, ?_, ?_, ?_, ?_⟩
  · intro e he
    obtain ⟨x, hx1, hx2⟩ := gn e he
    rw [hx1]; exact hx2
  · intro e he
    obtain ⟨x, hx1, hx2⟩ := gw e he
    rw [hx1]; exact hx2
  · intro e he
    obtain ⟨x, hx1, hx2⟩ := gn e he
    rw [hx1]; exact readTags_nodup _
  · intro e he
    obtain ⟨x, hx1, hx2⟩ := gw e he
    rw [hx1]; exact readTags_nodup _
  · intro e he
    obtain ⟨-, ⟨x, -, ha⟩, -⟩ := gr e he
    rw [ha]; exact readTags_nodup _
  · intro e he y hy
    obtain ⟨-, -, hm⟩ := gr e he
    rw [hm] at hy
    obtain ⟨z, hz, rfl⟩ := List.mem_map.mp hy
    refine ⟨z.2, rfl, ?_⟩
    intro i hi
    obtain ⟨q, _, hq⟩ := List.mem_filterMap.mp hz
    unfold target at hq
    have hrel : HasRelation doc i := by
      split at hq
      · split at hq
        · obtain rfl := Option.some.inj hq; cases hi
        · cases hq
      · split at hq
        · split at hq
          · obtain rfl := Option.some.inj hq; cases hi
          · cases hq
        · split at hq
          · split at hq
            · rename_i hh
              obtain rfl := Option.some.inj hq
              simp only [Target.relation.injEq] at hi
              exact hi ▸ hh
            · cases hq
          · cases hq
    rw [AMap.has_eq]
    cases hg : file.relations.get i with
    | some _ => rfl
    | none => exact absurd hrel ((hx i).mp hg)

/-! ### the theorems -/

theorem isArea_iff (env : Env P D) (attrs : Attrs) : isArea env attrs = true ↔ (attrs.get "area").bind env.asBool = some true := by
  unfold isArea
  cases attrs.get "area" with
  | none => simp
  | some v =>
    simp only [Option.bind_some]
    cases env.asBool v with
    | none => simp
    | some b => simp

theorem has_get {V : Type} {l : AMap Id V} {i : Id} : l.has i = true ↔ ∃ v, l.get i = some v := by
  rw [AMap.has_eq, Option.isSome_iff_exists]

theorem linesOf_get (env : Env P D) {file : File D} (h : FileOk file) (i : Id) :
    (linesOf env file).get i = (file.ways.get i).bind (loadedLine env (pointsOf env file).1) :=
  get_filterMap _ h.ways.nodup i

theorem polysOf_get (env : Env P D) {file : File D} (h : FileOk file) (i : Id) :
    (polysOf env file).get i = (file.ways.get i).bind (loadedPoly env (pointsOf env file).1) :=
  get_filterMap _ h.ways.nodup i

theorem linesOf_props (env : Env P D) {file : File D} (h : FileOk file) :
    Layer (·.id) (linesOf env file) ∧ ∀ e ∈ linesOf env file, e.2.inv = false := by
  have hm : ∀ e ∈ linesOf env file, ∃ w ∈ file.ways, e.1 = w.1 ∧ e.2.id = w.2.id ∧ e.2.inv = false := by
    intro e he
    obtain ⟨w, hw, hl⟩ := List.mem_filterMap.mp he
    obtain ⟨l, hl', rfl⟩ := Option.map_eq_some_iff.mp hl
    unfold loadedLine at hl'
    split at hl'
    · obtain rfl := Option.some.inj hl'
      exact ⟨w, hw, rfl, rfl, rfl⟩
    · cases hl'
  refine ⟨⟨nodup_collected (fun w => (loadedLine env (pointsOf env file).1 w, [])) h.ways.nodup, ?_⟩, ?_⟩
  · intro e he
    obtain ⟨w, hw, h1, h2, -⟩ := hm e he
    rw [h1, h2]; exact h.ways.key w hw
  · intro e he
    obtain ⟨w, hw, -, -, h3⟩ := hm e he
    exact h3

/-- C35: loading a file with valid pointers never fails, and the map has nothing that is not in the file. -/
theorem load_total (env : Env P D) {file : File D} (h : FileOk file) :
    ∃ m errs, loadMap env file = some (m, errs) ∧ Sound file m := by
  obtain ⟨ls, as, h1, -, -, h4, h5⟩ := loadMap_eq env h
  refine ⟨_, _, h1, ?_, ?_, ?_, ?_, ?_⟩
  · intro i hi
    simp only [AMap.has_eq, pointsOf] at hi ⊢
    rw [get_collected _ h.nodes.nodup] at hi
    cases hg : file.nodes.get i with
    | none => rw [hg] at hi; cases hi
    | some n => rfl
  · intro i hi
    simp only [AMap.has_eq] at hi ⊢
    rw [linesOf_get env h, polysOf_get env h] at hi
    cases hg : file.ways.get i with
    | none => rw [hg] at hi; simp at hi
    | some n => rfl
  · intro i hi
    simp only [AMap.has_eq] at hi
    rw [h4] at hi
    cases hg : file.relations.get i with
    | none => rw [hg] at hi; cases hi
    | some r =>
      refine ⟨r, rfl, ?_⟩
      rw [hg] at hi
      simp only [Option.bind_some, laneletOf] at hi
      by_contra hc
      rw [if_neg (by simpa [isType] using hc)] at hi
      cases hi
  · intro i hi
    simp only [AMap.has_eq] at hi
    rw [h5] at hi
    cases hg : file.relations.get i with
    | none => rw [hg] at hi; cases hi
    | some r =>
      refine ⟨r, rfl, ?_⟩
      rw [hg] at hi
      simp only [Option.bind_some, areaOf] at hi
      by_contra hc
      rw [if_neg (by simpa [isType] using hc)] at hi
      cases hi
  · intro i hi
    simp only [AMap.has_eq, regsOf] at hi
    rw [get_collected _ h.relations.nodup] at hi
    cases hg : file.relations.get i with
    | none => rw [hg] at hi; cases hi
    | some r =>
      refine ⟨r, rfl, ?_⟩
      rw [hg] at hi
      simp only [Option.bind_some, regOf] at hi
      by_contra hc
      rw [if_neg (by simpa [isType] using hc)] at hi
      cases hi

/-- C35: any document can be read and loaded. -/
theorem read_load_total (zero : D) (num : String → D) (front : Nat → Nat → Bool) (env : Env P D) (doc : Doc) :
    ∃ file readErrs m errs, read zero num front doc = some (file, readErrs) ∧ loadMap env file = some (m, errs) ∧ Sound file m := by
  obtain ⟨file, e, h, -⟩ := read_spec zero num front doc
  obtain ⟨m, errs, h1, h2⟩ := load_total env (read_fileOk zero num front doc h)
  exact ⟨file, e, m, errs, h, h1, h2⟩

/-- what it means that there are no errors -/
structure NoErrors (env : Env P D) (file : File D) : Prop where
  nodes : ∀ e ∈ file.nodes, (loadNode env e.2).2 = []
  ways : ∀ e ∈ file.ways, wayErrors (pointsOf env file).1 e.2 = []
  lanelets : ∀ e ∈ file.relations, (laneletOf env (pointsOf env file).1 (linesOf env file) e.2).2 = []
  areas : ∀ e ∈ file.relations, (areaOf env (pointsOf env file).1 (linesOf env file) e.2).2 = []
  regs : ∀ e ∈ file.relations, (regOf env (layersOf env file) e.2).2 = []
  laneletRegs : ∀ e ∈ file.relations, isType "lanelet" e.2 = true → (laneletsOf env file).1.has e.2.id = true →
    regRefErrors (regsOf env file).1 e.2 = []
  areaRegs : ∀ e ∈ file.relations, isType "multipolygon" e.2 = true → (areasOf env file).1.has e.2.id = true →
    regRefErrors (regsOf env file).1 e.2 = []

theorem noErrors_of {env : Env P D} {file : File D} (h : loadErrors env file = []) : NoErrors env file := by
  unfold loadErrors at h
  simp only [List.append_eq_nil_iff] at h
  obtain ⟨⟨⟨⟨⟨⟨h1, h2⟩, h3⟩, h4⟩, h5⟩, h6⟩, h7⟩ := h
  refine ⟨?_, ?_, ?_, ?_, ?_, ?_, ?_⟩
  · exact fun e he => List.flatMap_eq_nil_iff.mp h1 e he
  · exact fun e he => List.flatMap_eq_nil_iff.mp h2 e he
  · exact fun e he => List.flatMap_eq_nil_iff.mp h3 e he
  · exact fun e he => List.flatMap_eq_nil_iff.mp h4 e he
  · exact fun e he => List.flatMap_eq_nil_iff.mp h5 e he
  · exact fun e he ht hl => List.flatMap_eq_nil_iff.mp h6 e (List.mem_filter.mpr ⟨he, by simp [ht, hl]⟩)
  · exact fun e he ht hl => List.flatMap_eq_nil_iff.mp h7 e (List.mem_filter.mpr ⟨he, by simp [ht, hl]⟩)

theorem regRefs_nil {regs : AMap Id MReg} {r : Relation} (h : regRefErrors regs r = []) :
    regRefs regs r = (roleMembers "regulatory_element" r).map (fun t => { id := t.id }) ∧
    ∀ x ∈ regRefs regs r, InLayer regs x := by
  unfold regRefErrors at h
  rw [List.flatMap_eq_nil_iff] at h
  unfold regRefs
  refine ⟨List.map_congr_left fun t ht => (getOrDummy_nil (h t ht)).2, ?_⟩
  intro x hx
  obtain ⟨t, ht, rfl⟩ := List.mem_map.mp hx
  obtain ⟨h1, h2⟩ := getOrDummy_nil (h t ht)
  rw [h2]
  exact ⟨rfl, h1⟩

theorem pointRefs_nil {points : AMap Id (MPoint P)} {w : Way} (h : wayErrors points w = []) :
    w.nodes ≠ [] ∧ pointRefs points w = (w.nodes.map fun n => { id := n }) ∧ ∀ r ∈ pointRefs points w, InLayer points r := by
  unfold wayErrors at h
  rw [List.append_eq_nil_iff, List.flatMap_eq_nil_iff] at h
  unfold pointRefs
  refine ⟨?_, List.map_congr_left fun t ht => (getOrDummy_nil (h.1 t ht)).2, ?_⟩
  · intro hc
    rw [hc] at h
    exact absurd h.2 (by simp)
  · intro x hx
    obtain ⟨t, ht, rfl⟩ := List.mem_map.mp hx
    obtain ⟨h1, h2⟩ := getOrDummy_nil (h.1 t ht)
    rw [h2]
    exact ⟨rfl, h1⟩

/-- the lanelet of a relation without errors -/
theorem laneletOf_nil (env : Env P D) {points : AMap Id (MPoint P)} {lines : AMap Id MLine} {r : Relation}
    (ht : isType "lanelet" r = true) (h : (laneletOf env points lines r).2 = []) :
    ∃ (left right : Id) (center : Option Id) (a b : Bool),
      roleMembers "left" r = [.way left] ∧ roleMembers "right" r = [.way right] ∧
      roleMembers "centerline" r = center.toList.map .way ∧
      align env points lines { id := left } { id := right } = ({ id := left, inv := a }, { id := right, inv := b }) ∧
      (laneletOf env points lines r).1 = some ⟨r.id, r.attrs, { id := left, inv := a }, { id := right, inv := b },
        center.map fun c => { id := c }, []⟩ ∧
      lines.has left = true ∧ lines.has right = true ∧ ∀ c, center = some c → lines.has c = true := by
  unfold laneletOf at h ⊢
  rw [if_pos ht] at h ⊢
  simp only [List.append_eq_nil_iff] at h
  obtain ⟨l, l1, l2, l3⟩ := borderOf_nil h.1.1
  obtain ⟨q, r1, r2, r3⟩ := borderOf_nil h.1.2
  obtain ⟨c, c1, c2, c3⟩ := centerOf_nil h.2
  obtain ⟨a, b, hab⟩ := align_same env points lines { id := l } { id := q }
  refine ⟨l, q, c, a, b, l1, r1, c1, hab, ?_, l2, r2, c2⟩
  simp only [l3, r3, c3, hab]

/-- the area of a relation without errors -/
theorem areaOf_nil (env : Env P D) {m : LMap P} (hl : Layer (·.id) m.lines) (hp : ∀ e ∈ m.lines, e.2.pts ≠ [])
    (hinv : ∀ e ∈ m.lines, e.2.inv = false) {r : Relation}
    (ht : isType "multipolygon" r = true) (h : (areaOf env m.points m.lines r).2 = []) :
    ∃ (outerIds innerIds : List Id) (outer : List Ref) (inner : List (List Ref)),
      roleMembers "outer" r = outerIds.map .way ∧ roleMembers "inner" r = innerIds.map .way ∧
      RingsFrom env m [outer] outerIds ∧ RingsFrom env m inner innerIds ∧
      (areaOf env m.points m.lines r).1 = some ⟨r.id, r.attrs, outer, inner, []⟩ ∧
      ∀ x ∈ outer ++ inner.flatten, InLayer m.lines x := by
  unfold areaOf at h ⊢
  simp only [if_pos ht] at h ⊢
  split at h
  · simp at h
  rename_i hne
  split at h
  swap
  · simp at h
  rename_i ring hring
  split at h
  · rename_i hemp
    obtain rfl : ring = [] := by simpa using hemp
    simp only [List.append_eq_nil_iff, List.map_eq_nil_iff] at h
    obtain ⟨oi, o1, o2, o3⟩ := lineErrors_nil h.1
    rw [o3] at hring h
    obtain ⟨_, g2⟩ := ringsOf_spec env hl hp hinv o2 h.2
    exact absurd rfl (g2 [] (by rw [hring]; simp)).1
  rename_i hemp
  simp only [List.append_eq_nil_iff, List.map_eq_nil_iff] at h
  obtain ⟨⟨h1, h2⟩, h3, h4⟩ := h
  obtain ⟨oi, o1, o2, o3⟩ := lineErrors_nil h1
  obtain ⟨ii, i1, i2, i3⟩ := lineErrors_nil h3
  rw [o3] at h2 hring hne ⊢
  rw [i3] at h4 ⊢
  obtain ⟨p1, p2⟩ := ringsOf_spec env hl hp hinv o2 h2
  obtain ⟨q1, q2⟩ := ringsOf_spec env hl hp hinv i2 h4
  rw [hring] at p1 p2
  refine ⟨oi, ii, ring.map Line.toRef, (ringsOf env m.points (ii.filterMap m.lines.get)).1.map fun x => x.map Line.toRef,
    o1, i1, p1, q1, ?_, ?_⟩
  · rw [if_neg hne, if_neg hemp]
  · intro x hx
    rcases List.mem_append.mp hx with hx | hx
    · obtain ⟨l, hl', rfl⟩ := List.mem_map.mp hx
      exact (p2 ring (by simp)).2 l hl'
    · obtain ⟨rg, hrg, hx⟩ := List.mem_flatten.mp hx
      obtain ⟨rg', hrg', rfl⟩ := List.mem_map.mp hrg
      obtain ⟨l, hl', rfl⟩ := List.mem_map.mp hx
      exact (q2 rg' hrg').2 l hl'

theorem has_of_keys {V W : Type} {a : AMap Id V} {b : AMap Id W} (h : a.map (·.1) = b.map (·.1)) (i : Id) : a.has i = b.has i := by
  rw [Bool.eq_iff_iff, AMap.has_iff_mem, AMap.has_iff_mem, h]

/-- the parameter of a member without errors -/
theorem paramOf_nil {s : Layers P} {file : File D} {m : LMap P} (e1 : s.relations = file.relations) (e2 : s.points = m.points)
    (e3 : s.lines = m.lines) (e4 : s.polys = m.polys) (e5 : ∀ i, s.lanelets.has i = m.lanelets.has i)
    (e6 : ∀ i, s.areas.has i = m.areas.has i) {reg : Id} {t : Target} (ht : ∀ i, t = .relation i → file.relations.has i = true)
    (h : (paramOf s reg t).2 = []) : (paramOf s reg t).1 = some (paramFor file m t) ∧ ParamIn m (paramFor file m t) := by
  unfold paramOf at h ⊢
  cases t with
  | node i =>
    simp only [getParam, Option.getD_some] at h ⊢
    obtain ⟨h1, h2⟩ := getOrDummy_nil h
    rw [h2]
    exact ⟨rfl, rfl, by rw [← e2]; exact h1⟩
  | way i =>
    simp only [getParam, paramFor, ← e4] at h ⊢
    by_cases hp : s.polys.has i = true
    · simp only [hp, if_true, Option.getD_some] at h ⊢
      obtain ⟨h1, h2⟩ := getOrDummy_nil h
      rw [h2]
      exact ⟨rfl, rfl, by rw [← e4]; exact h1⟩
    · rw [if_neg hp] at h ⊢
      rw [if_neg hp]
      simp only [Option.getD_some] at h ⊢
      obtain ⟨h1, h2⟩ := getOrDummy_nil h
      rw [h2]
      exact ⟨rfl, rfl, by rw [← e3]; exact h1⟩
  | relation i =>
    obtain ⟨r, hr⟩ := has_get.mp (ht i rfl)
    simp only [getParam, paramFor, e1, hr, bind, Option.bind, Option.any_some] at h ⊢
    cases hty : r.attrs.get "type" with
    | none => rw [hty] at h; cases h
    | some type =>
      rw [hty] at h
      simp only at h ⊢
      by_cases hl : type = "lanelet"
      · subst hl
        simp only [if_true, Option.getD_some, pure, decide_true] at h ⊢
        obtain ⟨h1, h2⟩ := getOrDummy_nil h
        rw [h2]
        exact ⟨rfl, rfl, by rw [← e5]; exact h1⟩
      · by_cases ha : type = "multipolygon"
        · subst ha
          have n1 : ¬ (("multipolygon" : String) = "lanelet") := by decide
          simp only [n1, if_false, if_true, Option.getD_some, pure, Option.some.injEq, decide_false] at h ⊢
          obtain ⟨h1, h2⟩ := getOrDummy_nil h
          rw [h2]
          exact ⟨rfl, rfl, by rw [← e6]; exact h1⟩
        · rw [if_neg hl, if_neg ha] at h
          split at h <;> cases h

/-- the parameters of a regulatory element without errors -/
theorem rules_nil {s : Layers P} {file : File D} {m : LMap P} (e1 : s.relations = file.relations) (e2 : s.points = m.points)
    (e3 : s.lines = m.lines) (e4 : s.polys = m.polys) (e5 : ∀ i, s.lanelets.has i = m.lanelets.has i)
    (e6 : ∀ i, s.areas.has i = m.areas.has i) {r : Relation}
    (hm : ∀ x ∈ r.members.items, ∃ t, x.2 = some t ∧ ∀ i, t = .relation i → file.relations.has i = true)
    (h : ruleErrors s r = []) : ∀ role, (groupParams (ruleList s r)).get role = nonEmpty ((roleMembers role r).map (paramFor file m)) ∧
      ∀ t ∈ roleMembers role r, ParamIn m (paramFor file m t) := by
  have hp : ∀ x ∈ r.members.items, ∀ t, x.2 = some t →
      (paramOf s r.id t).1 = some (paramFor file m t) ∧ ParamIn m (paramFor file m t) := by
    intro x hx t ht
    obtain ⟨t', ht', hrel⟩ := hm x hx
    obtain rfl := Option.some.inj (ht'.symm.trans ht)
    refine paramOf_nil e1 e2 e3 e4 e5 e6 hrel ?_
    unfold ruleErrors at h
    have := List.flatMap_eq_nil_iff.mp h x hx
    rw [ht] at this
    exact this
  intro role
  constructor
  · rw [get_groupParams]
    congr 1
    unfold ruleList roleMembers
    rw [List.filterMap_filterMap, List.map_filterMap]
    apply filterMap_congr'
    intro x hx
    obtain ⟨t, ht, _⟩ := hm x hx
    rw [ht]
    simp only [Option.bind_some, (hp x hx t ht).1, Option.map_some]
    split <;> rfl
  · intro t ht
    obtain ⟨x, hx, hxt⟩ := List.mem_filterMap.mp ht
    split at hxt
    · exact (hp x hx t hxt).2
    · cases hxt

/-- everything that is known about a file that was loaded without errors -/
theorem load_facts (env : Env P D) {file : File D} (h : FileOk file) {m : LMap P} (hm : loadMap env file = some (m, [])) :
    NoErrors env file ∧ m.points = (pointsOf env file).1 ∧ m.lines = linesOf env file ∧ m.polys = polysOf env file ∧
    m.regs = (regsOf env file).1 ∧ (∀ i, (laneletsOf env file).1.has i = m.lanelets.has i) ∧
    (∀ i, (areasOf env file).1.has i = m.areas.has i) ∧
    (∀ i, m.lanelets.get i = (file.relations.get i).bind fun r =>
      (laneletOf env (pointsOf env file).1 (linesOf env file) r).1.map fun l => { l with regs := regRefs (regsOf env file).1 r }) ∧
    (∀ i, m.areas.get i = (file.relations.get i).bind fun r =>
      (areaOf env (pointsOf env file).1 (linesOf env file) r).1.map fun l => { l with regs := regRefs (regsOf env file).1 r }) := by
  obtain ⟨ls, as, h1, h2, h3, h4, h5⟩ := loadMap_eq env h
  rw [hm] at h1
  obtain ⟨rfl, he⟩ := Prod.mk.inj (Option.some.inj h1)
  exact ⟨noErrors_of he.symm, rfl, rfl, rfl, rfl, fun i => (has_of_keys h2 i).symm, fun i => (has_of_keys h3 i).symm, h4, h5⟩

/-- C35: if loading reports no error, then the map has every primitive of the file, with its attributes and members.
Partial: an area may miss linestrings of the file if its linestrings can not be partitioned into rings (`RingsFrom`). -/
theorem load_complete_partial (env : Env P D) {file : File D} (h : FileOk file) {m : LMap P}
    (hm : loadMap env file = some (m, [])) : Complete env file m := by
  obtain ⟨hne, hp, hli, hpo, hre, hla, har, hlg, hag⟩ := load_facts env h hm
  obtain ⟨lay, linv⟩ := linesOf_props env h
  refine ⟨?_, ?_, ?_, ?_, ?_⟩
  · intro i n hn
    have he := AMap.mem_of_get hn
    have h1 := hne.nodes _ he
    have hk : n.id = i := h.nodes.key _ he
    rw [hp, pointsOf, get_collected _ h.nodes.nodup, hn]
    simp only [Option.bind_some]
    unfold loadNode at h1 ⊢
    cases hf : env.forward n.lat n.lon n.ele with
    | none => rw [hf] at h1; cases h1
    | some p =>
      refine ⟨p, rfl, ?_⟩
      simp only [hk, getAttributes_eq (h.nodeAttrs _ he)]
  · intro i w hw
    have he := AMap.mem_of_get hw
    have hk : w.id = i := h.ways.key _ he
    obtain ⟨h1, h2, -⟩ := pointRefs_nil (hne.ways _ he)
    refine ⟨h1, ?_⟩
    have ha : isArea env w.attrs = true ↔ _ := isArea_iff env w.attrs
    by_cases hc : (w.attrs.get "area").bind env.asBool = some true
    · rw [if_pos hc, hpo, polysOf_get env h, hw]
      simp only [Option.bind_some]
      unfold loadedPoly
      rw [if_pos ⟨h1, ha.mpr hc⟩, hk, h2]
    · have hf : isArea env w.attrs = false := by
        cases hx : isArea env w.attrs with
        | false => rfl
        | true => exact absurd (ha.mp hx) hc
      rw [if_neg hc, hli, linesOf_get env h, hw]
      simp only [Option.bind_some]
      unfold loadedLine
      rw [if_pos ⟨h1, hf⟩, hk, h2]
  · intro i r hr ht
    have he := AMap.mem_of_get hr
    have hk : r.id = i := h.relations.key _ he
    have hty : isType "lanelet" r = true := by simpa [isType] using ht
    obtain ⟨l, q, c, a, b, h1, h2, h3, h4, h5, -⟩ := laneletOf_nil env hty (hne.lanelets _ he)
    refine ⟨l, q, c, a, b, h1, h2, h3, align_oriented (by rw [hp, hli]; exact h4), ?_⟩
    have hget : m.lanelets.get i = some ⟨r.id, r.attrs, { id := l, inv := a }, { id := q, inv := b },
        c.map fun c => { id := c }, regRefs (regsOf env file).1 r⟩ := by
      rw [hlg, hr]
      simp only [Option.bind_some]
      rw [h5]
      rfl
    have hhas : (laneletsOf env file).1.has r.id = true := by rw [hla, hk, AMap.has_eq, hget]; rfl
    rw [hget, (regRefs_nil (hne.laneletRegs _ he hty hhas)).1, hk]
  · intro i r hr ht
    have he := AMap.mem_of_get hr
    have hk : r.id = i := h.relations.key _ he
    have hty : isType "multipolygon" r = true := by simpa [isType] using ht
    have hna := hne.areas _ he
    rw [← hp, ← hli] at hna
    obtain ⟨oi, ii, o, n, h1, h2, h3, h4, h5, -⟩ := areaOf_nil env (m := m) (by rw [hli]; exact lay)
      (by rw [hli]; exact linesOf_ne env file) (by rw [hli]; exact linv) hty hna
    refine ⟨oi, ii, o, n, h1, h2, h3, h4, ?_⟩
    have hget : m.areas.get i = some ⟨r.id, r.attrs, o, n, regRefs (regsOf env file).1 r⟩ := by
      rw [hag, hr]
      simp only [Option.bind_some]
      rw [← hp, ← hli, h5]
      rfl
    have hhas : (areasOf env file).1.has r.id = true := by rw [har, hk, AMap.has_eq, hget]; rfl
    rw [hget, (regRefs_nil (hne.areaRegs _ he hty hhas)).1, hk]
  · intro i r hr ht
    have he := AMap.mem_of_get hr
    have hk : r.id = i := h.relations.key _ he
    have hty : isType "regulatory_element" r = true := by simpa [isType] using ht
    have hreg := hne.regs _ he
    have hget : m.regs.get i = (regOf env (layersOf env file) r).1 := by
      rw [hre, regsOf, get_collected _ h.relations.nodup, hr]; rfl
    rw [hget]
    unfold regOf at hreg ⊢
    rw [if_pos hty] at hreg ⊢
    cases hs : r.attrs.get "subtype" with
    | none => rw [hs] at hreg; cases hreg
    | some subtype =>
      rw [hs] at hreg
      simp only at hreg ⊢
      refine ⟨subtype, if subtype = "" then "regulatory_element" else subtype, groupParams (ruleList (layersOf env file) r), ?_⟩
      cases hf : factoryCreate env subtype ⟨r.id, r.attrs, groupParams (ruleList (layersOf env file) r)⟩ with
      | none => rw [hf] at hreg; simp at hreg
      | some g =>
        rw [hf] at hreg
        refine ⟨g, rfl, rfl, fun role => ?_, ?_, rfl⟩
        · exact (rules_nil (s := layersOf env file) rfl hp.symm hli.symm hpo.symm hla har (h.members _ he) hreg role).1
        · unfold factoryCreate at hf
          rw [hk] at hf
          exact hf

/-- C35: if loading reports no error, then everything that is referenced in the map is in the map. -/
theorem load_self_contained (env : Env P D) (hr : RegistryOk env) {file : File D} (h : FileOk file) {m : LMap P}
    (hm : loadMap env file = some (m, [])) : SelfContained m := by
  obtain ⟨hne, hp, hli, hpo, hre, hla, har, hlg, hag⟩ := load_facts env h hm
  obtain ⟨lay, linv⟩ := linesOf_props env h
  refine ⟨?_, ?_, ?_, ?_, ?_⟩
  · intro i l hl x hx
    rw [hli, linesOf_get env h] at hl
    obtain ⟨w, hw, hl⟩ := Option.bind_eq_some_iff.mp hl
    unfold loadedLine at hl
    split at hl
    · obtain rfl := Option.some.inj hl
      rw [hp]
      exact (pointRefs_nil (hne.ways _ (AMap.mem_of_get hw))).2.2 x hx
    · cases hl
  · intro i l hl x hx
    rw [hpo, polysOf_get env h] at hl
    obtain ⟨w, hw, hl⟩ := Option.bind_eq_some_iff.mp hl
    unfold loadedPoly at hl
    split at hl
    · obtain rfl := Option.some.inj hl
      rw [hp]
      exact (pointRefs_nil (hne.ways _ (AMap.mem_of_get hw))).2.2 x hx
    · cases hl
  · intro i l hl
    rw [hlg] at hl
    obtain ⟨r, hr, hl⟩ := Option.bind_eq_some_iff.mp hl
    obtain ⟨l', hl', rfl⟩ := Option.map_eq_some_iff.mp hl
    have he := AMap.mem_of_get hr
    have hty : isType "lanelet" r = true := by
      by_contra hc
      unfold laneletOf at hl'
      rw [if_neg hc] at hl'
      cases hl'
    obtain ⟨l, q, c, a, b, -, -, -, -, h5, h6, h7, h8⟩ := laneletOf_nil env hty (hne.lanelets _ he)
    rw [h5] at hl'
    obtain rfl := Option.some.inj hl'
    have hk : r.id = i := h.relations.key _ he
    have hhas : (laneletsOf env file).1.has r.id = true := by
      rw [hla, hk, AMap.has_eq, hlg, hr]
      simp only [Option.bind_some]
      rw [h5]
      rfl
    refine ⟨?_, ?_⟩
    · intro x hx
      rw [hli]
      simp only [List.mem_cons] at hx
      rcases hx with rfl | rfl | hx
      · exact ⟨rfl, h6⟩
      · exact ⟨rfl, h7⟩
      · cases c with
        | none => cases hx
        | some c =>
          simp only [Option.map_some, Option.toList_some, List.mem_singleton] at hx
          subst hx
          exact ⟨rfl, h8 c rfl⟩
    · rw [hre]
      exact (regRefs_nil (hne.laneletRegs _ he hty hhas)).2
  · intro i l hl
    rw [hag] at hl
    obtain ⟨r, hr, hl⟩ := Option.bind_eq_some_iff.mp hl
    obtain ⟨l', hl', rfl⟩ := Option.map_eq_some_iff.mp hl
    have he := AMap.mem_of_get hr
    have hty : isType "multipolygon" r = true := by
      by_contra hc
      unfold areaOf at hl'
      rw [if_neg hc] at hl'
      cases hl'
    have hna := hne.areas _ he
    rw [← hp, ← hli] at hna
    obtain ⟨oi, ii, o, n, -, -, -, -, h5, h6⟩ := areaOf_nil env (m := m) (by rw [hli]; exact lay)
      (by rw [hli]; exact linesOf_ne env file) (by rw [hli]; exact linv) hty hna
    rw [hp, hli] at h5
    rw [h5] at hl'
    obtain rfl := Option.some.inj hl'
    have hk : r.id = i := h.relations.key _ he
    have hhas : (areasOf env file).1.has r.id = true := by
      rw [har, hk, AMap.has_eq, hag, hr]
      simp only [Option.bind_some]
      rw [h5]
      rfl
    refine ⟨h6, ?_⟩
    rw [hre]
    exact (regRefs_nil (hne.areaRegs _ he hty hhas)).2
  · intro i g hg p hpg
    rw [hre, regsOf, get_collected _ h.relations.nodup] at hg
    obtain ⟨r, hr', hg⟩ := Option.bind_eq_some_iff.mp hg
    have he := AMap.mem_of_get hr'
    have hreg := hne.regs _ he
    unfold regOf at hg hreg
    split at hg
    swap
    · cases hg
    rename_i hty
    rw [if_pos hty] at hreg
    cases hs : r.attrs.get "subtype" with
    | none => rw [hs] at hg; cases hg
    | some subtype =>
      rw [hs] at hg hreg
      simp only at hg hreg
      cases hf : factoryCreate env subtype ⟨r.id, r.attrs, groupParams (ruleList (layersOf env file) r)⟩ with
      | none => rw [hf] at hg; cases hg
      | some g' =>
        rw [hf] at hg hreg
        obtain rfl := Option.some.inj hg
        unfold factoryCreate at hf
        have hin := (hr _ _ _ hf).2 p hpg
        simp only [paramsOf] at hin
        obtain ⟨e, hel, hpl⟩ := List.mem_flatMap.mp hin
        obtain ⟨k1, k2⟩ := rules_nil (s := layersOf env file) rfl hp.symm hli.symm hpo.symm hla har (h.members _ he) hreg e.1
        rw [AMap.get_of_mem (nodup_groupParams _) hel] at k1
        unfold nonEmpty at k1
        split at k1
        · cases k1
        · rw [Option.some.inj k1] at hpl
          obtain ⟨t, ht, rfl⟩ := List.mem_map.mp hpl
          exact k2 t ht

/-! ### examples -/

/-- positions are numbers on a line, coordinates above 100 can not be projected -/
def exEnv : Env Int Int where
  forward lat lon _ := if lat > 100 then none else some (1000 * lat + lon)
  origin := 0
  asBool s := if s = "yes" then some true else if s = "no" then some false else none
  rightOf _ _ := true
  leftOf _ _ := true
  valid _ := true
  registry name d := if name = "traffic_light" then some d else none

example : RegistryOk exEnv := by
  intro name d g h
  simp only [exEnv] at h
  split at h
  · obtain rfl := Option.some.inj h
    exact ⟨rfl, fun p hp => hp⟩
  · cases h

/-- a lanelet with a traffic light that refers to it, and a polygon -/
def exFile : File Int where
  nodes := [(1, ⟨1, [("a", "b")], 1, 1, 0⟩), (2, ⟨2, [], 2, 1, 0⟩), (3, ⟨3, [], 1, 0, 0⟩), (4, ⟨4, [], 2, 0, 0⟩)]
  ways := [(11, ⟨11, [("type", "curb")], [1, 2]⟩), (12, ⟨12, [], [3, 4]⟩), (15, ⟨15, [("area", "yes")], [1, 2, 3]⟩)]
  relations := [
    (20, ⟨20, [("type", "lanelet"), ("subtype", "road")],
      ⟨0, [("left", some (.way 11)), ("right", some (.way 12)), ("regulatory_element", some (.relation 21))]⟩⟩),
    (21, ⟨21, [("type", "regulatory_element"), ("subtype", "traffic_light")],
      ⟨0, [("refers", some (.way 11)), ("ref_line", some (.way 15)), ("refers", some (.relation 20))]⟩⟩)]

example : FileOk exFile := by
  refine ⟨⟨by decide, by decide⟩, ⟨by decide, by decide⟩, ⟨by decide, by decide⟩, ?_, ?_, ?_, ?_⟩
  · simp only [Attrs.Ok]; decide
  · simp only [Attrs.Ok]; decide
  · simp only [Attrs.Ok]; decide
  · intro e he x hx
    simp only [exFile, List.mem_cons, List.not_mem_nil, or_false] at he
    rcases he with rfl | rfl <;> simp only [List.mem_cons, List.not_mem_nil, or_false] at hx <;>
      rcases hx with rfl | rfl | rfl <;> refine ⟨_, rfl, ?_⟩ <;> intro i hi <;> cases hi <;> decide

example : loadMap exEnv exFile = some (⟨
    [(1, ⟨1, [("a", "b")], 1001⟩), (2, ⟨2, [], 2001⟩), (3, ⟨3, [], 1000⟩), (4, ⟨4, [], 2000⟩)],
    [(11, ⟨11, [("type", "curb")], [{ id := 1 }, { id := 2 }], false⟩), (12, ⟨12, [], [{ id := 3 }, { id := 4 }], false⟩)],
    [(15, ⟨15, [("area", "yes")], [{ id := 1 }, { id := 2 }, { id := 3 }]⟩)],
    [(20, ⟨20, [("type", "lanelet"), ("subtype", "road")], { id := 11 }, { id := 12 }, none, [{ id := 21 }]⟩)],
    [],
    [(21, ⟨21, [("type", "regulatory_element"), ("subtype", "traffic_light")],
      [("refers", [.line { id := 11 }, .lanelet { id := 20 }]), ("ref_line", [.poly { id := 15 }])]⟩)]⟩, []) := by rfl

/-- Example. -/
def areaPoints : AMap Id (MPoint Int) := [(1, ⟨1, [], 1⟩), (2, ⟨2, [], 2⟩), (3, ⟨3, [], 3⟩)]

/-- Example. -/
def areaLines : AMap Id MLine :=
  [(10, ⟨10, [], [{ id := 1 }, { id := 2 }], false⟩), (13, ⟨13, [], [{ id := 1 }, { id := 3 }, { id := 2 }], false⟩),
   (14, ⟨14, [], [{ id := 1 }, { id := 2 }, { id := 3 }, { id := 1 }], false⟩)]

/-- the two linestrings of the boundary have opposite directions -/
example : loadArea exEnv areaPoints areaLines
    ⟨20, [("type", "multipolygon")], ⟨0, [("outer", some (.way 10)), ("outer", some (.way 13))]⟩⟩ =
    some (some ⟨20, [("type", "multipolygon")], [{ id := 10 }, { id := 13, inv := true }], [], []⟩, []) := by
  have h1 : assembleBoundary (ringValid exEnv areaPoints) [⟨10, [1, 2], false⟩, ⟨13, [1, 3, 2], false⟩] =
      some ([[⟨10, [1, 2], false⟩, ⟨13, [1, 3, 2], true⟩]], []) := by
    unfold assembleBoundary
    iterate 3 (rw [ringLoop]; simp [ringStep, closeRing, findNext, Line.back, Line.front, Line.view, Line.invert, ringValid, exEnv])
  have h2 : assembleBoundary (ringValid exEnv areaPoints) [] = some ([], []) := by
    unfold assembleBoundary
    rw [ringLoop]; rfl
  have g1 : getLinestrings areaLines
    ⟨20, [("type", "multipolygon")], ⟨0, [("outer", some (.way 10)), ("outer", some (.way 13))]⟩⟩ "outer" =
    some ([⟨10, [], [{ id := 1 }, { id := 2 }], false⟩, ⟨13, [], [{ id := 1 }, { id := 3 }, { id := 2 }], false⟩], []) := by rfl
  have g2 : getLinestrings areaLines
    ⟨20, [("type", "multipolygon")], ⟨0, [("outer", some (.way 10)), ("outer", some (.way 13))]⟩⟩ "inner" = some ([], []) := by rfl
  simp [loadArea, isType, AMap.get, getOuterRing, getInnerRings, g1, g2, assemble, MLine.toLine, h1, h2, Line.toRef, getAttributes,
    AMap.emplace, AMap.has]

/-! ### what goes wrong -/

/-- C35 fails for areas: a linestring of the boundary that closes no ring is lost, and no error is reported -/
theorem lost_linestring_counterexample : loadArea exEnv areaPoints areaLines
    ⟨20, [("type", "multipolygon")], ⟨0, [("outer", some (.way 14)), ("outer", some (.way 10))]⟩⟩ =
    some (some ⟨20, [("type", "multipolygon")], [{ id := 14 }], [], []⟩, []) := by
  have h1 : assembleBoundary (ringValid exEnv areaPoints) [⟨14, [1, 2, 3, 1], false⟩, ⟨10, [1, 2], false⟩] =
      some ([[⟨14, [1, 2, 3, 1], false⟩]], []) := by
    unfold assembleBoundary
    iterate 3 (rw [ringLoop]; simp [ringStep, closeRing, findNext, Line.back, Line.front, Line.view, Line.invert, ringValid, exEnv])
  have h2 : assembleBoundary (ringValid exEnv areaPoints) [] = some ([], []) := by
    unfold assembleBoundary
    rw [ringLoop]; rfl
  have g1 : getLinestrings areaLines
    ⟨20, [("type", "multipolygon")], ⟨0, [("outer", some (.way 14)), ("outer", some (.way 10))]⟩⟩ "outer" =
    some ([⟨14, [], [{ id := 1 }, { id := 2 }, { id := 3 }, { id := 1 }], false⟩, ⟨10, [], [{ id := 1 }, { id := 2 }], false⟩], []) := by
    rfl
  have g2 : getLinestrings areaLines
    ⟨20, [("type", "multipolygon")], ⟨0, [("outer", some (.way 14)), ("outer", some (.way 10))]⟩⟩ "inner" = some ([], []) := by rfl
  simp [loadArea, isType, AMap.get, getOuterRing, getInnerRings, g1, g2, assemble, MLine.toLine, h1, h2, Line.toRef, getAttributes,
    AMap.emplace, AMap.has]

/-- node 2 can not be projected -/
def brokenFile : File Int where
  nodes := [(1, ⟨1, [], 1, 1, 0⟩), (2, ⟨2, [], 200, 1, 0⟩)]
  ways := [(11, ⟨11, [], [1, 2]⟩)]
  relations := []

/-- C35 fails for maps loaded with errors: a linestring has a point that is not in the map -/
theorem made_up_point_counterexample : ∃ m errs, loadMap exEnv brokenFile = some (m, errs) ∧ errs ≠ [] ∧ ¬ SelfContained m := by
  refine ⟨⟨[(1, ⟨1, [], 1001⟩)], [(11, ⟨11, [], [{ id := 1 }, { id := 2, dummy := true }], false⟩)], [], [], [], []⟩,
    [.projection 2, .missing 11 2], rfl, by simp, ?_⟩
  intro h
  have := (h.lines 11 _ rfl { id := 2, dummy := true } (by simp)).1
  cases this

/-- the lanelet refers to way 21 as a regulatory element -/
def wrongTypeFile : File Int where
  nodes := exFile.nodes
  ways := [(11, ⟨11, [], [1, 2]⟩), (12, ⟨12, [], [3, 4]⟩), (21, ⟨21, [], [1, 3]⟩)]
  relations := [
    (20, ⟨20, [("type", "lanelet")],
      ⟨0, [("left", some (.way 11)), ("right", some (.way 12)), ("regulatory_element", some (.way 21))]⟩⟩),
    (21, ⟨21, [("type", "regulatory_element"), ("subtype", "traffic_light")], ⟨0, [("refers", some (.way 11))]⟩⟩)]

/-- the type of a member that is a regulatory element is not checked: the lanelet gets the regulatory element with the id of the
way, without an error -/
theorem regelem_type_counterexample : ∃ m, loadMap exEnv wrongTypeFile = some (m, []) ∧
    (m.lanelets.get 20).map (·.regs) = some [{ id := 21 }] ∧ m.lines.has 21 = true :=
  ⟨_, rfl, rfl, rfl⟩

end Verif.Osm
