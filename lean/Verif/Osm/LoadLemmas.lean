import Verif.Osm.RingProps
import Verif.Osm.WriteProps
import Verif.Osm.Load

/-!
Lemmas about loading maps.
-/
namespace Verif.Osm
open scoped List
variable {P D : Type}

/-! ### the loops -/

theorem has_false_of_not_mem {V : Type} {l : AMap Id V} {i : Id} (h : i ∉ l.map (·.1)) : l.has i = false := by
  rw [Bool.eq_false_iff]
  intro hc
  exact h ((AMap.has_iff_mem ..).mp hc)

/-- what a loop collects -/
def collected {V W : Type} (g : V → Option W × List LoadError) (l : AMap Id V) : AMap Id W × List LoadError :=
  (l.filterMap fun e => (g e.2).1.map fun w => (e.1, w), l.flatMap fun e => (g e.2).2)

theorem collect_eq {V W : Type} {idf : V → Id} {f : V → Option (Option W × List LoadError)} {g : V → Option W × List LoadError}
    {l : AMap Id V} (h : Layer idf l) (hf : ∀ e ∈ l, f e.2 = some (g e.2)) : collect idf f l = some (collected g l) := by
  have key : ∀ (l : AMap Id V) (a : AMap Id W) (errs : List LoadError), Layer idf l → (∀ e ∈ l, f e.2 = some (g e.2)) →
      (∀ e ∈ l, e.1 ∉ a.map (·.1)) →
      l.foldlM (collectStep idf f) (a, errs) = some (a ++ (collected g l).1, errs ++ (collected g l).2) := by
    intro l
    induction l with
    | nil => intro a errs _ _ _; simp [collected]
    | cons e l ih =>
      intro a errs h hf ha
      have hk : idf e.2 = e.1 := h.key e (List.mem_cons_self ..)
      have hne := (List.nodup_cons.mp h.nodup).1
      have hstep : collectStep idf f (a, errs) e =
          some (a ++ ((g e.2).1.map fun w => (e.1, w)).toList, errs ++ (g e.2).2) := by
        unfold collectStep
        rw [hf e (List.mem_cons_self ..)]
        cases hg : (g e.2).1 with
        | none => simp [hg]
        | some w => simp [hg, AMap.emplace, hk, has_false_of_not_mem (ha e (List.mem_cons_self ..))]
      rw [List.foldlM_cons, hstep]
      have := ih (a ++ ((g e.2).1.map fun w => (e.1, w)).toList) (errs ++ (g e.2).2) h.tail
        (fun x hx => hf x (List.mem_cons_of_mem _ hx)) (by
          intro x hx hc
          rw [List.map_append, List.mem_append] at hc
          rcases hc with hc | hc
          · exact ha x (List.mem_cons_of_mem _ hx) hc
          · cases hg : (g e.2).1 with
            | none => rw [hg] at hc; simp at hc
            | some w =>
              rw [hg] at hc
              have hxe : x.1 = e.1 := by simpa using hc
              exact hne (List.mem_map.mpr ⟨x, hx, hxe⟩))
      simp only [bind, Option.bind]
      rw [this]
      simp only [collected, List.filterMap_cons, List.flatMap_cons]
      cases (g e.2).1 <;> simp
  unfold collect
  rw [key l [] [] h hf (by simp)]
  simp

theorem get_filterMap {V W : Type} (g : V → Option W) : ∀ {l : AMap Id V}, (l.map (·.1)).Nodup → ∀ i,
    AMap.get (l.filterMap fun e => (g e.2).map fun w => (e.1, w)) i = (l.get i).bind g
  | [], _, i => rfl
  | e :: l, h, i => by
    obtain ⟨h1, h2⟩ := List.nodup_cons.mp h
    have ih := get_filterMap g h2 i
    rw [List.filterMap_cons, AMap.get_cons]
    by_cases hi : e.1 = i
    · rw [if_pos hi]
      cases hg : g e.2 with
      | none =>
        simp only [Option.map_none, Option.bind_some, hg]
        rw [ih]
        have : AMap.get l i = none := by
          cases hh : AMap.get l i with
          | none => rfl
          | some v =>
            exact absurd (List.mem_map_of_mem (f := (·.1)) (AMap.mem_of_get hh)) (hi ▸ h1)
        rw [this]; rfl
      | some w => simp [AMap.get_cons, hi, hg]
    · rw [if_neg hi]
      cases hg : g e.2 with
      | none => simpa using ih
      | some w => simpa [AMap.get_cons, hi] using ih

theorem get_collected {V W : Type} (g : V → Option W × List LoadError) {l : AMap Id V} (h : (l.map (·.1)).Nodup) (i : Id) :
    (collected g l).1.get i = (l.get i).bind fun v => (g v).1 := get_filterMap (fun v => (g v).1) h i

theorem nodup_collected {V W : Type} (g : V → Option W × List LoadError) {l : AMap Id V} (h : (l.map (·.1)).Nodup) :
    ((collected g l).1.map (·.1)).Nodup := by
  have : (collected g l).1.map (·.1) <+ l.map (·.1) := by
    unfold collected
    simp only
    rw [List.map_filterMap]
    have : (l.filterMap fun a => ((g a.2).1.map fun w => (a.1, w)).map (·.1)) = (l.filter fun a => (g a.2).1.isSome).map (·.1) := by
      rw [← List.filterMap_eq_map, ← List.filterMap_eq_filter, List.filterMap_filterMap]
      apply filterMap_congr'
      intro a _
      cases hg : (g a.2).1 <;> simp [Option.guard, hg]
    rw [this]
    exact (List.filter_sublist ..).map _
  exact this.nodup h

/-! ### the file -/

/-- what a file from `read` or `writeMap` fulfils: pointers are valid -/
structure FileOk (f : File D) : Prop where
  nodes : Layer (·.id) f.nodes
  ways : Layer (·.id) f.ways
  relations : Layer (·.id) f.relations
  nodeAttrs : ∀ e ∈ f.nodes, e.2.attrs.Ok
  wayAttrs : ∀ e ∈ f.ways, e.2.attrs.Ok
  relationAttrs : ∀ e ∈ f.relations, e.2.attrs.Ok
  members : ∀ e ∈ f.relations, ∀ x ∈ e.2.members.items, ∃ t, x.2 = some t ∧ ∀ i, t = .relation i → f.relations.has i = true

/-- the members with a role -/
def roleMembers (role : String) (r : Relation) : List Target := r.members.items.filterMap fun x => if x.1 = role then x.2 else none

/-- no null pointers -/
def NonNull (r : Relation) : Prop := ∀ x ∈ r.members.items, ∃ t, x.2 = some t

theorem membersWith_eq {r : Relation} (h : NonNull r) (role : String) :
    membersWith role r = (roleMembers role r).map fun t => (role, some t) := by
  unfold membersWith roleMembers
  obtain ⟨id, attrs, b, items⟩ := r
  unfold NonNull at h
  simp only at h ⊢
  induction items with
  | nil => rfl
  | cons x xs ih =>
    obtain ⟨t, ht⟩ := h x (List.mem_cons_self ..)
    have ih := ih fun y hy => h y (List.mem_cons_of_mem _ hy)
    obtain ⟨role', t'⟩ := x
    simp only at ht
    subst ht
    by_cases hr : role' = role
    · subst hr; simp [ih]
    · simp [hr, ih]

/-! ### ways -/

/-- references to points of ways -/
def pointRefs (points : AMap Id (MPoint P)) (w : Way) : List Ref := w.nodes.map fun n => (getOrDummy points n w.id).1

/-- Specification: the errors about a way. -/
def wayErrors (points : AMap Id (MPoint P)) (w : Way) : List LoadError :=
  (w.nodes.flatMap fun n => (getOrDummy points n w.id).2) ++ if w.nodes.isEmpty then [.emptyWay w.id] else []

/-- Specification: the linestring for a way. -/
def loadedLine (env : Env P D) (points : AMap Id (MPoint P)) (w : Way) : Option MLine :=
  if w.nodes ≠ [] ∧ isArea env w.attrs = false then some ⟨w.id, w.attrs, pointRefs points w, false⟩ else none

/-- Specification: the polygon for a way. -/
def loadedPoly (env : Env P D) (points : AMap Id (MPoint P)) (w : Way) : Option MPoly :=
  if w.nodes ≠ [] ∧ isArea env w.attrs = true then some ⟨w.id, w.attrs, pointRefs points w⟩ else none

theorem loadWays_eq (env : Env P D) (points : AMap Id (MPoint P)) {ways : AMap Id Way} (h : Layer (·.id) ways)
    (ha : ∀ e ∈ ways, e.2.attrs.Ok) :
    loadWays env points ways = (ways.filterMap fun e => (loadedLine env points e.2).map fun w => (e.1, w),
      ways.filterMap fun e => (loadedPoly env points e.2).map fun w => (e.1, w), ways.flatMap fun e => wayErrors points e.2) := by
  have key : ∀ (l : AMap Id Way) (a : AMap Id MLine) (b : AMap Id MPoly) (errs : List LoadError), Layer (·.id) l →
      (∀ e ∈ l, e.2.attrs.Ok) → (∀ e ∈ l, e.1 ∉ a.map (·.1)) → (∀ e ∈ l, e.1 ∉ b.map (·.1)) →
      l.foldl (fun s e => loadWay env points s e.2) (a, b, errs) =
        (a ++ l.filterMap fun e => (loadedLine env points e.2).map fun w => (e.1, w),
         b ++ l.filterMap fun e => (loadedPoly env points e.2).map fun w => (e.1, w),
         errs ++ l.flatMap fun e => wayErrors points e.2) := by
    intro l
    induction l with
    | nil => intro a b errs _ _ _ _; simp
    | cons e l ih =>
      intro a b errs h hat ha hb
      have hk : e.2.id = e.1 := h.key e (List.mem_cons_self ..)
      have hne := (List.nodup_cons.mp h.nodup).1
      have hstep : loadWay env points (a, b, errs) e.2 =
          (a ++ ((loadedLine env points e.2).map fun w => (e.1, w)).toList,
           b ++ ((loadedPoly env points e.2).map fun w => (e.1, w)).toList, errs ++ wayErrors points e.2) := by
        unfold loadWay
        rw [getAttributes_eq (hat e (List.mem_cons_self ..))]
        simp only [AMap.emplace, hk, has_false_of_not_mem (ha e (List.mem_cons_self ..)),
          has_false_of_not_mem (hb e (List.mem_cons_self ..))]
        unfold loadedLine loadedPoly wayErrors pointRefs
        cases hn : e.2.nodes with
        | nil => simp [hk]
        | cons n ns =>
          cases hi : isArea env e.2.attrs <;> simp [hk, List.flatMap_map, List.map_map, Function.comp_def]
      rw [List.foldl_cons, hstep]
      have hrest : ∀ {W : Type} (c : AMap Id W) (o : Option W), (∀ x ∈ e :: l, x.1 ∉ c.map (·.1)) →
          ∀ x ∈ l, x.1 ∉ (c ++ (o.map fun w => (e.1, w)).toList).map (·.1) := by
        intro W c o hc x hx hm
        rw [List.map_append, List.mem_append] at hm
        rcases hm with hm | hm
        · exact hc x (List.mem_cons_of_mem _ hx) hm
        · cases o with
          | none => simp at hm
          | some w =>
            have hxe : x.1 = e.1 := by simpa using hm
            exact hne (List.mem_map.mpr ⟨x, hx, hxe⟩)
      rw [ih _ _ _ h.tail (fun x hx => hat x (List.mem_cons_of_mem _ hx)) (hrest a _ ha) (hrest b _ hb)]
      simp only [List.filterMap_cons, List.flatMap_cons, List.append_assoc]
      cases loadedLine env points e.2 <;> cases loadedPoly env points e.2 <;> simp
  unfold loadWays
  rw [key ways [] [] [] h ha (by simp) (by simp)]
  simp

/-! ### members -/

/-- the bound with a role -/
def borderOf (lines : AMap Id MLine) (r : Relation) (role : String) : Ref × List LoadError :=
  match roleMembers role r with
  | [.way i] => getOrDummy lines i r.id
  | [_] => ({ id := r.id, dummy := true }, [.borderType r.id role])
  | _ => ({ id := r.id, dummy := true }, [.borderCount r.id role])

theorem getLaneletBorder_eq (lines : AMap Id MLine) {r : Relation} (h : NonNull r) (role : String) :
    getLaneletBorder lines r role = some (borderOf lines r role) := by
  unfold getLaneletBorder borderOf
  rw [membersWith_eq h]
  match roleMembers role r with
  | [] => rfl
  | [.way i] => rfl
  | [.node i] => rfl
  | [.relation i] => rfl
  | a :: b :: _ => cases a <;> rfl

/-- the optional centerline -/
def centerOf (lines : AMap Id MLine) (r : Relation) : Option Ref × List LoadError :=
  if (roleMembers "centerline" r).isEmpty then (none, [])
  else (some (borderOf lines r "centerline").1, (borderOf lines r "centerline").2)

theorem getCenterline_eq (lines : AMap Id MLine) {r : Relation} (h : NonNull r) :
    getCenterline lines r = some (centerOf lines r) := by
  unfold getCenterline centerOf
  rw [getLaneletBorder_eq lines h, membersWith_eq h]
  cases hm : roleMembers "centerline" r <;> simp

/-- the lanelet of a relation, without regulatory elements -/
def laneletOf (env : Env P D) (points : AMap Id (MPoint P)) (lines : AMap Id MLine) (r : Relation) :
    Option MLanelet × List LoadError :=
  if isType "lanelet" r then
    let b := align env points lines (borderOf lines r "left").1 (borderOf lines r "right").1
    (some ⟨r.id, r.attrs, b.1, b.2, (centerOf lines r).1, []⟩,
      (borderOf lines r "left").2 ++ (borderOf lines r "right").2 ++ (centerOf lines r).2)
  else (none, [])

theorem loadLanelet_eq (env : Env P D) (points : AMap Id (MPoint P)) (lines : AMap Id MLine) {r : Relation} (h : NonNull r)
    (ha : r.attrs.Ok) : loadLanelet env points lines r = some (laneletOf env points lines r) := by
  unfold loadLanelet laneletOf
  rw [getLaneletBorder_eq lines h, getLaneletBorder_eq lines h, getCenterline_eq lines h, getAttributes_eq ha]
  split <;> rfl

/-- the linestrings with a role, in order -/
def roleLines (lines : AMap Id MLine) (r : Relation) (role : String) : List MLine :=
  (roleMembers role r).filterMap fun t => match t with
    | .way i => lines.get i
    | _ => none

/-- Specification: the errors about a member that should be a linestring. -/
def lineError (lines : AMap Id MLine) (area : Id) (t : Target) : List LoadError :=
  match t with
  | .way i => if lines.has i then [] else [.missing area i]
  | t => [.ringType area t.id]

/-- Specification: the errors about the linestrings of a role. -/
def roleLineErrors (lines : AMap Id MLine) (r : Relation) (role : String) : List LoadError :=
  (roleMembers role r).flatMap (lineError lines r.id)

theorem getLinestrings_eq (lines : AMap Id MLine) {r : Relation} (h : NonNull r) (role : String) :
    getLinestrings lines r role = some (roleLines lines r role, roleLineErrors lines r role) := by
  unfold getLinestrings roleLines roleLineErrors
  rw [membersWith_eq h]
  have key : ∀ (ts : List Target) (a : List MLine) (e : List LoadError),
      (ts.map fun t => (role, some t)).foldlM (getLinestring lines r.id) (a, e) =
      some (a ++ ts.filterMap (fun t => match t with
        | .way i => lines.get i
        | _ => none), e ++ ts.flatMap (lineError lines r.id)) := by
    intro ts
    induction ts with
    | nil => intro a e; simp
    | cons t ts ih =>
      intro a e
      rw [List.map_cons, List.foldlM_cons]
      cases t with
      | way i =>
        cases hg : lines.get i with
        | some l =>
          simp only [getLinestring, hg, bind, Option.bind]
          rw [ih]
          simp [lineError, AMap.has_eq, hg]
        | none =>
          simp only [getLinestring, hg, bind, Option.bind]
          rw [ih]
          simp [lineError, AMap.has_eq, hg]
      | node i =>
        simp only [getLinestring, bind, Option.bind]
        rw [ih]
        simp [lineError]
      | relation i =>
        simp only [getLinestring, bind, Option.bind]
        rw [ih]
        simp [lineError]
  rw [key]
  simp

/-- loading always succeeds for the rings -/
def ringsOf (env : Env P D) (points : AMap Id (MPoint P)) (ls : List MLine) : List (List Line) × List RingError :=
  (assembleBoundary (ringValid env points) (ls.map MLine.toLine)).getD ([], [])

theorem assembleBoundary_eq (env : Env P D) (points : AMap Id (MPoint P)) {ls : List MLine} (h : ∀ l ∈ ls, l.pts ≠ []) :
    assembleBoundary (ringValid env points) (ls.map MLine.toLine) = some (ringsOf env points ls) := by
  have hp : ∀ l ∈ ls.map MLine.toLine, l.pts ≠ [] := by
    intro l hl
    obtain ⟨x, hx, rfl⟩ := List.mem_map.mp hl
    have := h x hx
    simpa [MLine.toLine] using this
  obtain ⟨rings, errs, unused, h1, -⟩ := assembleBoundary_spec_partial (ringValid env points) (ls.map MLine.toLine) hp
  unfold ringsOf
  rw [h1]; rfl

/-- the area of a relation, without regulatory elements -/
def areaOf (env : Env P D) (points : AMap Id (MPoint P)) (lines : AMap Id MLine) (r : Relation) : Option MArea × List LoadError :=
  if isType "multipolygon" r then
    let outerErrs := roleLineErrors lines r "outer"
    let outer := ringsOf env points (roleLines lines r "outer")
    let inner := ringsOf env points (roleLines lines r "inner")
    if (roleLines lines r "outer").isEmpty then (none, outerErrs ++ [.noOuter r.id])
    else match outer.1 with
      | [ring] =>
        if ring.isEmpty then (none, outerErrs ++ outer.2.map (.ring r.id))
        else (some ⟨r.id, r.attrs, ring.map Line.toRef, inner.1.map fun x => x.map Line.toRef, []⟩,
          outerErrs ++ outer.2.map (.ring r.id) ++ (roleLineErrors lines r "inner" ++ inner.2.map (.ring r.id)))
      | _ => (none, outerErrs ++ outer.2.map (.ring r.id) ++ [.outerRings r.id])
  else (none, [])

theorem loadArea_eq (env : Env P D) (points : AMap Id (MPoint P)) {lines : AMap Id MLine} {r : Relation} (h : NonNull r)
    (ha : r.attrs.Ok) (hl : ∀ e ∈ lines, e.2.pts ≠ []) : loadArea env points lines r = some (areaOf env points lines r) := by
  have hpts : ∀ role, ∀ l ∈ roleLines lines r role, l.pts ≠ [] := by
    intro role l hm
    obtain ⟨t, _, ht⟩ := List.mem_filterMap.mp hm
    cases t with
    | way i => exact hl _ (AMap.mem_of_get ht)
    | node i => cases ht
    | relation i => cases ht
  unfold loadArea areaOf getOuterRing getInnerRings assemble
  rw [getLinestrings_eq lines h, getLinestrings_eq lines h, getAttributes_eq ha]
  simp only [bind, Option.bind, assembleBoundary_eq env points (hpts _)]
  by_cases ht : isType "multipolygon" r = true
  · simp only [ht, if_true]
    by_cases he : (roleLines lines r "outer").isEmpty = true
    · simp [he]
    · simp only [he]
      match hr : (ringsOf env points (roleLines lines r "outer")).1 with
      | [] => simp
      | [ring] =>
        cases ring with
        | nil => simp
        | cons x xs => simp
      | _ :: _ :: _ => simp
  · simp [ht]

/-! ### regulatory elements -/

/-- the parameter for a member -/
def paramOf (s : Layers P) (reg : Id) (t : Target) : Option Param × List LoadError := (getParam s reg t).getD (none, [])

theorem getParam_eq {s : Layers P} {reg : Id} {t : Target} (h : ∀ i, t = .relation i → s.relations.has i = true) :
    getParam s reg t = some (paramOf s reg t) := by
  unfold paramOf
  cases t with
  | node i => rfl
  | way i => simp only [getParam]; split <;> rfl
  | relation i =>
    have hh := h i rfl
    rw [AMap.has_eq] at hh
    obtain ⟨m, hm⟩ := Option.isSome_iff_exists.mp hh
    simp only [getParam, hm, bind, Option.bind]
    cases m.attrs.get "type" with
    | none => rfl
    | some type =>
      simp only []
      split
      · rfl
      · split
        · rfl
        · split <;> rfl

/-- the parameters with their roles, in the order of the members -/
def ruleList (s : Layers P) (r : Relation) : List (String × Param) :=
  r.members.items.filterMap fun x => x.2.bind fun t => (paramOf s r.id t).1.map fun p => (x.1, p)

/-- Specification: parameters by role. -/
def groupParams (l : List (String × Param)) : AMap String (List Param) := l.foldl (fun a x => pushParam a x.1 x.2) []

/-- Specification: the errors about the members of a regulatory element. -/
def ruleErrors (s : Layers P) (r : Relation) : List LoadError :=
  r.members.items.flatMap fun x => match x.2 with
    | some t => (paramOf s r.id t).2
    | none => []

theorem getRules_eq {s : Layers P} {r : Relation}
    (h : ∀ x ∈ r.members.items, ∃ t, x.2 = some t ∧ ∀ i, t = .relation i → s.relations.has i = true) :
    getRules s r = some (groupParams (ruleList s r), ruleErrors s r) := by
  unfold getRules groupParams ruleList ruleErrors
  obtain ⟨id, attrs, b, items⟩ := r
  simp only at h ⊢
  have key : ∀ (items : List (String × Option Target)) (a : AMap String (List Param)) (e : List LoadError),
      (∀ x ∈ items, ∃ t, x.2 = some t ∧ ∀ i, t = .relation i → s.relations.has i = true) →
      items.foldlM (getRule s id) (a, e) =
      some ((items.filterMap fun x => x.2.bind fun t => (paramOf s id t).1.map fun p => (x.1, p)).foldl
          (fun a x => pushParam a x.1 x.2) a,
        e ++ items.flatMap fun x => match x.2 with
          | some t => (paramOf s id t).2
          | none => []) := by
    intro items
    induction items with
    | nil => intro a e _; simp
    | cons x items ih =>
      intro a e h
      obtain ⟨t, ht, hr⟩ := h x (List.mem_cons_self ..)
      obtain ⟨role, o⟩ := x
      simp only at ht
      subst ht
      have hstep : getRule s id (a, e) (role, some t) = some (match (paramOf s id t).1 with
          | some p => pushParam a role p
          | none => a, e ++ (paramOf s id t).2) := by
        unfold getRule
        simp only [bind, Option.bind, getParam_eq hr]
        cases (paramOf s id t).1 <;> rfl
      rw [List.foldlM_cons, hstep]
      rw [Option.bind_eq_bind, Option.bind_some, ih _ _ fun y hy => h y (List.mem_cons_of_mem _ hy)]
      simp only [List.filterMap_cons, List.flatMap_cons, Option.bind_some]
      cases (paramOf s id t).1 <;> simp
  rw [key items [] [] h]
  simp

theorem get_pushParam (a : AMap String (List Param)) (role role' : String) (p : Param) :
    (pushParam a role p).get role' = if role' = role then some ((a.get role).getD [] ++ [p]) else a.get role' := by
  unfold pushParam
  rw [AMap.get_modify, AMap.get_emplace, AMap.get_emplace]
  by_cases h : role' = role <;> simp [h]

/-- no entry for an empty list -/
def nonEmpty {α : Type} (l : List α) : Option (List α) := if l.isEmpty then none else some l

theorem get_groupParams (l : List (String × Param)) (role : String) :
    (groupParams l).get role = nonEmpty (l.filterMap fun x => if x.1 = role then some x.2 else none) := by
  have key : ∀ (l : List (String × Param)) (a : AMap String (List Param)),
      (l.foldl (fun a x => pushParam a x.1 x.2) a).get role =
      match l.filterMap fun x => if x.1 = role then some x.2 else none with
      | [] => a.get role
      | y :: ys => some ((a.get role).getD [] ++ y :: ys) := by
    intro l
    induction l with
    | nil => intro a; rfl
    | cons x l ih =>
      intro a
      rw [List.foldl_cons, ih, get_pushParam, List.filterMap_cons]
      by_cases hx : x.1 = role
      · have hx' : role = x.1 := hx.symm
        simp only [hx, if_true]
        cases l.filterMap fun x => if x.1 = role then some x.2 else none <;> simp
      · have hx' : ¬ role = x.1 := fun h => hx h.symm
        simp only [hx, hx', if_false]
  unfold groupParams
  rw [key]
  cases l.filterMap fun x => if x.1 = role then some x.2 else none <;> simp [nonEmpty]

theorem nodup_groupParams (l : List (String × Param)) : ((groupParams l).map (·.1)).Nodup := by
  have key : ∀ (l : List (String × Param)) (a : AMap String (List Param)), (a.map (·.1)).Nodup →
      ((l.foldl (fun a x => pushParam a x.1 x.2) a).map (·.1)).Nodup := by
    intro l
    induction l with
    | nil => intro a h; exact h
    | cons x l ih =>
      intro a h
      apply ih
      unfold pushParam
      rw [AMap.keys_modify]
      exact AMap.nodup_emplace _ _ _ h
  exact key l [] (by simp)

/-- the regulatory element of a relation -/
def regOf (env : Env P D) (s : Layers P) (r : Relation) : Option MReg × List LoadError :=
  if isType "regulatory_element" r then
    match r.attrs.get "subtype" with
    | none => (none, [.noSubtype r.id])
    | some type => match factoryCreate env type ⟨r.id, r.attrs, groupParams (ruleList s r)⟩ with
      | some reg => (some reg, ruleErrors s r)
      | none => (none, ruleErrors s r ++ [.create r.id])
  else (none, [])

theorem loadReg_eq (env : Env P D) {s : Layers P} {r : Relation} (ha : r.attrs.Ok)
    (h : ∀ x ∈ r.members.items, ∃ t, x.2 = some t ∧ ∀ i, t = .relation i → s.relations.has i = true) :
    loadReg env s r = some (regOf env s r) := by
  unfold loadReg regOf
  rw [getAttributes_eq ha, getRules_eq h]
  by_cases ht : isType "regulatory_element" r = true
  · simp only [ht, if_true]
    cases r.attrs.get "subtype" with
    | none => rfl
    | some type =>
      simp only [bind, Option.bind]
      cases factoryCreate env type ⟨r.id, r.attrs, groupParams (ruleList s r)⟩ <;> rfl
  · simp [ht]

/-! ### regulatory elements of lanelets and areas -/

/-- references to the regulatory elements of a relation -/
def regRefs (regs : AMap Id MReg) (r : Relation) : List Ref :=
  (roleMembers "regulatory_element" r).map fun t => (getOrDummy regs t.id r.id).1

/-- Specification: the errors about references to regulatory elements. -/
def regRefErrors (regs : AMap Id MReg) (r : Relation) : List LoadError :=
  (roleMembers "regulatory_element" r).flatMap fun t => (getOrDummy regs t.id r.id).2

theorem modify_modify {V : Type} (l : AMap Id V) (i : Id) (f g : V → V) :
    (l.modify i f).modify i g = l.modify i fun v => g (f v) := by
  unfold AMap.modify
  rw [List.map_map]
  apply List.map_congr_left
  intro e _
  simp only [Function.comp]
  by_cases h : e.1 = i <;> simp [h]

theorem modify_id {V : Type} (l : AMap Id V) (i : Id) : (l.modify i fun v => v) = l := by
  unfold AMap.modify
  conv => rhs; rw [← List.map_id l]
  apply List.map_congr_left
  intro e _
  split <;> rfl

theorem addRegs_eq {V : Type} (regs : AMap Id MReg) (add : V → Ref → V) (s : AMap Id V × List LoadError) {r : Relation}
    (h : NonNull r) :
    addRegs regs add s r = some (s.1.modify r.id fun v => (regRefs regs r).foldl add v, s.2 ++ regRefErrors regs r) := by
  unfold addRegs regRefs regRefErrors
  rw [membersWith_eq h]
  obtain ⟨l, e⟩ := s
  generalize roleMembers "regulatory_element" r = ts
  induction ts generalizing l e with
  | nil => simp [modify_id]
  | cons t ts ih =>
    rw [List.map_cons, List.foldlM_cons]
    simp only [bind, Option.bind, pure] at ih ⊢
    rw [ih, modify_modify]
    simp

theorem addRegs_fold {V : Type} (regs : AMap Id MReg) (add : V → Ref → V) : ∀ (rs : AMap Id Relation) (l : AMap Id V)
    (e : List LoadError), Layer (·.id) rs → (∀ x ∈ rs, NonNull x.2) →
    ∃ l', rs.foldlM (fun s x => addRegs regs add s x.2) (l, e) = some (l', e ++ rs.flatMap fun x => regRefErrors regs x.2) ∧
      l'.map (·.1) = l.map (·.1) ∧
      ∀ i, l'.get i = (l.get i).map fun v => match rs.get i with
        | some r => (regRefs regs r).foldl add v
        | none => v := by
  intro rs
  induction rs with
  | nil =>
    intro l e _ _
    refine ⟨l, by simp, rfl, fun i => ?_⟩
    simp
  | cons x rs ih =>
    intro l e h hn
    have hk : x.2.id = x.1 := h.key x (List.mem_cons_self ..)
    obtain ⟨l', h1, h2, h3⟩ := ih (l.modify x.2.id fun v => (regRefs regs x.2).foldl add v) (e ++ regRefErrors regs x.2) h.tail
      fun y hy => hn y (List.mem_cons_of_mem _ hy)
    refine ⟨l', ?_, ?_, fun i => ?_⟩
    · rw [List.foldlM_cons, addRegs_eq regs add _ (hn x (List.mem_cons_self ..))]
      simp only [bind, Option.bind]
      rw [h1]
      simp
    · rw [h2, AMap.keys_modify]
    · rw [h3, AMap.get_modify, hk, AMap.get_cons]
      by_cases hi : i = x.1
      · subst hi
        have hno : AMap.get rs x.1 = none := by
          cases hg : AMap.get rs x.1 with
          | none => rfl
          | some v =>
            exact absurd (List.mem_map_of_mem (f := (·.1)) (AMap.mem_of_get hg)) (List.nodup_cons.mp h.nodup).1
        simp [hno, Function.comp_def]
      · have hi' : ¬ x.1 = i := fun q => hi q.symm
        simp [hi, hi']

theorem get_filter {V : Type} (p : V → Bool) : ∀ {l : AMap Id V}, (l.map (·.1)).Nodup → ∀ i,
    AMap.get (l.filter fun e => p e.2) i = (l.get i).filter p := by
  intro l h i
  have := get_filterMap (fun v => if p v then some v else none) h i
  have e1 : (l.filterMap fun e => (if p e.2 then some e.2 else none).map fun w => (e.1, w)) = l.filter fun e => p e.2 := by
    rw [← List.filterMap_eq_filter]
    apply filterMap_congr'
    intro e _
    by_cases hp : p e.2 = true <;> simp [hp, Option.guard]
  rw [e1] at this
  rw [this]
  cases hg : l.get i with
  | none => rfl
  | some v => by_cases hp : p v = true <;> simp [hp, Option.filter]

theorem addRegulatoryElements_eq {V : Type} (type : String) (regs : AMap Id MReg) (add : V → Ref → V) {relations : AMap Id Relation}
    (layer : AMap Id V) (h : Layer (·.id) relations) (hn : ∀ x ∈ relations, NonNull x.2)
    (hl : ∀ i, layer.has i = true → ∃ r, relations.get i = some r ∧ isType type r = true) :
    ∃ l', addRegulatoryElements type regs add relations layer = some (l',
        (relations.filter fun e => isType type e.2 && layer.has e.2.id).flatMap fun x => regRefErrors regs x.2) ∧
      l'.map (·.1) = layer.map (·.1) ∧
      ∀ i, l'.get i = (layer.get i).map fun v => match relations.get i with
        | some r => (regRefs regs r).foldl add v
        | none => v := by
  have hL : Layer (·.id) (relations.filter fun e => isType type e.2 && layer.has e.2.id) :=
    ⟨((List.filter_sublist ..).map _).nodup h.nodup, fun e he => h.key e (List.mem_of_mem_filter he)⟩
  obtain ⟨l', h1, h2, h3⟩ := addRegs_fold regs add _ layer [] hL fun x hx => hn x (List.mem_of_mem_filter hx)
  refine ⟨l', ?_, h2, fun i => ?_⟩
  · unfold addRegulatoryElements
    rw [h1]; simp
  · rw [h3, get_filter (fun r => isType type r && layer.has r.id) h.nodup]
    cases hg : layer.get i with
    | none => rfl
    | some v =>
      have hh : layer.has i = true := by rw [AMap.has_eq, hg]; rfl
      obtain ⟨r, hr, ht⟩ := hl i hh
      have hk : r.id = i := h.key _ (AMap.mem_of_get hr)
      simp [hr, ht, hk, hh, Option.filter]

/-! ### the whole file -/

section parts
variable (env : Env P D) (file : File D)

/-- the layers of the map that is loaded, before regulatory elements are added -/
def pointsOf : AMap Id (MPoint P) × List LoadError := collected (loadNode env) file.nodes

/-- Specification: the linestrings of a file. -/
def linesOf : AMap Id MLine :=
  file.ways.filterMap fun e => (loadedLine env (pointsOf env file).1 e.2).map fun w => (e.1, w)

/-- Specification: the polygons of a file. -/
def polysOf : AMap Id MPoly :=
  file.ways.filterMap fun e => (loadedPoly env (pointsOf env file).1 e.2).map fun w => (e.1, w)

/-- Specification: the lanelets of a file. -/
def laneletsOf : AMap Id MLanelet × List LoadError :=
  collected (laneletOf env (pointsOf env file).1 (linesOf env file)) file.relations

/-- Specification: the areas of a file. -/
def areasOf : AMap Id MArea × List LoadError :=
  collected (areaOf env (pointsOf env file).1 (linesOf env file)) file.relations

/-- Specification: the layers before the regulatory elements. -/
def layersOf : Layers P :=
  ⟨file.relations, (pointsOf env file).1, linesOf env file, polysOf env file, (laneletsOf env file).1, (areasOf env file).1⟩

/-- Specification: the regulatory elements of a file. -/
def regsOf : AMap Id MReg × List LoadError := collected (regOf env (layersOf env file)) file.relations

/-- Specification: all errors about a file. -/
def loadErrors : List LoadError :=
  (pointsOf env file).2 ++ (file.ways.flatMap fun e => wayErrors (pointsOf env file).1 e.2) ++ (laneletsOf env file).2 ++
    (areasOf env file).2 ++ (regsOf env file).2 ++
    ((file.relations.filter fun e => isType "lanelet" e.2 && (laneletsOf env file).1.has e.2.id).flatMap fun x =>
      regRefErrors (regsOf env file).1 x.2) ++
    ((file.relations.filter fun e => isType "multipolygon" e.2 && (areasOf env file).1.has e.2.id).flatMap fun x =>
      regRefErrors (regsOf env file).1 x.2)

end parts

theorem foldl_push {α : Type} (l : List α) : ∀ a : List α, l.foldl (fun x y => x ++ [y]) a = a ++ l := by
  induction l with
  | nil => intro a; simp
  | cons y l ih => intro a; simp [ih]

theorem addLaneletRegs (rs : List Ref) : ∀ l : MLanelet,
    rs.foldl (fun (l : MLanelet) r => { l with regs := l.regs ++ [r] }) l = { l with regs := l.regs ++ rs } := by
  induction rs with
  | nil => intro l; simp
  | cons r rs ih => intro l; rw [List.foldl_cons, ih]; simp

theorem addAreaRegs (rs : List Ref) : ∀ l : MArea,
    rs.foldl (fun (l : MArea) r => { l with regs := l.regs ++ [r] }) l = { l with regs := l.regs ++ rs } := by
  induction rs with
  | nil => intro l; simp
  | cons r rs ih => intro l; rw [List.foldl_cons, ih]; simp

theorem pointRefs_ne_nil {points : AMap Id (MPoint P)} {w : Way} (h : w.nodes ≠ []) : pointRefs points w ≠ [] := by
  unfold pointRefs
  simpa using h

theorem linesOf_ne (env : Env P D) (file : File D) : ∀ e ∈ linesOf env file, e.2.pts ≠ [] := by
  intro e he
  obtain ⟨w, _, hw⟩ := List.mem_filterMap.mp he
  obtain ⟨l, hl, rfl⟩ := Option.map_eq_some_iff.mp hw
  unfold loadedLine at hl
  split at hl
  · rename_i hc
    obtain rfl := Option.some.inj hl
    exact pointRefs_ne_nil hc.1
  · cases hl

theorem loadMap_eq (env : Env P D) {file : File D} (h : FileOk file) :
    ∃ lanelets areas, loadMap env file = some (⟨(pointsOf env file).1, linesOf env file, polysOf env file, lanelets, areas,
        (regsOf env file).1⟩, loadErrors env file) ∧
      lanelets.map (·.1) = (laneletsOf env file).1.map (·.1) ∧
      areas.map (·.1) = (areasOf env file).1.map (·.1) ∧
      (∀ i, lanelets.get i = (file.relations.get i).bind fun r =>
        (laneletOf env (pointsOf env file).1 (linesOf env file) r).1.map fun l => { l with regs := regRefs (regsOf env file).1 r }) ∧
      (∀ i, areas.get i = (file.relations.get i).bind fun r =>
        (areaOf env (pointsOf env file).1 (linesOf env file) r).1.map fun l => { l with regs := regRefs (regsOf env file).1 r }) := by
  have hn : ∀ x ∈ file.relations, NonNull x.2 := by
    intro x hx y hy
    obtain ⟨t, ht, _⟩ := h.members x hx y hy
    exact ⟨t, ht⟩
  have h1 : loadNodes env file.nodes = some (pointsOf env file) := collect_eq h.nodes fun e _ => rfl
  have h2 := loadWays_eq env (pointsOf env file).1 h.ways h.wayAttrs
  have h3 : collect (·.id) (loadLanelet env (pointsOf env file).1 (linesOf env file)) file.relations =
      some (laneletsOf env file) := collect_eq h.relations fun e he => loadLanelet_eq env _ _ (hn e he) (h.relationAttrs e he)
  have h4 : collect (·.id) (loadArea env (pointsOf env file).1 (linesOf env file)) file.relations =
      some (areasOf env file) :=
    collect_eq h.relations fun e he => loadArea_eq env _ (hn e he) (h.relationAttrs e he) (linesOf_ne env file)
  have h5 : collect (·.id) (loadReg env (layersOf env file)) file.relations = some (regsOf env file) :=
    collect_eq h.relations fun e he => loadReg_eq env (h.relationAttrs e he) (h.members e he)
  have hll : ∀ i, (laneletsOf env file).1.has i = true → ∃ r, file.relations.get i = some r ∧ isType "lanelet" r = true := by
    intro i hi
    rw [AMap.has_eq, laneletsOf, get_collected _ h.relations.nodup] at hi
    cases hg : file.relations.get i with
    | none => rw [hg] at hi; cases hi
    | some r =>
      refine ⟨r, rfl, ?_⟩
      rw [hg] at hi
      simp only [Option.bind_some, laneletOf] at hi
      by_contra hc
      rw [if_neg hc] at hi
      cases hi
  have har : ∀ i, (areasOf env file).1.has i = true → ∃ r, file.relations.get i = some r ∧ isType "multipolygon" r = true := by
    intro i hi
    rw [AMap.has_eq, areasOf, get_collected _ h.relations.nodup] at hi
    cases hg : file.relations.get i with
    | none => rw [hg] at hi; cases hi
    | some r =>
      refine ⟨r, rfl, ?_⟩
      rw [hg] at hi
      simp only [Option.bind_some, areaOf] at hi
      by_contra hc
      rw [if_neg hc] at hi
      cases hi
  obtain ⟨l', g1, g2, g3⟩ := addRegulatoryElements_eq "lanelet" (regsOf env file).1
    (fun (l : MLanelet) r => { l with regs := l.regs ++ [r] }) (laneletsOf env file).1 h.relations hn hll
  obtain ⟨a', k1, k2, k3⟩ := addRegulatoryElements_eq "multipolygon" (regsOf env file).1
    (fun (l : MArea) r => { l with regs := l.regs ++ [r] }) (areasOf env file).1 h.relations hn har
  refine ⟨l', a', ?_, g2, k2, fun i => ?_, fun i => ?_⟩
  · unfold loadMap
    rw [h1]
    simp only [bind, Option.bind, h2]
    have e3 : (collect (fun x => x.id) (loadLanelet env (pointsOf env file).1
      (file.ways.filterMap fun e => (loadedLine env (pointsOf env file).1 e.2).map fun w => (e.1, w))) file.relations) =
      some (laneletsOf env file) := h3
    have e4 : (collect (fun x => x.id) (loadArea env (pointsOf env file).1
      (file.ways.filterMap fun e => (loadedLine env (pointsOf env file).1 e.2).map fun w => (e.1, w))) file.relations) =
      some (areasOf env file) := h4
    rw [e3, e4]
    simp only []
    have e5 : (collect (fun x => x.id) (loadReg env ⟨file.relations, (pointsOf env file).1,
      (file.ways.filterMap fun e => (loadedLine env (pointsOf env file).1 e.2).map fun w => (e.1, w)),
      (file.ways.filterMap fun e => (loadedPoly env (pointsOf env file).1 e.2).map fun w => (e.1, w)),
      (laneletsOf env file).1, (areasOf env file).1⟩) file.relations) = some (regsOf env file) := h5
    rw [e5]
    simp only [g1, k1]
    rfl
  · rw [g3, laneletsOf, get_collected _ h.relations.nodup]
    cases hg : file.relations.get i with
    | none => rfl
    | some r =>
      simp only [Option.bind_some, addLaneletRegs]
      cases hl : (laneletOf env (pointsOf env file).1 (linesOf env file) r).1 with
      | none => rfl
      | some l =>
        have : l.regs = [] := by
          unfold laneletOf at hl
          split at hl
          · obtain rfl := Option.some.inj hl; rfl
          · cases hl
        simp [this]
  · rw [k3, areasOf, get_collected _ h.relations.nodup]
    cases hg : file.relations.get i with
    | none => rfl
    | some r =>
      simp only [Option.bind_some, addAreaRegs]
      cases hl : (areaOf env (pointsOf env file).1 (linesOf env file) r).1 with
      | none => rfl
      | some l =>
        have : l.regs = [] := by
          unfold areaOf at hl
          simp only at hl
          split at hl
          · split at hl
            · cases hl
            · split at hl
              · split at hl
                · cases hl
                · obtain rfl := Option.some.inj hl; rfl
              · cases hl
          · cases hl
        simp [this]

end Verif.Osm
