import Verif.Osm.Lemmas
import Verif.Osm.Read

/-!
C32: reading OSM documents.
-/
namespace Verif.Osm
variable {D : Type}

/-! ### specification -/

/-- the primitive a member refers to, if it exists; members of an unknown type are ignored -/
def target (node way relation : Id → Prop) [DecidablePred node] [DecidablePred way] [DecidablePred relation] (m : XMember) :
    Option (String × Target) :=
  if m.type = "node" then if node m.ref then some (m.role, .node m.ref) else none
  else if m.type = "way" then if way m.ref then some (m.role, .way m.ref) else none
  else if m.type = "relation" then if relation m.ref then some (m.role, .relation m.ref) else none
  else none

/-- the elements of a document that are not marked as deleted -/
def liveNodes (doc : Doc) : List XNode := doc.nodes.filter fun x => !x.deleted
/-- Specification: the ways that are not deleted. -/
def liveWays (doc : Doc) : List XWay := doc.ways.filter fun x => !x.deleted
/-- Specification: the relations that are not deleted. -/
def liveRelations (doc : Doc) : List XRelation := doc.relations.filter fun x => !x.deleted

/-- the document has a node, way or relation with this id -/
def HasNode (doc : Doc) (i : Id) : Prop := ∃ x ∈ liveNodes doc, x.id = i
/-- Specification. -/
def HasWay (doc : Doc) (i : Id) : Prop := ∃ x ∈ liveWays doc, x.id = i
/-- Specification. -/
def HasRelation (doc : Doc) (i : Id) : Prop := ∃ x ∈ liveRelations doc, x.id = i

instance (doc : Doc) (i : Id) : Decidable (HasNode doc i) := by unfold HasNode; infer_instance
instance (doc : Doc) (i : Id) : Decidable (HasWay doc i) := by unfold HasWay; infer_instance
instance (doc : Doc) (i : Id) : Decidable (HasRelation doc i) := by unfold HasRelation; infer_instance

/-- all members of the relations with id `r`, in document order -/
def membersOf (doc : Doc) (r : Id) : List XMember := ((liveRelations doc).filter fun x => x.id = r).flatMap (·.members)

/-- the missing ways and nodes of the relations, in document order -/
def missingPrims (doc : Doc) : List ReadError :=
  (liveRelations doc).flatMap fun x => x.members.filterMap fun m =>
    if (m.type = "node" ∧ ¬ HasNode doc m.ref) ∨ (m.type = "way" ∧ ¬ HasWay doc m.ref) then some (.member x.id m.ref) else none

/-- the missing relations -/
def missingRelations (doc : Doc) : List ReadError :=
  (liveRelations doc).flatMap fun x => x.members.filterMap fun m =>
    if m.type = "relation" ∧ ¬ HasRelation doc m.ref then some (.relation x.id m.ref) else none

/-- the ways with missing nodes -/
def brokenWays (doc : Doc) : List ReadError :=
  (liveWays doc).filterMap fun x => if ∀ r ∈ x.refs, HasNode doc r then none else some (.way x.id)

/-! ### nodes and ways -/

theorem foldl_skip {α β : Type} (p : α → Bool) (f : β → α → β) (xs : List α) (b : β) :
    xs.foldl (fun b x => if p x then b else f b x) b = (xs.filter fun x => !p x).foldl f b := by
  induction xs generalizing b with
  | nil => rfl
  | cons x xs ih =>
    rw [List.foldl_cons, ih, List.filter_cons]
    cases p x <;> simp

/-- the last element with this id -/
def lastWith {α : Type} (id : α → Id) (xs : List α) (i : Id) : Option α := xs.reverse.find? fun x => id x = i

theorem get_foldl_set {α V : Type} (id : α → Id) (v : α → V) (xs : List α) (m : AMap Id V) (i : Id) :
    (xs.foldl (fun m x => AMap.set m (id x) (v x)) m).get i = ((lastWith id xs i).map v).or (m.get i) := by
  induction xs generalizing m with
  | nil => simp [lastWith]
  | cons x xs ih =>
    rw [List.foldl_cons, ih, AMap.get_set]
    unfold lastWith
    rw [List.reverse_cons, List.find?_append]
    cases h : (xs.reverse.find? fun y => decide (id y = i)) with
    | some y => simp
    | none =>
      by_cases hx : id x = i
      · subst hx; simp
      · have : ¬ i = id x := fun e => hx e.symm
        simp [hx, this]

theorem lastWith_isSome {α : Type} (id : α → Id) (xs : List α) (i : Id) : (lastWith id xs i).isSome = true ↔ ∃ x ∈ xs, id x = i := by
  unfold lastWith
  rw [List.find?_isSome]
  simp

/-- the node an element describes -/
def nodeOf (zero : D) (num : String → D) (x : XNode) : Node D :=
  ⟨x.id, readTags x.tags, asDouble zero num x.lat, asDouble zero num x.lon,
    asDouble zero num ((x.tags.find? fun t => t.1 = "ele").map (·.2))⟩

theorem readNodes_get (zero : D) (num : String → D) (doc : Doc) (i : Id) :
    (readNodes zero num doc.nodes).get i = (lastWith (·.id) (liveNodes doc) i).map (nodeOf zero num) := by
  have hr : readNodes zero num doc.nodes = doc.nodes.foldl (fun nodes x => if x.deleted then nodes else
      AMap.set nodes x.id (nodeOf zero num x)) [] := rfl
  rw [hr, foldl_skip (fun x : XNode => x.deleted) (fun nodes x => AMap.set nodes x.id (nodeOf zero num x))]
  rw [get_foldl_set (fun x : XNode => x.id) (nodeOf zero num)]
  simp [liveNodes]

theorem readNodes_has (zero : D) (num : String → D) (doc : Doc) (i : Id) :
    (readNodes zero num doc.nodes).has i = decide (HasNode doc i) := by
  rw [AMap.has_eq, readNodes_get, Option.isSome_map, Bool.eq_iff_iff, lastWith_isSome, decide_eq_true_iff]
  exact Iff.rfl

/-- the way an element describes -/
def wayOf (doc : Doc) (x : XWay) : Way := ⟨x.id, readTags x.tags, if ∀ r ∈ x.refs, HasNode doc r then x.refs else []⟩

theorem readWays_spec (zero : D) (num : String → D) (doc : Doc) :
    (∀ i, (readWays (readNodes zero num doc.nodes) doc.ways).1.get i = (lastWith (·.id) (liveWays doc) i).map (wayOf doc)) ∧
    (readWays (readNodes zero num doc.nodes) doc.ways).2 = brokenWays doc := by
  have hok : ∀ x : XWay, (x.refs.all fun r => (readNodes zero num doc.nodes).has r) = decide (∀ r ∈ x.refs, HasNode doc r) := by
    intro x
    rw [Bool.eq_iff_iff]
    simp [readNodes_has]
  have key : ∀ (xs : List XWay) (w : AMap Id Way) (e : List ReadError),
      xs.foldl (fun (s : AMap Id Way × List ReadError) x =>
        if x.deleted then (s.1, s.2)
        else (s.1.set x.id ⟨x.id, readTags x.tags, if (x.refs.all fun r => (readNodes zero num doc.nodes).has r) then x.refs else []⟩,
          if (x.refs.all fun r => (readNodes zero num doc.nodes).has r) then s.2 else s.2 ++ [.way x.id])) (w, e) =
      ((xs.filter fun x => !x.deleted).foldl (fun m x => AMap.set m x.id (wayOf doc x)) w,
        e ++ (xs.filter fun x => !x.deleted).filterMap fun x =>
          if ∀ r ∈ x.refs, HasNode doc r then none else some (.way x.id)) := by
    intro xs
    induction xs with
    | nil => intro w e; simp
    | cons x xs ih =>
      intro w e
      rw [List.foldl_cons]
      cases hd : x.deleted with
      | true =>
        rw [List.filter_cons]
        simp only [hd, if_true, Bool.not_true, Bool.false_eq_true, if_false]
        exact ih w e
      | false =>
        rw [List.filter_cons]
        simp only [hd, Bool.not_false, Bool.false_eq_true, if_false, if_true]
        rw [ih, List.foldl_cons, List.filterMap_cons]
        by_cases hc : ∀ r ∈ x.refs, HasNode doc r
        · rw [if_pos hc, hok, decide_eq_true hc]
          simp only [if_true, wayOf, if_pos hc]
        · rw [if_neg hc, hok, decide_eq_false hc]
          simp only [Bool.false_eq_true, if_false, wayOf, if_neg hc, List.append_assoc, List.cons_append, List.nil_append]
  have h := key doc.ways [] []
  have h' : readWays (readNodes zero num doc.nodes) doc.ways = _ := h
  constructor
  · intro i
    rw [h', get_foldl_set (fun x : XWay => x.id) (wayOf doc)]
    simp [liveWays]
  · rw [h']
    simp [brokenWays, liveWays]

theorem readWays_has (zero : D) (num : String → D) (doc : Doc) (i : Id) :
    (readWays (readNodes zero num doc.nodes) doc.ways).1.has i = decide (HasWay doc i) := by
  rw [AMap.has_eq, (readWays_spec zero num doc).1, Option.isSome_map, Bool.eq_iff_iff, lastWith_isSome, decide_eq_true_iff]
  exact Iff.rfl

/-! ### relations: the first pass -/

/-- a member with its placeholder -/
def absM (node way : Id → Bool) (m : XMember) : Option (String × (Target ⊕ Id)) :=
  if m.type = "node" then if node m.ref then some (m.role, .inl (.node m.ref)) else none
  else if m.type = "way" then if way m.ref then some (m.role, .inl (.way m.ref)) else none
  else if m.type = "relation" then some (m.role, .inr m.ref)
  else none

/-- Specification: the error about a member. -/
def errM (node way : Id → Bool) (id : Id) (m : XMember) : Option ReadError :=
  if (m.type = "node" ∧ node m.ref = false) ∨ (m.type = "way" ∧ way m.ref = false) then some (.member id m.ref) else none

/-- Specification: a reference to a relation. -/
def refM (id : Id) (m : XMember) : Option (Id × Id) := if m.type = "relation" then some (id, m.ref) else none

theorem readMember_inv {nodes : AMap Id (Node D)} {ways : AMap Id Way} {s : RelState ReadError} {A : Id → Abs} (h : PI s A) {id : Id}
    (hid : s.relations.has id = true) (m : XMember) :
    PI (readMember nodes ways id s m) (fun r => if r = id then A id ++ (absM (nodes.has ·) (ways.has ·) m).toList else A r) ∧
    (readMember nodes ways id s m).errs = s.errs ++ (errM (nodes.has ·) (ways.has ·) id m).toList ∧
    (readMember nodes ways id s m).todo.map (fun u => (u.relation, u.ref)) =
      s.todo.map (fun u => (u.relation, u.ref)) ++ (refM id m).toList ∧
    ((∀ r, (readMember nodes ways id s m).relations.has r = s.relations.has r) ∧
     ∀ r, ((readMember nodes ways id s m).relations.get r).map (fun x => (x.id, x.attrs)) =
      (s.relations.get r).map (fun x => (x.id, x.attrs))) := by
  have hpush : ∀ (f : Relation → Relation), (∀ x, (f x).id = x.id ∧ (f x).attrs = x.attrs) →
      ((∀ r, (s.relations.modify id f).has r = s.relations.has r) ∧
       ∀ r, ((s.relations.modify id f).get r).map (fun x => (x.id, x.attrs)) =
        (s.relations.get r).map (fun x => (x.id, x.attrs))) := by
    intro f hf
    refine ⟨fun r => AMap.has_modify .., fun r => ?_⟩
    rw [AMap.get_modify]
    split
    · rename_i hr
      subst hr
      rw [Option.map_map]
      congr 1
      funext x
      simp only [Function.comp_apply, (hf x).1, (hf x).2]
    · rfl
  have hsame : (fun r => if r = id then A id ++ [] else A r) = A := by
    funext r
    by_cases hr : r = id
    · subst hr; simp
    · simp [hr]
  have hd : PI { s with errs := s.errs ++ [.member id m.ref] } A := ⟨⟨h.ri.items, h.ri.rel⟩, h.new⟩
  have n1 : ¬ ("way" = "node") := by decide
  have n2 : ¬ ("relation" = "node") := by decide
  have n3 : ¬ ("relation" = "way") := by decide
  have n4 : ¬ ("node" = "way") := by decide
  have n5 : ¬ ("node" = "relation") := by decide
  have n6 : ¬ ("way" = "relation") := by decide
  by_cases ht1 : m.type = "node"
  · by_cases hx : nodes.has m.ref = true
    · have hp := push_RI h hid m.role (.inl (.node m.ref)) _ rfl
      have e1 : readMember nodes ways id s m = ⟨s.relations.modify id fun r =>
          { r with members := r.members.push m.role (some (.node m.ref)) }, s.todo, s.errs⟩ := by
        simp [readMember, ht1, hx]
      have e2 : absM (nodes.has ·) (ways.has ·) m = some (m.role, .inl (.node m.ref)) := by simp [absM, ht1, hx]
      have e3 : errM (nodes.has ·) (ways.has ·) id m = none := by simp [errM, ht1, hx]
      have e4 : refM id m = none := by simp [refM, ht1]
      rw [e1, e2, e3, e4]
      refine ⟨?_, by simp, by simp, hpush (fun r => { r with members := r.members.push m.role (some (.node m.ref)) }) fun x => ⟨rfl, rfl⟩⟩
      simpa [todoOf, er] using hp
    · have hx' : nodes.has m.ref = false := by simpa using hx
      have e1 : readMember nodes ways id s m = { s with errs := s.errs ++ [.member id m.ref] } := by
        simp [readMember, ht1, hx']
      have e2 : absM (nodes.has ·) (ways.has ·) m = none := by simp [absM, ht1, hx']
      have e3 : errM (nodes.has ·) (ways.has ·) id m = some (.member id m.ref) := by simp [errM, ht1, hx']
      have e4 : refM id m = none := by simp [refM, ht1]
      rw [e1, e2, e3, e4, Option.toList_none, hsame]
      exact ⟨hd, by simp, by simp, fun r => rfl, fun r => rfl⟩
  · by_cases ht2 : m.type = "way"
    · by_cases hx : ways.has m.ref = true
      · have hp := push_RI h hid m.role (.inl (.way m.ref)) _ rfl
        have e1 : readMember nodes ways id s m = ⟨s.relations.modify id fun r =>
            { r with members := r.members.push m.role (some (.way m.ref)) }, s.todo, s.errs⟩ := by
          simp [readMember, ht2, hx]
        have e2 : absM (nodes.has ·) (ways.has ·) m = some (m.role, .inl (.way m.ref)) := by simp [absM, ht2, hx]
        have e3 : errM (nodes.has ·) (ways.has ·) id m = none := by simp [errM, ht2, hx]
        have e4 : refM id m = none := by simp [refM, ht2]
        rw [e1, e2, e3, e4]
        refine ⟨?_, by simp, by simp, hpush (fun r => { r with members := r.members.push m.role (some (.way m.ref)) }) fun x => ⟨rfl, rfl⟩⟩
        simpa [todoOf, er] using hp
      · have hx' : ways.has m.ref = false := by simpa using hx
        have e1 : readMember nodes ways id s m = { s with errs := s.errs ++ [.member id m.ref] } := by
          simp [readMember, ht2, hx']
        have e2 : absM (nodes.has ·) (ways.has ·) m = none := by simp [absM, ht2, hx']
        have e3 : errM (nodes.has ·) (ways.has ·) id m = some (.member id m.ref) := by simp [errM, ht2, hx']
        have e4 : refM id m = none := by simp [refM, ht2]
        rw [e1, e2, e3, e4, Option.toList_none, hsame]
        exact ⟨hd, by simp, by simp, fun r => rfl, fun r => rfl⟩
    · by_cases ht3 : m.type = "relation"
      · have hp := push_RI h hid m.role (.inr m.ref) _ rfl
        have e1 : readMember nodes ways id s m = ⟨s.relations.modify id fun r => { r with members := r.members.push m.role none },
            s.todo ++ [⟨id, m.ref, backAddr (s.relations.modify id fun r =>
              { r with members := r.members.push m.role none }) id⟩], s.errs⟩ := by
          simp [readMember, ht3]
        have e2 : absM (nodes.has ·) (ways.has ·) m = some (m.role, .inr m.ref) := by simp [absM, ht3]
        have e3 : errM (nodes.has ·) (ways.has ·) id m = none := by simp [errM, ht3]
        have e4 : refM id m = some (id, m.ref) := by simp [refM, ht3]
        rw [e1, e2, e3, e4]
        refine ⟨?_, by simp, by simp, hpush (fun r => { r with members := r.members.push m.role none }) fun x => ⟨rfl, rfl⟩⟩
        simpa [todoOf, er] using hp
      · have e1 : readMember nodes ways id s m = s := by simp [readMember, ht1, ht2, ht3]
        have e2 : absM (nodes.has ·) (ways.has ·) m = none := by simp [absM, ht1, ht2, ht3]
        have e3 : errM (nodes.has ·) (ways.has ·) id m = none := by simp [errM, ht1, ht2]
        have e4 : refM id m = none := by simp [refM, ht3]
        rw [e1, e2, e3, e4, Option.toList_none, hsame]
        exact ⟨h, by simp, by simp, fun r => rfl, fun r => rfl⟩

theorem readMembers_inv {nodes : AMap Id (Node D)} {ways : AMap Id Way} {id : Id} : ∀ (ms : List XMember) (s : RelState ReadError) (A : Id → Abs),
    PI s A → s.relations.has id = true →
    PI (ms.foldl (readMember nodes ways id) s)
      (fun r => if r = id then A id ++ ms.filterMap (absM (nodes.has ·) (ways.has ·)) else A r) ∧
    (ms.foldl (readMember nodes ways id) s).errs = s.errs ++ ms.filterMap (errM (nodes.has ·) (ways.has ·) id) ∧
    (ms.foldl (readMember nodes ways id) s).todo.map (fun u => (u.relation, u.ref)) =
      s.todo.map (fun u => (u.relation, u.ref)) ++ ms.filterMap (refM id) ∧
    ((∀ r, (ms.foldl (readMember nodes ways id) s).relations.has r = s.relations.has r) ∧
     ∀ r, ((ms.foldl (readMember nodes ways id) s).relations.get r).map (fun x => (x.id, x.attrs)) =
      (s.relations.get r).map (fun x => (x.id, x.attrs))) := by
  intro ms
  induction ms with
  | nil =>
    intro s A h hid
    refine ⟨?_, by simp, by simp, fun r => rfl, fun r => rfl⟩
    have hsame : (fun r => if r = id then A id ++ [] else A r) = A := by
      funext r
      by_cases hr : r = id
      · subst hr; simp
      · simp [hr]
    rw [List.filterMap_nil, hsame]
    exact h
  | cons m ms ih =>
    intro s A h hid
    obtain ⟨h1, h2, h3, h4, h5⟩ := readMember_inv (nodes := nodes) (ways := ways) h hid m
    obtain ⟨g1, g2, g3, g4, g5⟩ := ih _ _ h1 (by rw [h4]; exact hid)
    rw [List.foldl_cons]
    have htl : ∀ {α β : Type} (f : α → Option β) (a : α) (as : List α), (f a).toList ++ as.filterMap f = (a :: as).filterMap f := by
      intro α β f a as
      rw [List.filterMap_cons]
      cases f a <;> rfl
    refine ⟨?_, ?_, ?_, ?_, ?_⟩
    · convert g1 using 1
      funext r
      by_cases hr : r = id
      · subst hr
        simp only [if_true]
        rw [List.append_assoc, htl]
      · simp [hr]
    · rw [g2, h2, List.append_assoc, htl]
    · rw [g3, h3, List.append_assoc, htl]
    · intro r; rw [g4, h4]
    · intro r; rw [g5, h5]

theorem readRelations_inv {nodes : AMap Id (Node D)} {ways : AMap Id Way} : ∀ (xs : List XRelation) (s : RelState ReadError) (A : Id → Abs),
    PI s A →
    PI (xs.foldl (readRelation nodes ways) s) (fun r => A r ++
      ((xs.filter fun x => !x.deleted).filter fun x => x.id = r).flatMap fun x => x.members.filterMap (absM (nodes.has ·) (ways.has ·))) ∧
    (xs.foldl (readRelation nodes ways) s).errs = s.errs ++
      (xs.filter fun x => !x.deleted).flatMap (fun x => x.members.filterMap (errM (nodes.has ·) (ways.has ·) x.id)) ∧
    (xs.foldl (readRelation nodes ways) s).todo.map (fun u => (u.relation, u.ref)) =
      s.todo.map (fun u => (u.relation, u.ref)) ++
      (xs.filter fun x => !x.deleted).flatMap (fun x => x.members.filterMap (refM x.id)) ∧
    ∀ r, ((xs.foldl (readRelation nodes ways) s).relations.get r).map (fun x => (x.id, x.attrs)) =
      ((s.relations.get r).map (fun x => (x.id, x.attrs))).or
        (((xs.filter fun x => !x.deleted).find? fun x => x.id = r).map fun x => (x.id, readTags x.tags)) := by
  intro xs
  induction xs with
  | nil => intro s A h; simpa using h
  | cons x xs ih =>
    intro s A h
    rw [List.foldl_cons]
    cases hd : x.deleted with
    | true =>
      have : readRelation nodes ways s x = s := by simp [readRelation, hd]
      rw [this]
      simpa [List.filter_cons, hd] using ih s A h
    | false =>
      have hst : readRelation nodes ways s x = x.members.foldl (readMember nodes ways x.id)
          { s with relations := s.relations.emplace x.id ⟨x.id, readTags x.tags, ⟨0, []⟩⟩ } := by
        simp [readRelation, hd]
      have hhas : (s.relations.emplace x.id ⟨x.id, readTags x.tags, ⟨0, []⟩⟩).has x.id = true := by
        rw [AMap.has_eq, AMap.get_emplace, if_pos rfl]; rfl
      obtain ⟨h1, h2, h3, h4, h5⟩ := readMembers_inv (nodes := nodes) (ways := ways) x.members _ A (emplace_PI h x.id (readTags x.tags)) hhas
      rw [← hst] at h1 h2 h3 h4 h5
      obtain ⟨g1, g2, g3, g4⟩ := ih _ _ h1
      have hf : (x :: xs).filter (fun x => !x.deleted) = x :: xs.filter fun x => !x.deleted := by simp [List.filter_cons, hd]
      rw [hf]
      refine ⟨?_, ?_, ?_, ?_⟩
      · convert g1 using 1
        funext r
        by_cases hr : r = x.id
        · subst hr
          simp [List.filter_cons]
        · have hr' : ¬ x.id = r := fun e => hr e.symm
          simp [List.filter_cons, hr, hr']
      · rw [g2, h2]; simp
      · rw [g3, h3]; simp
      · intro r
        rw [g4, h5, AMap.get_emplace]
        by_cases hr : r = x.id
        · subst hr
          simp only [if_true, List.find?_cons, decide_true, Option.map_some]
          cases s.relations.get x.id <;> simp
        · have hr' : ¬ x.id = r := fun e => hr e.symm
          simp [hr, hr']

/-! ### the theorems -/

/-- C32: reading never fails. A relation of the result is the first one of the document with this id; its members are exactly
those of the document that exist, in document order, under their roles. Nothing else is in the result. The errors name exactly
the references to missing primitives. `front` describes how the deque moves its elements. -/
theorem read_spec (zero : D) (num : String → D) (front : Nat → Nat → Bool) (doc : Doc) :
    ∃ file errs, read zero num front doc = some (file, errs) ∧
      (∀ i, file.nodes.get i = (lastWith (·.id) (liveNodes doc) i).map (nodeOf zero num)) ∧
      (∀ i, file.ways.get i = (lastWith (·.id) (liveWays doc) i).map (wayOf doc)) ∧
      (∀ i, file.relations.get i = none ↔ ¬ HasRelation doc i) ∧
      (∀ i rel, file.relations.get i = some rel →
        rel.id = i ∧
        (∃ x, (liveRelations doc).find? (fun x => x.id = i) = some x ∧ rel.attrs = readTags x.tags) ∧
        rel.members.items =
          ((membersOf doc i).filterMap (target (HasNode doc) (HasWay doc) (HasRelation doc))).map fun m => (m.1, some m.2)) ∧
      errs = brokenWays doc ++ (missingPrims doc ++ missingRelations doc) := by
  let nodes := readNodes zero num doc.nodes
  let ways := (readWays nodes doc.ways).1
  have hn : (fun i => nodes.has i) = fun i => decide (HasNode doc i) := funext fun i => readNodes_has zero num doc i
  have hw : (fun i => ways.has i) = fun i => decide (HasWay doc i) := funext fun i => readWays_has zero num doc i
  have h0 : PI (⟨[], [], []⟩ : RelState ReadError) (fun _ => []) := ⟨⟨fun r rel hr => by simp at hr, fun u hu => by simp at hu⟩, fun _ _ => rfl⟩
  obtain ⟨h1, h2, h3, h4⟩ := readRelations_inv (nodes := nodes) (ways := ways) doc.relations _ _ h0
  obtain ⟨s, hs⟩ : ∃ s, doc.relations.foldl (readRelation nodes ways) ⟨[], [], []⟩ = s := ⟨_, rfl⟩
  rw [hs] at h1 h2 h3 h4
  simp only [List.nil_append, List.map_nil, AMap.get_nil, Option.map_none, Option.none_or] at h1 h2 h3 h4
  have hx : ∀ i, s.relations.has i = decide (HasRelation doc i) := by
    intro i
    have := congrArg Option.isSome (h4 i)
    rw [Option.isSome_map, Option.isSome_map] at this
    rw [AMap.has_eq, this, Bool.eq_iff_iff, List.find?_isSome, decide_eq_true_iff]
    unfold HasRelation liveRelations
    simp only [decide_eq_true_eq]
  obtain ⟨rels', e1, e2, e3⟩ := resolveAll_spec true front (fun i => decide (HasRelation doc i)) _ s.relations s.todo _ [] rfl hx h1.ri (.inl rfl)
  have hkeys : ∀ i, rels'.has i = s.relations.has i := by
    intro i
    rw [Bool.eq_iff_iff, AMap.has_iff_mem, AMap.has_iff_mem, e2]
  have hread : read zero num front doc = some (⟨nodes, ways, rels'⟩, (readWays nodes doc.ways).2 ++ (s.errs ++
      ((s.todo.filter fun u => !decide (HasRelation doc u.ref)).map fun u => (u.relation, u.ref)).map
        fun m => ReadError.relation m.1 m.2)) := by
    simp only [read, readRelations, bind, Option.bind]
    have hw2 : readWays (readNodes zero num doc.nodes) doc.ways = (ways, (readWays nodes doc.ways).2) := rfl
    have hs2 : doc.relations.foldl (readRelation (readNodes zero num doc.nodes) ways) ⟨[], [], []⟩ = s := hs
    rw [hw2]
    simp only [hs2, e1]
    rfl
  refine ⟨_, _, hread, readNodes_get zero num doc, (readWays_spec zero num doc).1, ?_, ?_, ?_⟩
  · intro i
    have : rels'.has i = decide (HasRelation doc i) := by rw [hkeys, hx]
    rw [AMap.has_eq] at this
    constructor
    · intro hg
      rw [hg] at this
      simpa using this.symm
    · intro hg
      simpa [hg] using this
  · intro i rel hrel
    have hs' : (s.relations.get i).isSome = true := by
      rw [← AMap.has_eq, ← hkeys, AMap.has_eq, hrel]; rfl
    obtain ⟨rel0, hg0⟩ := Option.isSome_iff_exists.mp hs'
    obtain ⟨b, hb⟩ := e3 i rel0 hg0
    obtain rfl := Option.some.inj (hrel.symm.trans hb)
    have h4i := h4 i
    rw [hg0] at h4i
    simp only [Option.map_some] at h4i
    obtain ⟨x, hx1, hx2⟩ := Option.map_eq_some_iff.mp h4i.symm
    obtain ⟨ha, hb2⟩ := Prod.mk.inj hx2
    have hid := List.find?_some hx1
    simp only [decide_eq_true_eq] at hid
    refine ⟨by simp only; rw [← ha, hid], ⟨x, hx1, hb2.symm⟩, ?_⟩
    simp only
    congr 1
    unfold final membersOf
    rw [List.filterMap_flatMap, List.filterMap_flatMap]
    congr 1
    funext y
    rw [List.filterMap_filterMap]
    congr 1
    funext m
    have hn' : nodes.has m.ref = decide (HasNode doc m.ref) := congrFun hn m.ref
    have hw' : ways.has m.ref = decide (HasWay doc m.ref) := congrFun hw m.ref
    simp only [absM, target, hn', hw', decide_eq_true_eq]
    repeat' split
    all_goals simp_all
  · rw [(readWays_spec zero num doc).2, h2]
    congr 2
    · unfold missingPrims
      congr 1
      funext y
      congr 1
      funext m
      have hn' : nodes.has m.ref = decide (HasNode doc m.ref) := congrFun hn m.ref
      have hw' : ways.has m.ref = decide (HasWay doc m.ref) := congrFun hw m.ref
      simp [errM, hn', hw']
    · have : ((s.todo.filter fun u => !decide (HasRelation doc u.ref)).map fun u => (u.relation, u.ref)) =
          (s.todo.map fun u => (u.relation, u.ref)).filter fun p => !decide (HasRelation doc p.2) := by
        rw [List.filter_map]; rfl
      rw [this, h3, List.filter_flatMap, List.map_flatMap]
      unfold missingRelations
      congr 1
      funext y
      rw [List.filter_filterMap, List.map_filterMap]
      congr 1
      funext m
      unfold refM
      by_cases ht : m.type = "relation"
      · by_cases hh : HasRelation doc m.ref <;> simp [ht, hh, Option.filter]
      · simp [ht]

/-- C32: no error is reported exactly if all references exist. -/
theorem read_no_errors (zero : D) (num : String → D) (front : Nat → Nat → Bool) (doc : Doc) (file : File D) (errs : List ReadError)
    (h : read zero num front doc = some (file, errs)) :
    errs = [] ↔ (∀ x ∈ liveWays doc, ∀ r ∈ x.refs, HasNode doc r) ∧
      ∀ x ∈ liveRelations doc, ∀ m ∈ x.members, (m.type = "node" → HasNode doc m.ref) ∧ (m.type = "way" → HasWay doc m.ref) ∧
        (m.type = "relation" → HasRelation doc m.ref) := by
  obtain ⟨file', errs', h', -, -, -, -, he⟩ := read_spec zero num front doc
  rw [h] at h'
  obtain ⟨-, rfl⟩ := Prod.mk.inj (Option.some.inj h')
  rw [he]
  simp only [List.append_eq_nil_iff, brokenWays, missingPrims, missingRelations, List.flatMap_eq_nil_iff, List.filterMap_eq_nil_iff]
  constructor
  · rintro ⟨h1, h2, h3⟩
    refine ⟨fun x hx => ?_, fun x hx m hm => ?_⟩
    · have := h1 x hx
      by_contra hc
      rw [if_neg hc] at this
      exact absurd this (by simp)
    · have g2 := h2 x hx m hm
      have g3 := h3 x hx m hm
      simp only [ite_eq_right_iff, reduceCtorEq, imp_false, not_or, not_and, not_not] at g2 g3
      exact ⟨g2.1, g2.2, g3⟩
  · rintro ⟨h1, h2⟩
    refine ⟨fun x hx => if_pos (h1 x hx), fun x hx m hm => ?_, fun x hx m hm => ?_⟩
    · obtain ⟨g1, g2, g3⟩ := h2 x hx m hm
      rw [if_neg]
      rintro (⟨a, b⟩ | ⟨a, b⟩)
      · exact b (g1 a)
      · exact b (g2 a)
    · obtain ⟨g1, g2, g3⟩ := h2 x hx m hm
      rw [if_neg]
      rintro ⟨a, b⟩
      exact b (g3 a)

/-- The attributes of a primitive are its tags without the elevation; of several tags with the same key the last one counts. -/
theorem readTags_spec (tags : List (String × String)) (k : String) :
    (readTags tags).get k = if k = "ele" then none else (tags.reverse.find? fun t => t.1 = k).map (·.2) := by
  unfold readTags
  have key : ∀ (ts : List (String × String)) (a : Attrs),
      (ts.foldl (fun a t => if t.1 = "ele" then a else AMap.set a t.1 t.2) a).get k =
        if k = "ele" then a.get k else ((ts.reverse.find? fun t => t.1 = k).map (·.2)).or (a.get k) := by
    intro ts
    induction ts with
    | nil => intro a; simp
    | cons t ts ih =>
      intro a
      rw [List.foldl_cons, ih, List.reverse_cons, List.find?_append]
      by_cases hk : k = "ele"
      · rw [if_pos hk, if_pos hk]
        by_cases ht : t.1 = "ele"
        · rw [if_pos ht]
        · have : ¬ k = t.1 := fun e => ht (e.symm.trans hk)
          rw [if_neg ht, AMap.get_set, if_neg this]
      · rw [if_neg hk, if_neg hk]
        by_cases ht : t.1 = k
        · have hne : ¬ t.1 = "ele" := fun e => hk (ht.symm.trans e)
          rw [if_neg hne, AMap.get_set, if_pos ht.symm]
          cases ts.reverse.find? fun t => decide (t.1 = k) <;> simp [ht]
        · have hc : (if t.1 = "ele" then a else AMap.set a t.1 t.2).get k = a.get k := by
            by_cases hne : t.1 = "ele"
            · rw [if_pos hne]
            · have : ¬ k = t.1 := fun e => ht e.symm
              rw [if_neg hne, AMap.get_set, if_neg this]
          rw [hc]
          cases ts.reverse.find? fun t => decide (t.1 = k) <;> simp [ht]
  rw [key]
  simp

/-! ### concrete cases -/

/-- forward, backward, self and dangling references -/
def exDoc : Doc where
  nodes := [⟨1, false, none, none, []⟩, ⟨2, true, none, none, []⟩]
  ways := [⟨3, false, [1, 1], []⟩, ⟨4, false, [1, 2], []⟩]
  relations := [
    ⟨10, false, [⟨"relation", 99, "a"⟩, ⟨"relation", 11, "b"⟩, ⟨"way", 3, "c"⟩, ⟨"relation", 98, "d"⟩, ⟨"relation", 10, "e"⟩], []⟩,
    ⟨11, false, [⟨"node", 2, "f"⟩, ⟨"relation", 10, "g"⟩], []⟩]

example : ((read 0 (fun _ => (1 : Nat)) (fun _ _ => false) exDoc).map fun r =>
      (r.1.relations.map fun e => (e.1, e.2.members.items), r.2)) =
    some ([(10, [("b", some (.relation 11)), ("c", some (.way 3)), ("e", some (.relation 10))]),
        (11, [("g", some (.relation 10))])],
      [.way 4, .member 11 2, .relation 10 99, .relation 10 98]) := by
  obtain ⟨file, errs, h1, -, -, -, -, h2⟩ := read_spec 0 (fun _ => (1 : Nat)) (fun _ _ => false) exDoc
  simp only [read, readRelations, bind, Option.bind]
  have hs : (exDoc.relations.foldl (readRelation (readNodes 0 (fun _ => (1 : Nat)) exDoc.nodes)
      (readWays (readNodes 0 (fun _ => (1 : Nat)) exDoc.nodes) exDoc.ways).1) ⟨[], [], []⟩) =
      ⟨[(10, ⟨10, [], ⟨0, [("a", none), ("b", none), ("c", some (.way 3)), ("d", none), ("e", none)]⟩⟩),
        (11, ⟨11, [], ⟨0, [("g", none)]⟩⟩)],
       [⟨10, 99, 0⟩, ⟨10, 11, 1⟩, ⟨10, 98, 3⟩, ⟨10, 10, 4⟩, ⟨11, 10, 0⟩], [.member 11 2]⟩ := by rfl
  rw [hs]
  iterate 6 (rw [resolveAll]; simp [resolveOne, removeAndFix, otherPlaceholders, AMap.get, AMap.has, AMap.modify, Roles.index, Roles.erase])
  decide

end Verif.Osm
