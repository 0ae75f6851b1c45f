import Mathlib.Data.List.Perm.Subperm
import Verif.Osm.Doc

/-!
C75: when two OSM files compare equal. Model of the comparison operators of lanelet2_io/src/OsmFile.cpp 315-341 and
io_handlers/OsmFile.h 106.
-/
namespace Verif.Osm
variable {D : Type}

/-! ### model -/

/-- a loop that returns false at the first element without the property; `none`: undefined behaviour in a step. OsmFile.cpp 317-322,
328-334 -/
def allM {α : Type} (f : α → Option Bool) : List α → Option Bool
  | [] => some true
  | x :: l => do if ← f x then allM f l else return false

/-- operator== of nodes, OsmFile.h 106 -/
def nodeEq (a b : Node D) : Bool := a.id = b.id

/-- operator== of ways, OsmFile.cpp 315-325 -/
def wayEq (a b : Way) : Bool :=
  decide (a.id = b.id) && (decide (a.nodes.length = b.nodes.length) && (a.nodes.zip b.nodes).all fun x => !(x.1 != x.2))

/-- the test of two members, OsmFile.cpp 330; `none`: undefined behaviour, as a pointer is null -/
def memberEq (x y : String × Option Target) : Option Bool :=
  match x.2, y.2 with
  | some s, some t => some (!(s.type != t.type && s.id != t.id))
  | _, _ => none

/-- operator== of relations, OsmFile.cpp 327-337 -/
def relEq (a b : Relation) : Option Bool :=
  if a.id = b.id ∧ a.members.items.length = b.members.items.length then
    allM (fun x => memberEq x.1 x.2) (a.members.items.zip b.members.items)
  else some false

/-- operator== of std::map, OsmFile.cpp 340: as many entries, and an equal one for each key. Simplified: std::map walks through both
maps in the order of their keys. -/
def mapEq {V : Type} (eq : V → V → Option Bool) (a b : AMap Id V) : Option Bool :=
  if a.length = b.length then
    allM (fun e => match b.get e.1 with | some v => eq e.2 v | none => some false) a
  else some false

/-- operator== of files, OsmFile.cpp 339-341 -/
def fileEq (a b : File D) : Option Bool := do
  if ← mapEq (fun x y => some (nodeEq x y)) a.nodes b.nodes then
    if ← mapEq (fun x y => some (wayEq x y)) a.ways b.ways then
      mapEq relEq a.relations b.relations
    else return false
  else return false

/-! ### specification -/

/-- the two members are of the same type and have the same id; Specification. -/
def SameTarget (s t : Target) : Prop := s.type = t.type ∧ s.id = t.id

/-- what the code tests: the same type or the same id; Specification. -/
def AlikeTarget (s t : Target) : Prop := s.type = t.type ∨ s.id = t.id

/-- as many members, and at each place members that correspond; roles are not looked at; Specification. -/
def Members (R : Target → Target → Prop) (a b : Relation) : Prop :=
  a.members.items.length = b.members.items.length ∧
  ∀ (k : Nat) (x y : String × Option Target), a.members.items[k]? = some x → b.members.items[k]? = some y →
    ∀ s t, x.2 = some s → y.2 = some t → R s t

/-- the files have primitives with the same ids, ways with the same nodes and relations whose members correspond;
Specification. -/
structure SameIds (R : Target → Target → Prop) (a b : File D) : Prop where
  nodes : ∀ i, a.nodes.has i = b.nodes.has i
  ways : ∀ i, (a.ways.get i).map (·.nodes) = (b.ways.get i).map (·.nodes)
  relations : ∀ i, a.relations.has i = b.relations.has i
  members : ∀ i r s, a.relations.get i = some r → b.relations.get i = some s → Members R r s

/-! ### proofs -/

theorem allM_true {α : Type} (f : α → Option Bool) (l : List α) : allM f l = some true ↔ ∀ x ∈ l, f x = some true := by
  induction l with
  | nil => simp [allM]
  | cons x l ih =>
    simp only [allM, List.mem_cons, forall_eq_or_imp]
    cases hx : f x with
    | none => simp
    | some v => cases v <;> simp [ih]

theorem allM_ne_none {α : Type} (f : α → Option Bool) (l : List α) (h : ∀ x ∈ l, f x ≠ none) : ∃ v, allM f l = some v := by
  induction l with
  | nil => exact ⟨true, rfl⟩
  | cons x l ih =>
    cases hx : f x with
    | none => exact absurd hx (h x (by simp))
    | some v =>
      cases v
      · exact ⟨false, by simp [allM, hx]⟩
      · obtain ⟨v, hv⟩ := ih fun y hy => h y (by simp [hy])
        exact ⟨v, by simp [allM, hx, hv]⟩

theorem zip_all {α β : Type} (a : List α) (b : List β) (P : α × β → Prop) :
    (∀ x ∈ a.zip b, P x) ↔ ∀ (k : Nat) (x : α) (y : β), a[k]? = some x → b[k]? = some y → P (x, y) := by
  constructor
  · intro h k x y hx hy
    apply h
    exact List.mem_of_getElem? (i := k) (by rw [List.getElem?_zip_eq_some]; exact ⟨hx, hy⟩)
  · intro h x hx
    obtain ⟨k, hk⟩ := List.getElem?_of_mem hx
    rw [List.getElem?_zip_eq_some] at hk
    exact h k x.1 x.2 hk.1 hk.2

/-- C75: ways compare equal if and only if they have the same id and the same nodes in the same order. -/
theorem wayEq_iff (a b : Way) : wayEq a b = true ↔ a.id = b.id ∧ a.nodes = b.nodes := by
  simp only [wayEq, Bool.and_eq_true, decide_eq_true_eq, List.all_eq_true, zip_all a.nodes b.nodes (fun x => (!(x.1 != x.2)) = true)]
  constructor
  · rintro ⟨h1, h2, h3⟩
    refine ⟨h1, List.ext_getElem? fun k => ?_⟩
    by_cases hk : k < a.nodes.length
    · have := h3 k _ _ (List.getElem?_eq_getElem hk) (List.getElem?_eq_getElem (h2 ▸ hk))
      rw [List.getElem?_eq_getElem hk, List.getElem?_eq_getElem (h2 ▸ hk)]
      simpa using this
    · rw [List.getElem?_eq_none (by omega), List.getElem?_eq_none (by omega)]
  · rintro ⟨h1, h2⟩
    refine ⟨h1, by rw [h2], ?_⟩
    intro k x y hx hy
    rw [h2, hy] at hx
    simp_all

theorem members_some {r : Relation} (h : NonNull r) {k : Nat} {x : String × Option Target} (hx : r.members.items[k]? = some x) :
    ∃ t, x.2 = some t := by
  have := h x (List.mem_of_getElem? hx)
  cases hc : x.2 with
  | none => simp_all
  | some t => exact ⟨t, rfl⟩

/-- C75: relations without null pointers compare equal if and only if they have the same id, as many members, and at each place the
members have the same type or the same id; the comparison never fails. -/
theorem relEq_iff {a b : Relation} (ha : NonNull a) (hb : NonNull b) :
    (∃ v, relEq a b = some v) ∧ (relEq a b = some true ↔ a.id = b.id ∧ Members AlikeTarget a b) := by
  unfold relEq
  by_cases hc : a.id = b.id ∧ a.members.items.length = b.members.items.length
  · rw [if_pos hc]
    constructor
    · apply allM_ne_none
      rw [zip_all a.members.items b.members.items (fun x => memberEq x.1 x.2 ≠ none)]
      intro k x y hx hy
      obtain ⟨s, hs⟩ := members_some ha hx
      obtain ⟨t, ht⟩ := members_some hb hy
      simp [memberEq, hs, ht]
    · rw [allM_true, zip_all a.members.items b.members.items (fun x => memberEq x.1 x.2 = some true)]
      unfold Members
      constructor
      · intro h
        refine ⟨hc.1, hc.2, ?_⟩
        intro k x y hx hy s t hs ht
        have := h k x y hx hy
        simp only [memberEq, hs, ht, Option.some.injEq, Bool.not_eq_true', Bool.and_eq_false_iff, bne_eq_false_iff_eq] at this
        exact this
      · intro h k x y hx hy
        obtain ⟨s, hs⟩ := members_some ha hx
        obtain ⟨t, ht⟩ := members_some hb hy
        have := h.2.2 k x y hx hy s t hs ht
        simp only [memberEq, hs, ht, Option.some.injEq, Bool.not_eq_true', Bool.and_eq_false_iff, bne_eq_false_iff_eq]
        exact this
  · rw [if_neg hc]
    refine ⟨⟨_, rfl⟩, ?_⟩
    constructor
    · intro h; simp at h
    · intro h; exact absurd ⟨h.1, h.2.1⟩ hc

theorem get_mem {V : Type} {l : AMap Id V} {i : Id} {v : V} (h : l.get i = some v) : (i, v) ∈ l := by
  unfold AMap.get at h
  obtain ⟨e, he, hv⟩ := Option.map_eq_some_iff.mp h
  have h1 := List.mem_of_find?_eq_some he
  have h2 : e.1 = i := by simpa using List.find?_some he
  rw [← h2, ← hv]; exact h1

theorem mapEq_total {V : Type} {eq : V → V → Option Bool} {a b : AMap Id V}
    (h : ∀ e ∈ a, ∀ f ∈ b, eq e.2 f.2 ≠ none) : ∃ v, mapEq eq a b = some v := by
  unfold mapEq
  split
  · apply allM_ne_none
    intro e he
    cases hg : b.get e.1 with
    | none => simp
    | some v => exact h e he (e.1, v) (get_mem hg)
  · exact ⟨_, rfl⟩

/-- maps with distinct keys are equal if and only if they have the same keys and equal values -/
theorem mapEq_iff {V : Type} {eq : V → V → Option Bool} {a b : AMap Id V} (ha : (a.map (·.1)).Nodup) (hb : (b.map (·.1)).Nodup) :
    mapEq eq a b = some true ↔
      (∀ i, a.has i = b.has i) ∧ ∀ i v w, a.get i = some v → b.get i = some w → eq v w = some true := by
  unfold mapEq
  constructor
  · intro h
    split at h
    · rename_i hl
      rw [allM_true] at h
      have hsub : ∀ i, a.has i = true → b.has i = true := by
        intro i hi
        obtain ⟨v, hv⟩ := has_get.mp hi
        have := h _ (get_mem hv)
        cases hg : b.get i with
        | none => simp [hg] at this
        | some w => exact has_get.mpr ⟨w, hg⟩
      have hmem : ∀ i, i ∈ b.map (·.1) → i ∈ a.map (·.1) := by
        have hs : a.map (·.1) ⊆ b.map (·.1) := fun i hi =>
          (AMap.has_iff_mem _ _).mp (hsub i ((AMap.has_iff_mem _ _).mpr hi))
        have hp : (a.map (·.1)).Perm (b.map (·.1)) := (List.subperm_of_subset ha hs).perm_of_length_le (by simp [hl])
        exact fun i hi => hp.mem_iff.mpr hi
      refine ⟨fun i => ?_, ?_⟩
      · rw [Bool.eq_iff_iff]
        exact ⟨hsub i, fun hi => (AMap.has_iff_mem _ _).mpr (hmem i ((AMap.has_iff_mem _ _).mp hi))⟩
      · intro i v w hv hw
        have := h _ (get_mem hv)
        simpa [hw] using this
    · simp at h
  · rintro ⟨h1, h2⟩
    have hp : (a.map (·.1)).Perm (b.map (·.1)) := by
      rw [List.perm_ext_iff_of_nodup ha hb]
      intro i
      rw [← AMap.has_iff_mem, ← AMap.has_iff_mem, h1]
    have hl : a.length = b.length := by simpa using hp.length_eq
    rw [if_pos hl, allM_true]
    intro e he
    have hg := AMap.get_of_mem ha he
    have hh : b.has e.1 = true := by rw [← h1]; exact has_get.mpr ⟨_, hg⟩
    obtain ⟨w, hw⟩ := has_get.mp hh
    simp only [hw]
    exact h2 _ _ _ hg hw

theorem layer_id {V : Type} {idf : V → Id} {l : AMap Id V} (h : Layer idf l) {i : Id} {v : V} (hv : l.get i = some v) : idf v = i :=
  h.key _ (get_mem hv)

theorem fileEq_true {a b : File D} (h : ∃ v, mapEq relEq a.relations b.relations = some v) :
    (∃ v, fileEq a b = some v) ∧ (fileEq a b = some true ↔
      mapEq (fun x y => some (nodeEq x y)) a.nodes b.nodes = some true ∧
      mapEq (fun x y => some (wayEq x y)) a.ways b.ways = some true ∧ mapEq relEq a.relations b.relations = some true) := by
  obtain ⟨v, hv⟩ := h
  obtain ⟨v1, h1⟩ := mapEq_total (eq := fun x y => some (nodeEq x y)) (a := a.nodes) (b := b.nodes) (by simp)
  obtain ⟨v2, h2⟩ := mapEq_total (eq := fun x y => some (wayEq x y)) (a := a.ways) (b := b.ways) (by simp)
  simp only [fileEq, h1, h2, hv]
  cases v1 <;> cases v2 <;> simp

/-- C75: comparing two files from `read` or `writeMap` never fails; they compare equal if and only if they have primitives with the
same ids, ways with the same nodes and relations with as many members, which have at each place the same type or the same id.
Missing: the same type **and** the same id, which the code does not test (see `fileEq_members_counterexample`). -/
theorem fileEq_iff_partial {a b : File D} (ha : FileOk a) (hb : FileOk b) :
    (∃ v, fileEq a b = some v) ∧ (fileEq a b = some true ↔ SameIds AlikeTarget a b) := by
  have hr : ∃ v, mapEq relEq a.relations b.relations = some v := by
    apply mapEq_total
    intro e he f hf hc
    obtain ⟨v, hv⟩ := (relEq_iff (fileOk_nonNull ha e he) (fileOk_nonNull hb f hf)).1
    rw [hv] at hc; cases hc
  obtain ⟨h1, h2⟩ := fileEq_true hr
  refine ⟨h1, h2.trans ?_⟩
  rw [mapEq_iff ha.nodes.nodup hb.nodes.nodup, mapEq_iff ha.ways.nodup hb.ways.nodup, mapEq_iff ha.relations.nodup hb.relations.nodup]
  constructor
  · rintro ⟨⟨n1, -⟩, ⟨w1, w2⟩, ⟨r1, r2⟩⟩
    refine ⟨n1, ?_, r1, ?_⟩
    · intro i
      have hh := w1 i
      rw [AMap.has_eq, AMap.has_eq] at hh
      cases hx : a.ways.get i with
      | none =>
        cases hy : b.ways.get i with
        | none => rfl
        | some y => rw [hx, hy] at hh; simp at hh
      | some x =>
        cases hy : b.ways.get i with
        | none => rw [hx, hy] at hh; simp at hh
        | some y =>
          have := w2 i x y hx hy
          simp only [Option.some.injEq] at this
          simp [((wayEq_iff x y).mp this).2]
    · intro i r s hr hs
      exact ((relEq_iff (fileOk_nonNull ha _ (get_mem hr)) (fileOk_nonNull hb _ (get_mem hs))).2.mp (r2 i r s hr hs)).2
  · intro h
    refine ⟨⟨h.nodes, ?_⟩, ⟨?_, ?_⟩, ⟨h.relations, ?_⟩⟩
    · intro i v w hv hw
      simp [nodeEq, layer_id ha.nodes hv, layer_id hb.nodes hw]
    · intro i
      have := congrArg Option.isSome (h.ways i)
      simpa [AMap.has_eq] using this
    · intro i v w hv hw
      have := h.ways i
      rw [hv, hw] at this
      simp only [Option.map_some, Option.some.injEq] at this
      simp only [Option.some.injEq]
      exact (wayEq_iff v w).mpr ⟨(layer_id ha.ways hv).trans (layer_id hb.ways hw).symm, this⟩
    · intro i v w hv hw
      exact (relEq_iff (fileOk_nonNull ha _ (get_mem hv)) (fileOk_nonNull hb _ (get_mem hw))).2.mpr
        ⟨(layer_id ha.relations hv).trans (layer_id hb.relations hw).symm, h.members i v w hv hw⟩

/-- C75: files with the same ids, the same nodes of ways and the same members compare equal. -/
theorem fileEq_same {a b : File D} (ha : FileOk a) (hb : FileOk b) (h : SameIds SameTarget a b) : fileEq a b = some true := by
  rw [(fileEq_iff_partial ha hb).2]
  exact ⟨h.nodes, h.ways, h.relations, fun i r s hr hs => ⟨(h.members i r s hr hs).1, fun k x y hx hy s t hs ht =>
    .inl ((h.members i _ _ ‹_› ‹_›).2 k x y hx hy s t hs ht).1⟩⟩

/-- C75: a file compares equal to itself. -/
theorem fileEq_refl {a : File D} (ha : FileOk a) : fileEq a a = some true := by
  apply fileEq_same ha ha
  refine ⟨fun _ => rfl, fun _ => rfl, fun _ => rfl, ?_⟩
  intro i r s hr hs
  rw [hr] at hs
  cases hs
  refine ⟨rfl, ?_⟩
  intro k x y hx hy s t hs ht
  rw [hx] at hy
  cases hy
  rw [hs] at ht
  cases ht
  exact ⟨rfl, rfl⟩

/-- C75: it does not matter which file is on which side. -/
theorem fileEq_symm {a b : File D} (ha : FileOk a) (hb : FileOk b) : fileEq a b = fileEq b a := by
  have key : ∀ {a b : File D}, SameIds AlikeTarget a b → SameIds AlikeTarget b a := by
    intro a b h
    refine ⟨fun i => (h.nodes i).symm, fun i => (h.ways i).symm, fun i => (h.relations i).symm, ?_⟩
    intro i r s hr hs
    obtain ⟨h1, h2⟩ := h.members i s r hs hr
    exact ⟨h1.symm, fun k x y hx hy s t hs ht => (h2 k y x hy hx t s ht hs).imp Eq.symm Eq.symm⟩
  obtain ⟨⟨v, hv⟩, h1⟩ := fileEq_iff_partial ha hb
  obtain ⟨⟨w, hw⟩, h2⟩ := fileEq_iff_partial hb ha
  have : v = true ↔ w = true := by
    have h1 : v = true ↔ SameIds AlikeTarget a b := by rw [← h1, hv, Option.some.injEq]
    have h2 : w = true ↔ SameIds AlikeTarget b a := by rw [← h2, hw, Option.some.injEq]
    rw [h1, h2]
    exact ⟨key, key⟩
  rw [hv, hw, Bool.eq_iff_iff.mpr this]

/-- C75: a file that is written to a document and read again compares equal to what it was. -/
theorem fileEq_round_trip (f : Numbers D) (front : Nat → Nat → Bool) {file : File D} (h : DocOk file) :
    ∃ doc file', writeDoc f file = some doc ∧ read f.zero f.num front doc = some (file', []) ∧ fileEq file file' = some true := by
  obtain ⟨doc, file', h1, h2, h3⟩ := read_writeDoc f front h
  refine ⟨doc, file', h1, h2, fileEq_same h.ok (read_fileOk _ _ _ _ h2) ⟨?_, ?_, ?_, ?_⟩⟩
  · intro i
    rw [AMap.has_eq, AMap.has_eq, h3.nodes i, Option.isSome_map]
  · intro i; rw [h3.ways i]
  · intro i
    have := congrArg Option.isSome (h3.relations i)
    rw [AMap.has_eq, AMap.has_eq]
    simpa using this.symm
  · intro i r s hr hs
    have := h3.relations i
    rw [hr, hs] at this
    simp only [Option.map_some, Option.some.injEq, Prod.mk.injEq] at this
    have hm := this.2.2
    refine ⟨by rw [hm], ?_⟩
    intro k x y hx hy u v hu hv
    rw [hm, hx] at hy
    cases hy
    rw [hu] at hv
    cases hv
    exact ⟨rfl, rfl⟩

/-! ### examples -/

/-- a file with two ways and a lanelet, whose left bound is `t`; Example. -/
def boundFile (t : Target) : File Int where
  nodes := [(1, ⟨1, [], 0, 0, 0⟩), (2, ⟨2, [], 1, 0, 0⟩)]
  ways := [(1, ⟨1, [], [1, 2]⟩), (2, ⟨2, [], [2, 1]⟩)]
  relations := [(5, ⟨5, [("type", "lanelet")], ⟨0, [("left", some t), ("right", some (.way 2))]⟩⟩)]

theorem boundFile_ok (t : Target) (h : ∀ i, t ≠ .relation i) : FileOk (boundFile t) := by
  refine ⟨⟨by simp [boundFile], by simp [boundFile]⟩, ⟨by simp [boundFile], by simp [boundFile]⟩, ⟨by simp [boundFile], by simp [boundFile]⟩, ?_, ?_, ?_, ?_⟩
  · intro e he; simp only [boundFile, List.mem_cons, List.not_mem_nil, or_false] at he; rcases he with rfl | rfl <;> simp [Attrs.Ok]
  · intro e he; simp only [boundFile, List.mem_cons, List.not_mem_nil, or_false] at he; rcases he with rfl | rfl <;> simp [Attrs.Ok]
  · intro e he; simp only [boundFile, List.mem_singleton] at he; subst he; simp [Attrs.Ok]
  · intro e he x hx
    simp only [boundFile, List.mem_singleton] at he
    subst he
    simp only [List.mem_cons, List.not_mem_nil, or_false] at hx
    rcases hx with rfl | rfl
    · exact ⟨t, rfl, fun i hi => absurd hi (h i)⟩
    · exact ⟨_, rfl, fun i hi => by cases hi⟩

example : fileEq (boundFile (.way 1)) (boundFile (.way 1)) = some true := fileEq_refl (boundFile_ok _ (by simp))

example : fileEq exFile (boundFile (.way 1)) = some false := by decide

/-- C75 as a user would state it: files that compare equal have the same members. The test uses "and" instead of "or"
(OsmFile.cpp 330): lanelets with different left bounds compare equal. -/
theorem fileEq_members_counterexample :
    ∃ a b : File Int, FileOk a ∧ FileOk b ∧ fileEq a b = some true ∧ ¬ SameIds SameTarget a b := by
  refine ⟨boundFile (.way 1), boundFile (.way 2), boundFile_ok _ (by simp), boundFile_ok _ (by simp), by decide, ?_⟩
  intro h
  have := ((h.members 5 _ _ rfl rfl).2 0 _ _ rfl rfl _ _ rfl rfl).2
  revert this; decide

/-- C75: comparison for equality is not transitive. -/
theorem fileEq_trans_counterexample :
    ∃ a b c : File Int, FileOk a ∧ FileOk b ∧ FileOk c ∧ fileEq a b = some true ∧ fileEq b c = some true ∧ fileEq a c = some false :=
  ⟨boundFile (.way 1), boundFile (.way 2), boundFile (.node 2), boundFile_ok _ (by simp), boundFile_ok _ (by simp),
    boundFile_ok _ (by simp), by decide, by decide, by decide⟩

/-- C75: attributes, coordinates and roles do not take part: a lanelet with exchanged roles compares equal. -/
theorem fileEq_roles_counterexample :
    ∃ a b : File Int, FileOk a ∧ FileOk b ∧ fileEq a b = some true ∧
      (a.relations.get 5).map (fun r => r.members.items.map (·.1)) = some ["left", "right"] ∧
      (b.relations.get 5).map (fun r => r.members.items.map (·.1)) = some ["right", "left"] := by
  refine ⟨boundFile (.way 1),
    { boundFile (.way 1) with relations := [(5, ⟨5, [("type", "lanelet")], ⟨0, [("right", some (.way 1)), ("left", some (.way 2))]⟩⟩)] },
    boundFile_ok _ (by simp), ?_, by decide, by decide, by decide⟩
  refine ⟨⟨by decide, by decide⟩, ⟨by decide, by decide⟩, ⟨by decide, by decide⟩, ?_, ?_, ?_, ?_⟩
  · simp only [Attrs.Ok]; decide
  · simp only [Attrs.Ok]; decide
  · simp only [Attrs.Ok]; decide
  · intro e he x hx
    simp only [List.mem_singleton] at he
    subst he
    simp only [List.mem_cons, List.not_mem_nil, or_false] at hx
    rcases hx with rfl | rfl <;> exact ⟨_, rfl, fun i hi => by cases hi⟩

end Verif.Osm
