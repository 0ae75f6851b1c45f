import Verif.Plan.Vehicle
import Verif.Osm.Doc
import Verif.Osm.LoadProps
import Mathlib.Logic.Equiv.Nat
import Mathlib.Tactic.Tauto

/-!
C77: planning on a map that was saved as an OSM file and loaded again.

`MTrip` says what a legal trip is in terms of the primitives of the map (ids, tags, references of lanelets to linestrings, of linestrings to points).
The routing graph of such a map finds shortest trips of this kind, however its objects are laid out in memory; and saving and loading changes none of
them.
-/
set_option linter.unusedSectionVars false
namespace Verif.Plan
open Verif.Graph (RGraph pathView TestsOk)
open Verif.Search (Cost PickMin)
open Verif.LineStr (LS)
open Verif.Lanelet (LH World points leftBound rightBound)
open Verif.Build
open Verif.Cost (Dbl Module dblTests distanceModule)
open Verif.Rules (Str key find attrStr attrBool Governs Decides SetFor Allowed AllowedByType OneWayFor MayCross MarkPermits TagsComplete Sorted hasTag tagYes)
open Verif.Osm (Id AMap LMap MLine MLanelet Ref MapOk Distinct SelfContained Representable SameMap)

variable {P V F : Type} [Field F] [LinearOrder F] [IsStrictOrderedRing F]

/-! ### specification -/

/-- Specification: a lanelet (by its id) in one of its two directions (`true`: against it). -/
abbrev Dir := Id × Bool

/-- Specification: who drives: the participant, how the values of tags are read as yes or no, and what the rules of the country say about the
regulatory elements with these ids. -/
structure Driver where
  participant : Str
  asBool : Str → Option Bool
  byRule : List Id → Option Bool

/-- Specification: the tags of a primitive. -/
def tags (a : Osm.Attrs) : Rules.Attrs := a.map fun e => (key e.1, key e.2)

/-- Specification: the same linestring seen from its other end. -/
def back (r : Ref) : Ref := { r with inv := !r.inv }

/-- Specification: the left bound in the direction of travel. -/
def leftRef (l : MLanelet) (inv : Bool) : Ref := if inv then back l.right else l.left

/-- Specification: the right bound in the direction of travel. -/
def rightRef (l : MLanelet) (inv : Bool) : Ref := if inv then back l.left else l.right

/-- Specification: the points of a linestring in the direction in which it is referred to. -/
def pointIds (m : LMap P) (r : Ref) : List Id :=
  let ids := ((m.lines.get r.id).map fun l => l.pts.map (·.id)).getD []
  if r.inv then ids.reverse else ids

/-- Specification: references to the same linestring in the same direction. -/
def SameRef (r s : Ref) : Prop := r.id = s.id ∧ r.inv = s.inv

/-- Specification: one-way for the participant: tag one_way, else tags one_way:participant (default yes), else yes for all but pedestrians. -/
def OneWayTags (q : Driver) (a : Rules.Attrs) : Prop :=
  match (find a (key "one_way")).bind q.asBool with
  | some b => b = true
  | none =>
    (SetFor a (key "one_way") ∧ Decides q.asBool a (key "one_way") (key "one_way:" ++ q.participant) true true) ∨
    (¬ SetFor a (key "one_way") ∧ q.participant ≠ key "pedestrian")

/-- Specification: meant for the participant: by a rule of the country, else by participant tags, else by the subtype. -/
def AllowedTags (q : Driver) (regs : List Id) (a : Rules.Attrs) : Prop :=
  match q.byRule regs with
  | some b => b = true
  | none =>
    (SetFor a (key "participant") ∧ Decides q.asBool a (key "participant") (key "participant:" ++ q.participant) false true) ∨
    (¬ SetFor a (key "participant") ∧ AllowedByType (attrStr a (key "subtype") []) q.participant)

/-- Specification: the driver may use the lanelet in this direction. -/
def MDrive (m : LMap P) (q : Driver) (d : Dir) : Prop :=
  ∃ l, m.lanelets.get d.1 = some l ∧ (d.2 = false ∨ ¬ OneWayTags q (tags l.attrs)) ∧ AllowedTags q (l.regs.map (·.id)) (tags l.attrs)

/-- Specification: both bounds of `b` begin at the point where those of `a` end. -/
def MJoins (m : LMap P) (a b : Dir) : Prop :=
  ∃ la lb, m.lanelets.get a.1 = some la ∧ m.lanelets.get b.1 = some lb ∧ ∃ l r,
    (pointIds m (leftRef la a.2)).getLast? = some l ∧ (pointIds m (leftRef lb b.2)).head? = some l ∧
    (pointIds m (rightRef la a.2)).getLast? = some r ∧ (pointIds m (rightRef lb b.2)).head? = some r

/-- Specification: `a` and `b` share a bound, whose tags permit to cross it from the side of `a`. -/
def MChange (m : LMap P) (q : Driver) (a b : Dir) : Prop :=
  ∃ la lb, m.lanelets.get a.1 = some la ∧ m.lanelets.get b.1 = some lb ∧
    ((SameRef (rightRef la a.2) (leftRef lb b.2) ∧ ∃ line, m.lines.get (rightRef la a.2).id = some line ∧
        MayCross q.asBool (tags line.attrs) q.participant (!(rightRef la a.2).inv)) ∨
     (¬ SameRef (rightRef la a.2) (leftRef lb b.2) ∧ SameRef (leftRef la a.2) (rightRef lb b.2) ∧
        ∃ line, m.lines.get (leftRef la a.2).id = some line ∧
        MayCross q.asBool (tags line.attrs) q.participant (leftRef la a.2).inv))

/-- Specification: a legal trip, in terms of the map. `value` is the length of a lanelet or the time to drive along it; a lane change (only if `lc`)
takes `κ`. -/
inductive MTrip (m : LMap P) (q : Driver) (value : Dir → F) (lc : Bool) (κ : F) : List Dir → F → Prop
  | start (a : Dir) : MDrive m q a → MTrip m q value lc κ [a] 0
  | ahead {ds : List Dir} {c : F} {a : Dir} (b : Dir) : MTrip m q value lc κ ds c → ds.getLast? = some a → MDrive m q b → MJoins m a b →
      MTrip m q value lc κ (ds ++ [b]) (c + (value a + value b) / 2)
  | change {ds : List Dir} {c : F} {a : Dir} (b : Dir) : lc = true → MTrip m q value lc κ ds c → ds.getLast? = some a → MDrive m q b → a ≠ b →
      MChange m q a b → MTrip m q value lc κ (ds ++ [b]) (c + κ)

/-! ### the map as the routing graph sees it -/

/-- Specification: attributes in memory: sorted by key, as in a std::map, and the same as the tags. -/
def Reads (a : Osm.Attrs) (b : Rules.Attrs) : Prop := Sorted b ∧ ∀ k v, (k, v) ∈ b ↔ (k, v) ∈ tags a

/-- Specification: the handle of a lanelet. -/
def handle (num : Id ≃ Nat) (d : Dir) : LH := ⟨num d.1, d.2⟩

/-- Specification: the input of the routing graph is this map, seen with these rules and costs: primitives are objects in memory (the object of the
primitive with id `i` is number `num i`), which refer to each other as in the map. -/
structure Fits (num : Id ≃ Nat) (m : LMap P) (q : Driver) (i : Input Id (Dbl F)) (e : Rules.Env Id V) (r : Rules.Rules V) (k : Nat)
    (cm : CostModule (Dbl F)) (value : Dir → F) : Prop where
  setup : Setup i e r k cm fun ll => value (num.symm ll.data, ll.inv)
  lines : ∀ id l, m.lines.get id = some l → e.w.pts (num id) = l.pts.map (·.id) ∧ Reads l.attrs (e.lsAttr (num id))
  lanelets : ∀ id l, m.lanelets.get id = some l →
    (e.w.lls (num id)).left = ⟨num l.left.id, l.left.inv⟩ ∧ (e.w.lls (num id)).right = ⟨num l.right.id, l.right.inv⟩ ∧
    (e.w.lls (num id)).regs = l.regs.map (fun x => num x.id) ∧ Reads l.attrs (e.llAttr (num id))
  layer : ∀ ll, ll ∈ i.lanelets ↔ ll.inv = false ∧ m.lanelets.has (num.symm ll.data) = true
  participant : r.participant = q.participant
  asBool : e.asBool = q.asBool
  byRule : ∀ ids : List Id, r.byRule (ids.map num) = q.byRule ids

/-- Specification: keys of attributes are unique and bounds of lanelets are in the map. -/
structure Sound (m : LMap P) : Prop where
  lineTags : ∀ id l, m.lines.get id = some l → l.attrs.Ok
  laneletTags : ∀ id l, m.lanelets.get id = some l → l.attrs.Ok
  bounds : ∀ id l, m.lanelets.get id = some l → m.lines.has l.left.id = true ∧ m.lines.has l.right.id = true

theorem Sound.of_map {m : LMap P} (hok : MapOk m) (hs : SelfContained m) : Sound m where
  lineTags _ _ h := hok.lineAttrs _ (AMap.mem_of_get h)
  laneletTags _ _ h := hok.laneletAttrs _ (AMap.mem_of_get h)
  bounds i l h := by
    have := (hs.lanelets i l h).1
    exact ⟨(this l.left (by simp)).2, (this l.right (by simp)).2⟩

theorem Sound.same {rt : P → P} {m m' : LMap P} (h : SameMap rt m m') (hok : Sound m) : Sound m' where
  lineTags i l hl := by
    rw [h.lines] at hl
    obtain ⟨l', hl', rfl⟩ := Option.map_eq_some_iff.mp hl
    exact hok.lineTags i l' hl'
  laneletTags i l hl := by
    rw [h.lanelets] at hl
    obtain ⟨l', hl', rfl⟩ := Option.map_eq_some_iff.mp hl
    exact AMap.nodup_emplace _ _ _ (hok.laneletTags i l' hl')
  bounds i l hl := by
    rw [h.lanelets] at hl
    obtain ⟨l', hl', rfl⟩ := Option.map_eq_some_iff.mp hl
    have := hok.bounds i l' hl'
    simpa [AMap.has_eq, h.lines] using this

/-! ### tags -/

theorem key_inj {a b : String} : key a = key b ↔ a = b := by
  unfold key
  constructor
  · intro h
    rw [← String.ofList_toList (s := a), h, String.ofList_toList]
  · rintro rfl; rfl

/-- Helper of the proofs: the first entry of a list with unique keys is its entry. -/
theorem find_iff {a : Rules.Attrs} (h : ∀ k v v', (k, v) ∈ a → (k, v') ∈ a → v = v') (k v : Str) : find a k = some v ↔ (k, v) ∈ a := by
  unfold find
  constructor
  · intro h'
    obtain ⟨e, he, rfl⟩ := Option.map_eq_some_iff.mp h'
    have h1 := List.find?_some he
    simp only [beq_iff_eq] at h1
    have := List.mem_of_find?_eq_some he
    rw [← h1]
    exact this
  · intro hm
    cases hf : a.find? fun e => e.1 == k with
    | none =>
      have := List.find?_eq_none.mp hf _ hm
      simp at this
    | some e =>
      have h1 := List.find?_some hf
      simp only [beq_iff_eq] at h1
      have h2 := List.mem_of_find?_eq_some hf
      obtain ⟨k', v'⟩ := e
      simp only at h1
      subst h1
      rw [Option.map_some, h _ _ _ h2 hm]

/-- Helper of the proofs: keys are unique. -/
def Unique (a : Rules.Attrs) : Prop := ∀ k v v', (k, v) ∈ a → (k, v') ∈ a → v = v'

theorem sorted_unique {a : Rules.Attrs} (h : Sorted a) : Unique a := fun _ _ _ h1 h2 => Rules.sorted_inj h h1 h2

theorem mem_tags (a : Osm.Attrs) (k v : Str) : (k, v) ∈ tags a ↔ ∃ s t, k = key s ∧ v = key t ∧ (s, t) ∈ a := by
  unfold tags
  rw [List.mem_map]
  constructor
  · rintro ⟨⟨s, t⟩, h, h'⟩
    simp only [Prod.mk.injEq] at h'
    exact ⟨s, t, h'.1.symm, h'.2.symm, h⟩
  · rintro ⟨s, t, rfl, rfl, h⟩
    exact ⟨_, h, rfl⟩

theorem tags_unique {a : Osm.Attrs} (h : a.Ok) : Unique (tags a) := by
  intro k v v' h1 h2
  obtain ⟨s, t, rfl, rfl, m1⟩ := (mem_tags ..).mp h1
  obtain ⟨s', t', hs, rfl, m2⟩ := (mem_tags ..).mp h2
  rw [key_inj] at hs
  subst hs
  have e1 := AMap.get_of_mem h m1
  have e2 := AMap.get_of_mem h m2
  simp only at e1 e2
  rw [e1] at e2
  cases e2
  rfl

/-- Helper of the proofs: the same tags, apart from those with this key. -/
def SameBut (k : Str) (a b : Rules.Attrs) : Prop := Unique a ∧ Unique b ∧ ∀ k' v, k' ≠ k → ((k', v) ∈ a ↔ (k', v) ∈ b)

theorem find_congr {k k' : Str} {a b : Rules.Attrs} (h : SameBut k a b) (hk : k' ≠ k) : find a k' = find b k' := by
  obtain ⟨h1, h2, h3⟩ := h
  apply Option.ext
  intro v
  rw [find_iff h1, find_iff h2, h3 _ _ hk]

theorem setFor_congr {k pre : Str} {a b : Rules.Attrs} (h : SameBut k a b) (hk : ¬ pre <+: k) : SetFor a pre ↔ SetFor b pre := by
  unfold SetFor
  refine exists_congr fun k' => exists_congr fun v => and_congr_left fun hp => h.2.2 k' v ?_
  rintro rfl
  exact hk hp

theorem governs_congr {k pre tag : Str} {a b : Rules.Attrs} (h : SameBut k a b) (hk : k.length < pre.length) (k' v : Str) :
    Governs a pre tag k' v ↔ Governs b pre tag k' v := by
  unfold Governs
  refine and_congr_left fun hp => h.2.2 k' v ?_
  rintro rfl
  omega

theorem decides_congr {k pre tag : Str} {as : Str → Option Bool} {a b : Rules.Attrs} {d x : Bool} (h : SameBut k a b) (hk : k.length < pre.length) :
    Decides as a pre tag d x ↔ Decides as b pre tag d x := by
  unfold Decides
  simp only [governs_congr h hk]

theorem oneWay_congr {q : Driver} {a b : Rules.Attrs} (h : SameBut (key "type") a b) : OneWayTags q a ↔ OneWayTags q b := by
  unfold OneWayTags
  rw [find_congr h (by decide)]
  cases (find b (key "one_way")).bind q.asBool with
  | some x => rfl
  | none =>
    simp only
    rw [setFor_congr h (by decide), decides_congr h (by decide)]

theorem allowed_congr {q : Driver} {regs : List Id} {a b : Rules.Attrs} (h : SameBut (key "type") a b) :
    AllowedTags q regs a ↔ AllowedTags q regs b := by
  unfold AllowedTags
  cases q.byRule regs with
  | some x => rfl
  | none =>
    simp only
    rw [setFor_congr h (by decide), decides_congr h (by decide), attrStr, attrStr, find_congr h (by decide)]

theorem cross_congr {as : Str → Option Bool} {a b : Rules.Attrs} (ha : Unique a) (hb : Unique b) (h : ∀ k v, (k, v) ∈ a ↔ (k, v) ∈ b) (p : Str) (right : Bool) :
    MayCross as a p right ↔ MayCross as b p right := by
  have hf : find a = find b := by
    funext k
    apply Option.ext
    intro v
    rw [find_iff ha, find_iff hb, h]
  unfold MayCross hasTag tagYes attrBool attrStr
  rw [hf]

theorem reads_same {a : Osm.Attrs} {b : Rules.Attrs} (ha : a.Ok) (h : Reads a b) (k : Str) : SameBut k b (tags a) :=
  ⟨sorted_unique h.1, tags_unique ha, fun k' v _ => h.2 k' v⟩

theorem emplace_same {a : Osm.Attrs} (ha : a.Ok) (k v : String) : SameBut (key k) (tags a) (tags (a.emplace k v)) := by
  refine ⟨tags_unique ha, tags_unique (AMap.nodup_emplace _ _ _ ha), ?_⟩
  intro k' v' hk
  rw [mem_tags, mem_tags]
  refine exists_congr fun s => exists_congr fun t => and_congr_right fun h1 => and_congr_right fun _ => ?_
  unfold AMap.emplace
  split
  · rfl
  · simp only [List.mem_append, List.mem_singleton, Prod.mk.injEq]
    constructor
    · exact .inl
    · rintro (h | ⟨rfl, -⟩)
      · exact h
      · exact absurd h1 hk

/-! ### the graph sees the trips of the map -/

section
variable {num : Id ≃ Nat} {m : LMap P} {q : Driver} {i : Input Id (Dbl F)} {e : Rules.Env Id V} {r : Rules.Rules V} {k : Nat}
  {cm : CostModule (Dbl F)} {value : Dir → F} (S : Fits num m q i e r k cm value) (hok : Sound m)
include S

theorem handle_inj {a b : Dir} : handle num a = handle num b ↔ a = b := by
  unfold handle
  obtain ⟨x, u⟩ := a
  obtain ⟨y, v⟩ := b
  simp

theorem handle_symm (ll : LH) : handle num (num.symm ll.data, ll.inv) = ll := by
  unfold handle
  simp

include hok

theorem mdrive_iff (d : Dir) : MayDrive e r i.lanelets (handle num d) ↔ MDrive m q d := by
  obtain ⟨id, inv⟩ := d
  unfold MayDrive MDrive
  rw [S.layer]
  simp only [handle, Equiv.symm_apply_apply, true_and, AMap.has_eq]
  cases hl : m.lanelets.get id with
  | none => simp
  | some l =>
    obtain ⟨-, -, h3, h4⟩ := S.lanelets id l hl
    have hsame := reads_same (hok.laneletTags _ _ hl) h4 (key "type")
    have ho : OneWayFor e (num id) r.participant ↔ OneWayTags q (tags l.attrs) := by
      rw [← oneWay_congr hsame]
      unfold OneWayFor OneWayTags
      rw [S.asBool, S.participant]
      rfl
    have ha : Allowed e.asBool r (e.w.lls (num id)).regs (e.llAttr (num id)) ↔ AllowedTags q (l.regs.map (·.id)) (tags l.attrs) := by
      rw [← allowed_congr hsame]
      have hb := S.byRule (l.regs.map (·.id))
      rw [List.map_map] at hb
      unfold Allowed AllowedTags
      rw [h3, S.asBool, S.participant]
      change r.byRule (l.regs.map fun x => num x.id) = _ at hb
      rw [hb]
      rfl
    rw [ho, ha]
    simp

omit hok in
theorem left_handle {id : Id} {l : MLanelet} (hl : m.lanelets.get id = some l) (inv : Bool) :
    leftBound e.w (handle num (id, inv)) = ⟨num (leftRef l inv).id, (leftRef l inv).inv⟩ := by
  obtain ⟨h1, h2, -⟩ := S.lanelets id l hl
  unfold leftBound handle leftRef
  cases inv <;> simp [h1, h2, LineStr.invert, back]

omit hok in
theorem right_handle {id : Id} {l : MLanelet} (hl : m.lanelets.get id = some l) (inv : Bool) :
    rightBound e.w (handle num (id, inv)) = ⟨num (rightRef l inv).id, (rightRef l inv).inv⟩ := by
  obtain ⟨h1, h2, -⟩ := S.lanelets id l hl
  unfold rightBound handle rightRef
  cases inv <;> simp [h1, h2, LineStr.invert, back]

omit hok in
theorem points_ref {ref : Ref} (h : m.lines.has ref.id = true) : points e.w ⟨num ref.id, ref.inv⟩ = pointIds m ref := by
  rw [AMap.has_eq] at h
  obtain ⟨l, hl⟩ := Option.isSome_iff_exists.mp h
  unfold points pointIds
  simp only [(S.lines _ _ hl).1, hl, Option.map_some, Option.getD_some]

omit S in
theorem refs_in {id : Id} {l : MLanelet} (hl : m.lanelets.get id = some l) (inv : Bool) :
    m.lines.has (leftRef l inv).id = true ∧ m.lines.has (rightRef l inv).id = true := by
  obtain ⟨h1, h2⟩ := hok.bounds id l hl
  unfold leftRef rightRef back
  cases inv <;> simp [h1, h2]

theorem mjoins_iff {a b : Dir} (ha : (m.lanelets.get a.1).isSome) (hb : (m.lanelets.get b.1).isSome) :
    Joins e.w (handle num a) (handle num b) ↔ MJoins m a b := by
  obtain ⟨x, u⟩ := a
  obtain ⟨y, v⟩ := b
  obtain ⟨la, hla⟩ := Option.isSome_iff_exists.mp ha
  obtain ⟨lb, hlb⟩ := Option.isSome_iff_exists.mp hb
  simp only at hla hlb
  unfold Joins MJoins
  rw [left_handle S hla, left_handle S hlb, right_handle S hla, right_handle S hlb,
    points_ref S (refs_in hok hla u).1, points_ref S (refs_in hok hla u).2, points_ref S (refs_in hok hlb v).1, points_ref S (refs_in hok hlb v).2]
  simp [hla, hlb]

omit S hok in
theorem ref_eq_iff (x y : Ref) : ((⟨num x.id, x.inv⟩ : LS) = ⟨num y.id, y.inv⟩) ↔ SameRef x y := by
  unfold SameRef
  simp

theorem cross_ref {ref : Ref} (h : m.lines.has ref.id = true) (b : Bool) :
    MayCross e.asBool (e.lsAttr (num ref.id)) r.participant b ↔
      ∃ line, m.lines.get ref.id = some line ∧ MayCross q.asBool (tags line.attrs) q.participant b := by
  rw [AMap.has_eq] at h
  obtain ⟨l, hl⟩ := Option.isSome_iff_exists.mp h
  have h1 := (S.lines _ _ hl).2
  rw [cross_congr (sorted_unique h1.1) (tags_unique (hok.lineTags _ _ hl)) h1.2, S.asBool, S.participant]
  simp [hl]

theorem mchange_iff {a b : Dir} (ha : (m.lanelets.get a.1).isSome) (hb : (m.lanelets.get b.1).isSome) :
    MayChange e r (handle num a) (handle num b) ↔ MChange m q a b := by
  obtain ⟨x, u⟩ := a
  obtain ⟨y, v⟩ := b
  obtain ⟨la, hla⟩ := Option.isSome_iff_exists.mp ha
  obtain ⟨lb, hlb⟩ := Option.isSome_iff_exists.mp hb
  simp only at hla hlb
  unfold MayChange MChange
  rw [left_handle S hla, left_handle S hlb, right_handle S hla, right_handle S hlb]
  simp only [ref_eq_iff, ne_eq]
  rw [cross_ref S hok (refs_in hok hla u).1, cross_ref S hok (refs_in hok hla u).2]
  simp [hla, hlb]

omit hok in
theorem mdrive_some {d : Dir} (h : MDrive m q d) : (m.lanelets.get d.1).isSome := by
  obtain ⟨l, hl, -⟩ := h
  simp [hl]

theorem mtrip_drive {lc : Bool} {κ : F} {ds : List Dir} {x : F} (h : MTrip m q value lc κ ds x) : ∀ d ∈ ds, MDrive m q d := by
  induction h with
  | start a ha => simpa using ha
  | ahead b _ _ hb _ ih => intro d hd; rcases List.mem_append.mp hd with h | h
                           · exact ih d h
                           · simp only [List.mem_singleton] at h; subst h; exact hb
  | change b _ _ _ hb _ _ ih => intro d hd; rcases List.mem_append.mp hd with h | h
                                · exact ih d h
                                · simp only [List.mem_singleton] at h; subst h; exact hb

theorem trip_of_mtrip {lc : Bool} {κ : F} {ds : List Dir} {x : F} (h : MTrip m q value lc κ ds x) :
    Trip e r i.lanelets (fun ll => value (num.symm ll.data, ll.inv)) lc κ (ds.map (handle num)) x := by
  have hlast : ∀ {ds : List Dir} {a : Dir}, ds.getLast? = some a → (ds.map (handle num)).getLast? = some (handle num a) := by
    intro ds a h
    rw [List.getLast?_map, h]
    rfl
  induction h with
  | start a ha => exact .start _ ((mdrive_iff S hok a).mpr ha)
  | @ahead ds c a b ht hl hb hj ih =>
    rw [List.map_append]
    have ha := mdrive_some S (mtrip_drive S hok ht a (List.mem_of_getLast? hl))
    have := Trip.ahead (handle num b) ih (hlast hl) ((mdrive_iff S hok b).mpr hb) ((mjoins_iff S hok ha (mdrive_some S hb)).mpr hj)
    simpa [handle] using this
  | @change ds c a b hlc ht hl hb hne hj ih =>
    rw [List.map_append]
    have ha := mdrive_some S (mtrip_drive S hok ht a (List.mem_of_getLast? hl))
    exact Trip.change (handle num b) hlc ih (hlast hl) ((mdrive_iff S hok b).mpr hb) (fun h => hne ((handle_inj S).mp h))
      ((mchange_iff S hok ha (mdrive_some S hb)).mpr hj)

theorem mtrip_of_trip {lc : Bool} {κ : F} {hs' : List LH} {x : F}
    (h : Trip e r i.lanelets (fun ll => value (num.symm ll.data, ll.inv)) lc κ hs' x) :
    ∃ ds, hs' = ds.map (handle num) ∧ MTrip m q value lc κ ds x := by
  have hlast : ∀ {ds : List Dir} {a : LH}, (ds.map (handle num)).getLast? = some a → ∃ d, a = handle num d ∧ ds.getLast? = some d := by
    intro ds a h
    rw [List.getLast?_map] at h
    obtain ⟨d, h1, h2⟩ := Option.map_eq_some_iff.mp h
    exact ⟨d, h2.symm, h1⟩
  induction h with
  | start a ha =>
    rw [← handle_symm S a] at ha ⊢
    exact ⟨[_], rfl, .start _ ((mdrive_iff S hok _).mp ha)⟩
  | @ahead hs' c a b ht hl hb hj ih =>
    obtain ⟨ds, rfl, h1⟩ := ih
    obtain ⟨a, rfl, hl'⟩ := hlast hl
    obtain ⟨b, rfl⟩ : ∃ b', b = handle num b' := ⟨_, (handle_symm S b).symm⟩
    have hb' := (mdrive_iff S hok _).mp hb
    have ha := mdrive_some S (mtrip_drive S hok h1 a (List.mem_of_getLast? hl'))
    refine ⟨ds ++ [b], by simp, ?_⟩
    have := MTrip.ahead b h1 hl' hb' ((mjoins_iff S hok ha (mdrive_some S hb')).mp hj)
    simpa [handle] using this
  | @change hs' c a b hlc ht hl hb hne hj ih =>
    obtain ⟨ds, rfl, h1⟩ := ih
    obtain ⟨a, rfl, hl'⟩ := hlast hl
    obtain ⟨b, rfl⟩ : ∃ b', b = handle num b' := ⟨_, (handle_symm S b).symm⟩
    have hb' := (mdrive_iff S hok _).mp hb
    have ha := mdrive_some S (mtrip_drive S hok h1 a (List.mem_of_getLast? hl'))
    exact ⟨ds ++ [b], by simp, .change b hlc h1 hl' hb' (fun h => hne (by rw [h])) ((mchange_iff S hok ha (mdrive_some S hb')).mp hj)⟩

omit S hok in
theorem map_ends (ds : List Dir) (d : Dir) : ((ds.map (handle num)).head? = some (handle num d) ↔ ds.head? = some d) ∧
    ((ds.map (handle num)).getLast? = some (handle num d) ↔ ds.getLast? = some d) := by
  have hinj : ∀ a : Dir, handle num a = handle num d ↔ a = d := by
    intro a
    obtain ⟨x, u⟩ := a
    obtain ⟨y, v⟩ := d
    simp [handle]
  rw [List.head?_map, List.getLast?_map]
  constructor
  · cases ds.head? with
    | none => simp
    | some a => simp [hinj]
  · cases ds.getLast? with
    | none => simp
    | some a => simp [hinj]

/-- **C77.** `shortestPath` in a map: the shortest legal trip in terms of its primitives, nothing if there is none. -/
theorem map_shortestPath (g : RGraph Prim (Dbl F)) (hg : build i = some g) {pick : Nat → (Nat → Dbl F) → List Nat → Nat} (hpick : PickMin pick)
    (lc : Bool) (κ : F) (hch : ChangesOk i cm lc κ) (a b : Dir) (ha : MDrive m q a) (hb : MDrive m q b) :
    (g.shortestPath pick (.inl (handle num a)) (.inl (handle num b)) k lc false = .ok (some none) ∧
      ∀ ds x, MTrip m q value lc κ ds x → ds.head? = some a → ds.getLast? ≠ some b) ∨
    (∃ ds x, g.shortestPath pick (.inl (handle num a)) (.inl (handle num b)) k lc false = .ok (some (some (ds.map fun d => .inl (handle num d)))) ∧
      MTrip m q value lc κ ds x ∧ ds.head? = some a ∧ ds.getLast? = some b ∧
      ∀ ds' x', MTrip m q value lc κ ds' x' → ds'.head? = some a → ds'.getLast? = some b → x ≤ x') := by
  rcases shortestPath_trip S.setup g hg hpick lc κ hch (handle num a) (handle num b) ((mdrive_iff S hok a).mpr ha) ((mdrive_iff S hok b).mpr hb) with
    ⟨h1, h2⟩ | ⟨hs', x, h1, h2, h3, h4, h5⟩
  · exact .inl ⟨h1, fun ds x ht hh hl => h2 _ _ (trip_of_mtrip S hok ht) ((map_ends ds a).1.mpr hh) ((map_ends ds b).2.mpr hl)⟩
  · obtain ⟨ds, rfl, ht⟩ := mtrip_of_trip S hok h2
    refine .inr ⟨ds, x, by rw [h1, List.map_map]; rfl, ht, (map_ends ds a).1.mp h3, (map_ends ds b).2.mp h4, fun ds' x' ht' hh hl => ?_⟩
    exact h5 _ _ (trip_of_mtrip S hok ht') ((map_ends ds' a).1.mpr hh) ((map_ends ds' b).2.mpr hl)

/-- **C77.** `reachableSet` in a map: exactly the lanelets with a legal trip that is not longer than the limit. -/
theorem map_reachableSet (g : RGraph Prim (Dbl F)) (hg : build i = some g) {pick : Nat → (Nat → Dbl F) → List Nat → Nat} (hpick : PickMin pick)
    (lc : Bool) (κ : F) (hch : ChangesOk i cm lc κ) (a : Dir) (ha : MDrive m q a) (limit : F) :
    ∃ ls : List Dir, g.reachableSet pick false (.inl (handle num a)) (.fin limit) k (pathView lc false) =
        .ok (some (ls.map fun d => .inl (handle num d))) ∧ ls.Nodup ∧
      ∀ b, b ∈ ls ↔ ∃ ds x, MTrip m q value lc κ ds x ∧ ds.head? = some a ∧ ds.getLast? = some b ∧ x ≤ limit := by
  obtain ⟨ls, h1, h2, h3⟩ := reachableSet_trip S.setup g hg hpick lc κ hch (handle num a) ((mdrive_iff S hok a).mpr ha) limit
  have hls : ls = (ls.map fun ll => ((num.symm ll.data, ll.inv) : Dir)).map (handle num) := by
    rw [List.map_map]
    conv_lhs => rw [← List.map_id ls]
    exact List.map_congr_left fun ll _ => (handle_symm S ll).symm
  refine ⟨ls.map fun ll => (num.symm ll.data, ll.inv), ?_, ?_, ?_⟩
  · rw [h1]
    conv_lhs => rw [hls, List.map_map]
    rfl
  · rw [hls] at h2
    exact (List.pairwise_map.mp h2).imp fun h e => h (by rw [e])
  · intro b
    have hb : b ∈ (ls.map fun ll => ((num.symm ll.data, ll.inv) : Dir)) ↔ handle num b ∈ ls := by
      conv_rhs => rw [hls]
      rw [List.mem_map (f := handle num)]
      constructor
      · exact fun h => ⟨b, h, rfl⟩
      · rintro ⟨b', h, h'⟩
        rw [handle_inj S] at h'
        rw [← h']
        exact h
    rw [hb, h3]
    constructor
    · rintro ⟨hs', x, ht, p1, p2, p3⟩
      obtain ⟨ds, rfl, ht'⟩ := mtrip_of_trip S hok ht
      exact ⟨ds, x, ht', (map_ends ds a).1.mp p1, (map_ends ds b).2.mp p2, p3⟩
    · rintro ⟨ds, x, ht, p1, p2, p3⟩
      exact ⟨_, x, trip_of_mtrip S hok ht, (map_ends ds a).1.mpr p1, (map_ends ds b).2.mpr p2, p3⟩

end

/-! ### saving and loading keeps the trips -/

section
variable {rt : P → P} {m m' : LMap P} (h : SameMap rt m m') (hok : Sound m)
include h

theorem pointIds_same (r : Ref) : pointIds m' r = pointIds m r := by
  unfold pointIds
  rw [h.lines]
  cases m.lines.get r.id <;> rfl

include hok

theorem mdrive_same (q : Driver) (d : Dir) : MDrive m' q d ↔ MDrive m q d := by
  unfold MDrive
  rw [h.lanelets]
  cases hl : m.lanelets.get d.1 with
  | none => simp
  | some l =>
    have hs := emplace_same (hok.laneletTags _ _ hl) "type" "lanelet"
    simp only [Option.map_some, Option.some.injEq, exists_eq_left']
    rw [oneWay_congr hs, allowed_congr hs]

omit hok in
theorem mjoins_same (a b : Dir) : MJoins m' a b ↔ MJoins m a b := by
  unfold MJoins
  simp only [pointIds_same h, h.lanelets]
  cases m.lanelets.get a.1 <;> cases m.lanelets.get b.1 <;> simp [leftRef, rightRef]

omit hok in
theorem mchange_same (q : Driver) (a b : Dir) : MChange m' q a b ↔ MChange m q a b := by
  unfold MChange
  simp only [h.lanelets, h.lines]
  cases m.lanelets.get a.1 <;> cases m.lanelets.get b.1 <;> simp [leftRef, rightRef]

/-- The legal trips of the map that was saved and loaded are those of the map. -/
theorem mtrip_same (q : Driver) (value : Dir → F) (lc : Bool) (κ : F) (ds : List Dir) (x : F) :
    MTrip m' q value lc κ ds x ↔ MTrip m q value lc κ ds x := by
  constructor
  · intro ht
    induction ht with
    | start a ha => exact .start a ((mdrive_same h hok q a).mp ha)
    | ahead b _ hl hb hj ih => exact .ahead b ih hl ((mdrive_same h hok q b).mp hb) ((mjoins_same h _ b).mp hj)
    | change b hlc _ hl hb hne hj ih => exact .change b hlc ih hl ((mdrive_same h hok q b).mp hb) hne ((mchange_same h q _ b).mp hj)
  · intro ht
    induction ht with
    | start a ha => exact .start a ((mdrive_same h hok q a).mpr ha)
    | ahead b _ hl hb hj ih => exact .ahead b ih hl ((mdrive_same h hok q b).mpr hb) ((mjoins_same h _ b).mpr hj)
    | change b hlc _ hl hb hne hj ih => exact .change b hlc ih hl ((mdrive_same h hok q b).mpr hb) hne ((mchange_same h q _ b).mpr hj)

/-! ### costs -/

/-- Specification: the positions of the points of a bound. -/
def placed (m : LMap P) (r : Ref) : List (Option P) := (pointIds m r).map fun i => (m.points.get i).map (·.pos)

/-- Specification: the geometry of a lanelet in the direction of travel: left bound, right bound, and the centerline if one was set. -/
def shape (m : LMap P) (d : Dir) : Option (List (Option P) × List (Option P) × Option (List (Option P))) :=
  (m.lanelets.get d.1).map fun l => (placed m (leftRef l d.2), placed m (rightRef l d.2), l.center.map fun c => placed m (if d.2 then back c else c))

omit hok in
/-- The geometry of lanelets changes by what projecting back and forth does to positions, and not at all if that is exact. -/
theorem shape_same (d : Dir) :
    (shape m' d = (shape m d).map fun s => (s.1.map (Option.map rt), s.2.1.map (Option.map rt), s.2.2.map (List.map (Option.map rt)))) ∧
    ((∀ i p, m.points.get i = some p → rt p.pos = p.pos) → shape m' d = shape m d) := by
  have hp : ∀ r, placed m' r = (placed m r).map (Option.map rt) := by
    intro r
    unfold placed
    rw [pointIds_same h, List.map_map]
    refine List.map_congr_left fun i _ => ?_
    simp only [Function.comp, h.points]
    cases m.points.get i <;> rfl
  have hs : shape m' d = (shape m d).map fun s => (s.1.map (Option.map rt), s.2.1.map (Option.map rt), s.2.2.map (List.map (Option.map rt))) := by
    unfold shape
    rw [h.lanelets]
    cases m.lanelets.get d.1 with
    | none => rfl
    | some l =>
      simp only [Option.map_some, hp, leftRef, rightRef, Option.map_map]
      rfl
  refine ⟨hs, fun hrt => ?_⟩
  have hp' : ∀ r, (placed m r).map (Option.map rt) = placed m r := by
    intro r
    unfold placed
    rw [List.map_map]
    refine List.map_congr_left fun i _ => ?_
    simp only [Function.comp]
    cases hi : m.points.get i with
    | none => rfl
    | some p => simp [hrt i p hi]
  rw [hs]
  unfold shape
  cases m.lanelets.get d.1 with
  | none => rfl
  | some l =>
    simp only [Option.map_some, hp', Option.map_map]
    congr 3
    cases l.center with
    | none => rfl
    | some c => simp [hp']

omit h hok in
/-- If the lengths of lanelets change by at most `ε`, then those of trips change by at most `ε` for each lanelet. -/
theorem mtrip_values (q : Driver) (value value' : Dir → F) (ε : F) (hε : ∀ d, |value' d - value d| ≤ ε) (lc : Bool) (κ : F) {ds : List Dir} {x : F}
    (ht : MTrip m q value lc κ ds x) : ∃ y, MTrip m q value' lc κ ds y ∧ |y - x| ≤ ε * ds.length := by
  have h0 : 0 ≤ ε := le_trans (abs_nonneg _) (hε (0, false))
  induction ht with
  | start a ha => exact ⟨0, .start a ha, by simpa using h0⟩
  | @ahead ds c a b _ hl hb hj ih =>
    obtain ⟨y, h1, h2⟩ := ih
    refine ⟨_, .ahead b h1 hl hb hj, ?_⟩
    have ha := abs_le.mp (hε a)
    have hb := abs_le.mp (hε b)
    have h2 := abs_le.mp h2
    simp only [List.length_append, List.length_singleton, Nat.cast_add, Nat.cast_one]
    rw [abs_le]
    constructor <;> linarith [ha.1, ha.2, hb.1, hb.2, h2.1, h2.2]
  | @change ds c a b hlc _ hl hb hne hj ih =>
    obtain ⟨y, h1, h2⟩ := ih
    refine ⟨_, .change b hlc h1 hl hb hne hj, ?_⟩
    have h2 := abs_le.mp h2
    simp only [List.length_append, List.length_singleton, Nat.cast_add, Nat.cast_one]
    rw [abs_le]
    constructor <;> linarith [h2.1, h2.2]

/-! ### routing after saving and loading -/

variable {q : Driver} {value value' : Dir → F} {ε : F} (hε : ∀ d, |value' d - value d| ≤ ε)
  {V' : Type} {num num' : Id ≃ Nat} {i i' : Input Id (Dbl F)} {e : Rules.Env Id V} {e' : Rules.Env Id V'} {r : Rules.Rules V} {r' : Rules.Rules V'}
  {k k' : Nat} {cm cm' : CostModule (Dbl F)} (S : Fits num m q i e r k cm value) (S' : Fits num' m' q i' e' r' k' cm' value')
  {g g' : RGraph Prim (Dbl F)} (hg : build i = some g) (hg' : build i' = some g')
  {pick pick' : Nat → (Nat → Dbl F) → List Nat → Nat} (hpick : PickMin pick) (hpick' : PickMin pick')
  {lc : Bool} {κ : F} (hch : ChangesOk i cm lc κ) (hch' : ChangesOk i' cm' lc κ)
include hε S S' hg hg' hpick hpick' hch hch'

/-- The routing graphs of a map and of the same map (up to positions) answer alike: `shortestPath` finds a route in one iff in the other, both routes
are legal trips through the map, and their costs are the same up to the change of the lengths. -/
theorem same_shortestPath (a b : Dir) (ha : MDrive m q a) (hb : MDrive m q b) :
    (g.shortestPath pick (.inl (handle num a)) (.inl (handle num b)) k lc false = .ok (some none) ∧
      g'.shortestPath pick' (.inl (handle num' a)) (.inl (handle num' b)) k' lc false = .ok (some none)) ∨
    (∃ ds ds' x x',
      g.shortestPath pick (.inl (handle num a)) (.inl (handle num b)) k lc false = .ok (some (some (ds.map fun d => .inl (handle num d)))) ∧
      g'.shortestPath pick' (.inl (handle num' a)) (.inl (handle num' b)) k' lc false = .ok (some (some (ds'.map fun d => .inl (handle num' d)))) ∧
      MTrip m q value lc κ ds x ∧ MTrip m q value' lc κ ds' x' ∧
      ds.head? = some a ∧ ds.getLast? = some b ∧ ds'.head? = some a ∧ ds'.getLast? = some b ∧
      x' ≤ x + ε * ds.length ∧ x ≤ x' + ε * ds'.length) := by
  have hε' : ∀ d, |value d - value' d| ≤ ε := fun d => by rw [abs_sub_comm]; exact hε d
  have h1 := map_shortestPath S hok g hg hpick lc κ hch a b ha hb
  have h2 := map_shortestPath S' (hok.same h) g' hg' hpick' lc κ hch' a b ((mdrive_same h hok q a).mpr ha) ((mdrive_same h hok q b).mpr hb)
  simp only [mtrip_same h hok] at h2
  rcases h1 with ⟨p1, p2⟩ | ⟨ds, x, p1, p2, p3, p4, p5⟩
  · rcases h2 with ⟨q1, -⟩ | ⟨ds', x', -, q2, q3, q4, -⟩
    · exact .inl ⟨p1, q1⟩
    · obtain ⟨y, hy, -⟩ := mtrip_values q value' value ε hε' lc κ q2
      exact absurd q4 (p2 ds' y hy q3)
  · rcases h2 with ⟨-, q2⟩ | ⟨ds', x', q1, q2, q3, q4, q5⟩
    · obtain ⟨y, hy, -⟩ := mtrip_values q value value' ε hε lc κ p2
      exact absurd p4 (q2 ds y hy p3)
    · obtain ⟨y, hy, hy'⟩ := mtrip_values q value value' ε hε lc κ p2
      obtain ⟨z, hz, hz'⟩ := mtrip_values q value' value ε hε' lc κ q2
      have b1 := q5 ds y hy p3 p4
      have b2 := p5 ds' z hz q3 q4
      have c1 := (abs_le.mp hy').2
      have c2 := (abs_le.mp hz').2
      exact .inr ⟨ds, ds', x, x', p1, q1, p2, q2, p3, p4, q3, q4, by linarith, by linarith⟩

omit hε in
/-- With the same lengths the same lanelets are reachable. -/
theorem same_reachableSet (hv : value' = value) (a : Dir) (ha : MDrive m q a) (limit : F) :
    ∃ ls ls' : List Dir,
      g.reachableSet pick false (.inl (handle num a)) (.fin limit) k (pathView lc false) = .ok (some (ls.map fun d => .inl (handle num d))) ∧
      g'.reachableSet pick' false (.inl (handle num' a)) (.fin limit) k' (pathView lc false) = .ok (some (ls'.map fun d => .inl (handle num' d))) ∧
      ls.Nodup ∧ ls'.Nodup ∧ ∀ b, b ∈ ls' ↔ b ∈ ls := by
  obtain ⟨ls, h1, h2, h3⟩ := map_reachableSet S hok g hg hpick lc κ hch a ha limit
  obtain ⟨ls', h4, h5, h6⟩ := map_reachableSet S' (hok.same h) g' hg' hpick' lc κ hch' a ((mdrive_same h hok q a).mpr ha) limit
  refine ⟨ls, ls', h1, h4, h2, h5, fun b => ?_⟩
  rw [h6, h3]
  simp only [mtrip_same h hok, hv]

end

/-- **C77.** A map that an OSM file can represent is written, and the file is read again, without errors; and whatever routing graphs are built for
the map and for the loaded map, they answer alike. -/
theorem reload_routes {D : Type} {env : Osm.Env P D} {reverse : P → Option (D × D × D)} {rt : P → P} (f : Osm.Numbers D)
    (front front' : Nat → Nat → Bool) {m : LMap P} (hok : MapOk m) (hd : Distinct m) (hs : SelfContained m) (he : Osm.NoEle m)
    (hr : Representable env (f.reverse reverse) rt m) :
    ∃ file doc res, Osm.writeMap reverse front m = some (file, []) ∧ Osm.writeDoc f file = some doc ∧
      Osm.parse f.zero f.num front' env doc = some res ∧ res.readErrors = [] ∧ res.loadErrors = [] ∧
      ∀ (q : Driver) (measure : Option (List (Option P) × List (Option P) × Option (List (Option P))) → F) (ε : F)
        (num num' : Id ≃ Nat) (i i' : Input Id (Dbl F)) (e e' : Rules.Env Id V) (r r' : Rules.Rules V) (k k' : Nat) (cm cm' : CostModule (Dbl F))
        (g g' : RGraph Prim (Dbl F)) (pick pick' : Nat → (Nat → Dbl F) → List Nat → Nat) (lc : Bool) (κ : F),
      (∀ d, |measure (shape res.map d) - measure (shape m d)| ≤ ε) →
      Fits num m q i e r k cm (fun d => measure (shape m d)) → Fits num' res.map q i' e' r' k' cm' (fun d => measure (shape res.map d)) →
      build i = some g → build i' = some g' → PickMin pick → PickMin pick' → ChangesOk i cm lc κ → ChangesOk i' cm' lc κ →
      ∀ a b, (MDrive res.map q a ↔ MDrive m q a) ∧ (MDrive m q a → MDrive m q b →
        (g.shortestPath pick (.inl (handle num a)) (.inl (handle num b)) k lc false = .ok (some none) ∧
          g'.shortestPath pick' (.inl (handle num' a)) (.inl (handle num' b)) k' lc false = .ok (some none)) ∨
        (∃ ds ds' x x',
          g.shortestPath pick (.inl (handle num a)) (.inl (handle num b)) k lc false = .ok (some (some (ds.map fun d => .inl (handle num d)))) ∧
          g'.shortestPath pick' (.inl (handle num' a)) (.inl (handle num' b)) k' lc false =
            .ok (some (some (ds'.map fun d => .inl (handle num' d)))) ∧
          MTrip m q (fun d => measure (shape m d)) lc κ ds x ∧ MTrip m q (fun d => measure (shape res.map d)) lc κ ds' x' ∧
          ds.head? = some a ∧ ds.getLast? = some b ∧ ds'.head? = some a ∧ ds'.getLast? = some b ∧
          x' ≤ x + ε * ds.length ∧ x ≤ x' + ε * ds'.length)) := by
  obtain ⟨file, doc, res, h1, h2, h3, h4, h5, h6⟩ := Osm.text_round_trip f front front' hok hd hs he hr
  have hso := Sound.of_map hok hs
  refine ⟨file, doc, res, h1, h2, h3, h4, h5, ?_⟩
  intro q measure ε num num' i i' e e' r r' k k' cm cm' g g' pick pick' lc κ hε S S' hg hg' hp hp' hc hc' a b
  exact ⟨mdrive_same h6 hso q a, same_shortestPath h6 hso hε S S' hg hg' hp hp' hc hc' a b⟩

/-! ### maps that were loaded without errors -/

section
variable {D : Type} (env : Osm.Env P D) (hr : Osm.RegistryOk env) {file : Osm.File D} (h : Osm.FileOk file) {m : LMap P}
  (hm : Osm.loadMap env file = some (m, []))
include h hm

theorem loaded_lanelet {i : Id} {l : MLanelet} (hl : m.lanelets.get i = some l) :
    ∃ r, file.relations.get i = some r ∧ r.attrs.get "type" = some "lanelet" ∧ l.attrs = r.attrs := by
  have hlg := (Osm.load_facts env h hm).2.2.2.2.2.2.2.1
  rw [hlg] at hl
  obtain ⟨r, h1, h2⟩ := Option.bind_eq_some_iff.mp hl
  obtain ⟨l', h3, rfl⟩ := Option.map_eq_some_iff.mp h2
  unfold Osm.laneletOf at h3
  split at h3
  · rename_i ht
    obtain rfl := Option.some.inj h3
    refine ⟨r, h1, ?_, rfl⟩
    unfold Osm.isType at ht
    simpa using ht
  · cases h3

include hr in
/-- What is assumed about maps holds for every map that was loaded from a file without errors. -/
theorem loaded_sound : Sound m := by
  have hs := Osm.load_self_contained env hr h hm
  refine ⟨?_, ?_, ?_⟩
  · intro i l hl
    rw [(Osm.load_facts env h hm).2.2.1, Osm.linesOf_get env h] at hl
    obtain ⟨w, h1, h2⟩ := Option.bind_eq_some_iff.mp hl
    unfold Osm.loadedLine at h2
    split at h2
    · obtain rfl := Option.some.inj h2
      exact h.wayAttrs _ (AMap.mem_of_get h1)
    · cases h2
  · intro i l hl
    obtain ⟨r, h1, -, h3⟩ := loaded_lanelet env h hm hl
    rw [h3]
    exact h.relationAttrs _ (AMap.mem_of_get h1)
  · intro i l hl
    have := (hs.lanelets i l hl).1
    exact ⟨(this l.left (by simp)).2, (this l.right (by simp)).2⟩

/-- Where one may drive in a map that was loaded without errors, in terms of the file: on relations that are lanelets, according to their tags and
their regulatory elements. -/
theorem loaded_drive (q : Driver) (d : Dir) : MDrive m q d ↔
    ∃ rel, file.relations.get d.1 = some rel ∧ rel.attrs.get "type" = some "lanelet" ∧ (d.2 = false ∨ ¬ OneWayTags q (tags rel.attrs)) ∧
      AllowedTags q ((Osm.roleMembers "regulatory_element" rel).map (·.id)) (tags rel.attrs) := by
  have hc := Osm.load_complete_partial env h hm
  constructor
  · rintro ⟨l, hl, h1, h2⟩
    obtain ⟨rel, h3, h4, h5⟩ := loaded_lanelet env h hm hl
    obtain ⟨left, right, center, a, b, -, -, -, -, h6⟩ := hc.lanelets _ _ h3 h4
    rw [hl] at h6
    obtain rfl := Option.some.inj h6
    simp only [List.map_map] at h2
    exact ⟨rel, h3, h4, h1, h2⟩
  · rintro ⟨rel, h3, h4, h1, h2⟩
    obtain ⟨left, right, center, a, b, -, -, -, -, h6⟩ := hc.lanelets _ _ h3 h4
    refine ⟨_, h6, h1, ?_⟩
    simp only [List.map_map]
    exact h2

/-- The bounds of a lanelet that was loaded without errors are the ways of its relation with the roles left and right, with their nodes and tags, each
in one of its directions. -/
theorem loaded_bounds {i : Id} {rel : Osm.Relation} (h1 : file.relations.get i = some rel) (h2 : rel.attrs.get "type" = some "lanelet") :
    ∃ l left right, m.lanelets.get i = some l ∧ Osm.roleMembers "left" rel = [.way left] ∧ Osm.roleMembers "right" rel = [.way right] ∧
      l.left.id = left ∧ l.right.id = right ∧
      ∀ ref ∈ [l.left, l.right], ∀ w, file.ways.get ref.id = some w → (w.attrs.get "area").bind env.asBool ≠ some true →
        pointIds m ref = (if ref.inv then w.nodes.reverse else w.nodes) ∧ ∃ line, m.lines.get ref.id = some line ∧ line.attrs = w.attrs := by
  have hc := Osm.load_complete_partial env h hm
  obtain ⟨left, right, center, a, b, r1, r2, -, -, h6⟩ := hc.lanelets _ _ h1 h2
  refine ⟨_, left, right, h6, r1, r2, rfl, rfl, ?_⟩
  intro ref _ w hw ha
  have := (hc.ways _ _ hw).2
  rw [if_neg ha] at this
  refine ⟨?_, _, this, rfl⟩
  unfold pointIds
  rw [this]
  simp [List.map_map, Function.comp_def]

end

/-! ### every map has such routing graphs -/

/-- insertion into a std::map (sorted by key), AttributeMap.h 12-60. -/
def insertTag (e : Str × Str) : Rules.Attrs → Rules.Attrs
  | [] => [e]
  | x :: l => if e.1 < x.1 then e :: x :: l else x :: insertTag e l

/-- The tags as they are in memory. Helper of the proofs. -/
def sortTags (a : Rules.Attrs) : Rules.Attrs := a.foldr insertTag []

theorem mem_insertTag (e x : Str × Str) (l : Rules.Attrs) : x ∈ insertTag e l ↔ x = e ∨ x ∈ l := by
  induction l with
  | nil => simp [insertTag]
  | cons y l ih =>
    rw [insertTag]
    split
    · simp
    · simp only [List.mem_cons, ih]
      tauto

theorem mem_sortTags (a : Rules.Attrs) (x : Str × Str) : x ∈ sortTags a ↔ x ∈ a := by
  unfold sortTags
  induction a with
  | nil => simp
  | cons e a ih => rw [List.foldr_cons, mem_insertTag, ih, List.mem_cons]

theorem str_trichotomy : ∀ a b : Str, a < b ∨ a = b ∨ b < a
  | [], [] => .inr (.inl rfl)
  | [], _ :: _ => .inl (List.nil_lt_cons ..)
  | _ :: _, [] => .inr (.inr (List.nil_lt_cons ..))
  | x :: a, y :: b => by
    rw [List.cons_lt_cons_iff, List.cons_lt_cons_iff]
    have hxy : x < y ∨ x = y ∨ y < x := by
      have h1 : x < y ↔ x.val.toNat < y.val.toNat := Iff.rfl
      have h2 : y < x ↔ y.val.toNat < x.val.toNat := Iff.rfl
      rcases Nat.lt_trichotomy x.val.toNat y.val.toNat with h | h | h
      · exact .inl (h1.mpr h)
      · exact .inr (.inl (Char.ext (UInt32.toNat.inj h)))
      · exact .inr (.inr (h2.mpr h))
    rcases hxy with h | rfl | h
    · exact .inl (.inl h)
    · rcases str_trichotomy a b with h | rfl | h
      · exact .inl (.inr ⟨rfl, h⟩)
      · exact .inr (.inl rfl)
      · exact .inr (.inr (.inr ⟨rfl, h⟩))
    · exact .inr (.inr (.inl h))

theorem insertTag_sorted (e : Str × Str) (l : Rules.Attrs) (h : Sorted l) (he : ∀ x ∈ l, x.1 ≠ e.1) : Sorted (insertTag e l) := by
  unfold Sorted at h ⊢
  induction l with
  | nil => simp [insertTag]
  | cons y l ih =>
    obtain ⟨h1, h2⟩ := List.pairwise_cons.mp h
    rw [insertTag]
    split
    · rename_i hlt
      refine List.pairwise_cons.mpr ⟨fun x hx => ?_, h⟩
      rcases List.mem_cons.mp hx with rfl | hx
      · exact hlt
      · exact List.lt_trans hlt (h1 x hx)
    · rename_i hlt
      refine List.pairwise_cons.mpr ⟨fun x hx => ?_, ih h2 fun x hx => he x (List.mem_cons_of_mem _ hx)⟩
      rcases (mem_insertTag ..).mp hx with rfl | hx
      · rcases str_trichotomy x.1 y.1 with h' | h' | h'
        · exact absurd h' hlt
        · exact absurd h'.symm (he y (by simp))
        · exact h'
      · exact h1 x hx

theorem sortTags_sorted (a : Rules.Attrs) (h : (a.map (·.1)).Nodup) : Sorted (sortTags a) := by
  induction a with
  | nil => exact List.Pairwise.nil
  | cons e a ih =>
    obtain ⟨h1, h2⟩ := List.nodup_cons.mp h
    refine insertTag_sorted e _ (ih h2) fun x hx he => h1 ?_
    show e.1 ∈ _
    rw [← he]
    exact List.mem_map_of_mem (f := fun x : Str × Str => x.1) ((mem_sortTags a x).mp hx)

theorem sortTags_reads {a : Osm.Attrs} (h : a.Ok) : Reads a (sortTags (tags a)) := by
  refine ⟨sortTags_sorted _ ?_, fun k v => mem_sortTags _ _⟩
  unfold tags
  rw [List.map_map]
  have : ((fun x : Str × Str => x.1) ∘ fun e : String × String => (key e.1, key e.2)) = key ∘ fun e => e.1 := rfl
  rw [this, ← List.map_map]
  exact (List.pairwise_map.mpr (h.imp fun hne he => hne (key_inj.mp he)))

section
variable (num : Id ≃ Nat) (m : LMap P) (q : Driver)

/-- The primitives of the map as objects in memory, Lanelet.h 22-84, LineString.h 139-184. Example. -/
def worldOf : World Id where
  pts d := ((m.lines.get (num.symm d)).map fun l => l.pts.map (·.id)).getD []
  ids d := num.symm d
  lls d := match m.lanelets.get (num.symm d) with
    | some l => ⟨⟨num l.left.id, l.left.inv⟩, ⟨num l.right.id, l.right.inv⟩, l.regs.map (fun x => num x.id),
        l.center.map fun c => .given ⟨num c.id, c.inv⟩⟩
    | none => ⟨⟨0, false⟩, ⟨0, false⟩, [], none⟩
  ars d := match m.areas.get (num.symm d) with
    | some a =>
      let ls := fun x : Ref => (⟨num x.id, x.inv⟩ : LS)
      ⟨a.outer.map ls, a.inner.map (List.map ls), a.outer.map ls, a.inner.map (List.map ls), a.regs.map (fun x => num x.id)⟩
    | none => ⟨[], [], [], [], []⟩

/-- The attributes of the map in memory. Example. -/
def envOf : Rules.Env Id F where
  w := worldOf num m
  lsAttr d := sortTags (tags (((m.lines.get (num.symm d)).map (·.attrs)).getD []))
  llAttr d := sortTags (tags (((m.lanelets.get (num.symm d)).map (·.attrs)).getD []))
  arAttr d := sortTags (tags (((m.areas.get (num.symm d)).map (·.attrs)).getD []))
  asBool := q.asBool
  asVel _ := none

/-- Rules for the driver. Example. -/
def rulesFor : Rules.Rules F where
  participant := q.participant
  byRule l := q.byRule (l.map num.symm)
  regLimit _ := none
  areas := true
  limits := ⟨⟨1, true⟩, ⟨1, true⟩, ⟨1, true⟩, ⟨1, true⟩, ⟨1, true⟩, ⟨1, true⟩, ⟨1, true⟩⟩
  zero := 0

/-- Lengths of lanelets; areas have none. Example. -/
def lengthOf (value : Dir → F) : Prim → F
  | .inl ll => value (num.symm ll.data, ll.inv)
  | .inr _ => 1

/-- The input of the routing graph for the map, with lengths as costs and `κ` for lane changes. Example. -/
def inputOf (value : Dir → F) (κ : F) : Input Id (Dbl F) where
  w := worldOf num m
  ptId p := p
  llId d := num.symm d
  lanelets := m.lanelets.map fun x => ⟨num x.1, false⟩
  areas := m.areas.map fun x => num x.1
  rules := rulesOf (envOf num m q) (rulesFor num q : Rules.Rules F)
  costs := [distanceModule ⟨κ, 0⟩ (lengthOf num value)]
  tests := dblTests
  one := .fin 1
  boxLL _ _ := true
  boxAL _ _ := true
  boxAA _ _ := true
  overlapsLL _ _ := false
  overlapsAL _ _ := false
  overlapsAA _ _ := false
  orderRange l := l
  orderSearch l := l
  orderSearchA l := l
  shuffle l := l

/-- Every map with unique ids and bounds that are not empty has routing graphs as described: the conditions of the theorems can be met. -/
theorem fits_inputOf (hok : MapOk m) (hs : SelfContained m) (hp : ∀ i l, m.lines.get i = some l → l.pts ≠ [])
    (ht : ∀ i l, m.lines.get i = some l → l.attrs.has "lane_change:left" = true → l.attrs.has "lane_change:right" = true)
    (value : Dir → F) (hv : ∀ d, 0 ≤ value d) (κ : F) (hκ : 0 ≤ κ) :
    ∃ cm, Fits num m q (inputOf num m q value κ) (envOf num m q) (rulesFor num q : Rules.Rules F) 0 cm value ∧ ∀ x y, cm.change x y = .fin κ := by
  have hso := Sound.of_map hok hs
  refine ⟨_, ⟨⟨?_, ?_, rfl, rfl, rfl, ?_, ?_, rfl, fun a b => rfl⟩, ?_, ?_, ?_, rfl, rfl, ?_⟩, ?_⟩
  · refine ⟨?_, ?_, ?_, ?_, fun l => .refl l, fun l => .refl l, fun l => .refl l, fun l => .refl l⟩
    · intro ll hll
      obtain ⟨x, hx, rfl⟩ := List.mem_map.mp hll
      have hl := AMap.get_of_mem hok.lanelets.nodup hx
      have hb := hso.bounds _ _ hl
      have key : ∀ ref : Ref, m.lines.has ref.id = true → points (worldOf num m) ⟨num ref.id, ref.inv⟩ ≠ [] := by
        intro ref hh
        rw [AMap.has_eq] at hh
        obtain ⟨l, hl⟩ := Option.isSome_iff_exists.mp hh
        have := hp _ _ hl
        unfold points worldOf
        cases ref.inv <;> simp [hl, this]
      have e1 : ((worldOf num m).lls (num x.1)).left = ⟨num x.2.left.id, x.2.left.inv⟩ := by simp [worldOf, hl]
      have e2 : ((worldOf num m).lls (num x.1)).right = ⟨num x.2.right.id, x.2.right.inv⟩ := by simp [worldOf, hl]
      show points (worldOf num m) ((worldOf num m).lls (num x.1)).left ≠ [] ∧ points (worldOf num m) ((worldOf num m).lls (num x.1)).right ≠ []
      rw [e1, e2]
      exact ⟨key _ hb.1, key _ hb.2⟩
    · show (m.lanelets.map fun x => (⟨num x.1, false⟩ : LH)).Nodup
      have := hok.lanelets.nodup
      rw [List.Nodup, List.pairwise_map] at this ⊢
      exact this.imp fun hne he => hne (num.injective (LH.mk.inj he).1)
    · intro ll hll
      obtain ⟨x, hx, rfl⟩ := List.mem_map.mp hll
      rfl
    · show (m.areas.map fun x => num x.1).Nodup
      have := hok.areas.nodup
      rw [List.Nodup, List.pairwise_map] at this ⊢
      exact this.imp fun hne he => hne (num.injective he)
  · refine ⟨rfl, by simp [inputOf, dblTests, Dbl.negative], ?_, ?_⟩
    · intro c hc a b
      simp only [inputOf, List.mem_singleton] at hc
      subst hc
      have hl : ∀ p : Prim, (0 : F) ≤ lengthOf num value p := by
        rintro (ll | ar)
        · exact hv _
        · show (0 : F) ≤ 1
          exact zero_le_one
      exact (Verif.Cost.distanceSucc_spec _ hl a b).2
    · intro c hc a b
      simp only [inputOf, List.mem_singleton] at hc
      subst hc
      rw [(distance_module _ _).2 (le_refl _)]
      simpa [inputOf, dblTests, Dbl.negative] using hκ
  · intro d
    show Sorted (sortTags (tags _))
    cases hl : m.lanelets.get (num.symm d) with
    | none => exact List.Pairwise.nil
    | some l => exact (sortTags_reads (hso.laneletTags _ _ hl)).1
  · intro d
    show TagsComplete (sortTags (tags _))
    cases hl : m.lines.get (num.symm d) with
    | none => intro h; cases h
    | some l =>
      have hr := sortTags_reads (hso.lineTags _ _ hl)
      have hk : ∀ t : String, hasTag (sortTags (tags l.attrs)) t ↔ l.attrs.has t = true := by
        intro t
        unfold hasTag
        rw [Option.isSome_iff_exists, AMap.has_eq, Option.isSome_iff_exists]
        constructor
        · rintro ⟨v, hv⟩
          rw [find_iff (sorted_unique hr.1), hr.2, mem_tags] at hv
          obtain ⟨a, b, h1, -, h3⟩ := hv
          rw [key_inj] at h1
          subst h1
          exact ⟨_, AMap.get_of_mem (hso.lineTags _ _ hl) h3⟩
        · rintro ⟨v, hv⟩
          refine ⟨key v, ?_⟩
          rw [find_iff (sorted_unique hr.1), hr.2, mem_tags]
          exact ⟨_, _, rfl, rfl, AMap.mem_of_get hv⟩
      unfold TagsComplete
      simp only [Option.map_some, Option.getD_some, hk]
      exact ht _ _ hl
  · intro id l hl
    refine ⟨by simp [envOf, worldOf, hl], ?_⟩
    have := sortTags_reads (hso.lineTags _ _ hl)
    simpa [envOf, hl] using this
  · intro id l hl
    refine ⟨by simp [envOf, worldOf, hl], by simp [envOf, worldOf, hl], by simp [envOf, worldOf, hl], ?_⟩
    have := sortTags_reads (hso.laneletTags _ _ hl)
    simpa [envOf, hl] using this
  · intro ll
    show ll ∈ (m.lanelets.map fun x => (⟨num x.1, false⟩ : LH)) ↔ _
    rw [List.mem_map]
    constructor
    · rintro ⟨x, hx, rfl⟩
      refine ⟨rfl, ?_⟩
      simp only [Equiv.symm_apply_apply, AMap.has_iff_mem]
      exact List.mem_map_of_mem (f := fun x : Id × MLanelet => x.1) hx
    · rintro ⟨h1, h2⟩
      rw [AMap.has_iff_mem] at h2
      obtain ⟨x, hx, h3⟩ := List.mem_map.mp h2
      refine ⟨x, hx, ?_⟩
      obtain ⟨d, v⟩ := ll
      simp only at h1 h3
      rw [h1, h3]
      simp
  · intro ids
    show q.byRule ((ids.map num).map num.symm) = _
    rw [List.map_map]
    simp
  · exact (distance_module _ _).2 (le_refl _)

end

/-! ### example: two lanelets in a row, saved and loaded -/

/-- Example: two lanelets in a row; the linestring 12 has the other direction. -/
def rowMap : LMap (Int × Int) where
  points := [(1, ⟨1, [], (0, 1)⟩), (2, ⟨2, [], (1, 1)⟩), (3, ⟨3, [], (2, 1)⟩), (4, ⟨4, [], (0, 0)⟩), (5, ⟨5, [], (1, 0)⟩), (6, ⟨6, [], (2, 0)⟩)]
  lines := [(11, ⟨11, [("type", "line_thin"), ("subtype", "dashed")], [{ id := 1 }, { id := 2 }], false⟩),
    (12, ⟨12, [("type", "curbstone")], [{ id := 5 }, { id := 4 }], false⟩),
    (13, ⟨13, [], [{ id := 2 }, { id := 3 }], false⟩), (14, ⟨14, [], [{ id := 5 }, { id := 6 }], false⟩)]
  lanelets := [(20, ⟨20, [("subtype", "road"), ("one_way", "true")], { id := 11 }, { id := 12, inv := true }, none, []⟩),
    (21, ⟨21, [("subtype", "highway")], { id := 13 }, { id := 14 }, none, []⟩)]

/-- Example: a car. -/
def carDriver : Driver := ⟨key "vehicle:car", fun s => some (decide (s = key "true")), fun _ => none⟩

open Osm (has_keys get_keys tripEnv tripReverse intNumbers) in
theorem rowMap_ok : MapOk rowMap ∧ Distinct rowMap ∧ SelfContained rowMap ∧ Osm.NoEle rowMap ∧ Representable tripEnv tripReverse id rowMap := by
  refine ⟨?_, ?_, ?_, ?_, ?_⟩
  · constructor <;> first | (constructor <;> decide) | (simp only [Osm.Attrs.Ok]; decide)
  · constructor
    · intro i hi
      exact has_keys (p := fun i => rowMap.polys.has i = false) hi (by decide)
    · intro i hi
      exact has_keys (p := fun i => rowMap.lanelets.has i = false ∧ rowMap.areas.has i = false) hi (by decide)
    · intro i hi
      exact has_keys (p := fun i => rowMap.areas.has i = false) hi (by decide)
    · decide
    · decide
    · decide
    · decide
    all_goals
      intro e he
      cases he
  · constructor
    · exact get_keys (p := fun _ (l : MLine) => ∀ r ∈ l.pts, Osm.InLayer rowMap.points r) (by unfold Osm.InLayer; decide)
    · exact get_keys (p := fun _ (l : Osm.MPoly) => ∀ r ∈ l.pts, Osm.InLayer rowMap.points r) (by unfold Osm.InLayer; decide)
    · exact get_keys (p := fun _ (l : MLanelet) => (∀ r ∈ l.left :: l.right :: l.center.toList, Osm.InLayer rowMap.lines r) ∧
        ∀ r ∈ l.regs, Osm.InLayer rowMap.regs r) (by unfold Osm.InLayer; decide)
    · exact get_keys (p := fun _ (l : Osm.MArea) => (∀ r ∈ l.outer ++ l.inner.flatten, Osm.InLayer rowMap.lines r) ∧
        ∀ r ∈ l.regs, Osm.InLayer rowMap.regs r) (by unfold Osm.InLayer; decide)
    · refine get_keys (p := fun _ (g : Osm.MReg) => ∀ p ∈ Osm.paramsOf g, Osm.ParamIn rowMap p) ?_
      intro e he
      cases he
  · constructor <;> exact get_keys (by decide)
  · constructor
    · exact fun i p _ => ⟨(p.pos.2, p.pos.1, 0), rfl, rfl⟩
    · exact get_keys (p := fun _ (l : MLine) => l.pts ≠ [] ∧ ∀ r ∈ l.pts, r.inv = false) (by decide)
    · exact get_keys (p := fun _ (l : Osm.MPoly) => l.pts ≠ [] ∧ ∀ r ∈ l.pts, r.inv = false) (by decide)
    · exact get_keys (p := fun _ (l : MLine) => (l.attrs.get "area").bind tripEnv.asBool ≠ some true) (by decide)
    · exact get_keys (p := fun _ (p : Osm.MPoly) => tripEnv.asBool ((p.attrs.get "area").getD "true") = some true) (by decide)
    · exact get_keys (p := fun _ (l : MLanelet) => (l.attrs.get "type").getD "lanelet" = "lanelet") (by decide)
    · exact get_keys (p := fun _ (l : Osm.MArea) => (l.attrs.get "type").getD "multipolygon" = "multipolygon") (by decide)
    · exact get_keys (p := fun _ (l : Osm.MReg) => (l.attrs.get "type").getD "regulatory_element" = "regulatory_element") (by decide)
    · refine get_keys (p := fun _ (l : MLanelet) => Osm.Oriented tripEnv (Osm.linePositions tripEnv (Osm.moved id rowMap) l.left.id)
        (Osm.linePositions tripEnv (Osm.moved id rowMap) l.right.id) l.left.inv l.right.inv) ?_
      unfold Osm.Oriented
      decide
    · exact get_keys (p := fun _ (l : MLanelet) => ∀ r ∈ l.center.toList ++ l.regs, r.inv = false) (by decide)
    all_goals
      intro i a ha
      cases ha

/-- Case: the car may drive from lanelet 20 to lanelet 21 (which may only be used ahead, as lanelet 20). -/
theorem rowMap_trip (value : Dir → F) : MTrip rowMap carDriver value false 0 [(20, false), (21, false)] (0 + (value (20, false) + value (21, false)) / 2) ∧
    ¬ MDrive rowMap carDriver (20, true) := by
  have d1 : MDrive rowMap carDriver (20, false) := by
    refine ⟨_, rfl, .inl rfl, ?_⟩
    refine .inr ⟨?_, .inl ⟨by decide, by decide⟩⟩
    rw [← Rules.hasOverride_iff]
    decide
  have d2 : MDrive rowMap carDriver (21, false) := by
    refine ⟨_, rfl, .inl rfl, ?_⟩
    refine .inr ⟨?_, .inl ⟨by decide, by decide⟩⟩
    rw [← Rules.hasOverride_iff]
    decide
  refine ⟨.ahead (21, false) (.start _ d1) rfl d2 ⟨_, _, rfl, rfl, 2, 5, rfl, rfl, rfl, rfl⟩, ?_⟩
  rintro ⟨l, hl, h | h, -⟩
  · cases h
  · obtain rfl := Option.some.inj hl
    refine h ?_
    show (true : Bool) = true
    rfl

/-- Case: the routing graphs of the map and of the map that was saved and loaded both find the way, for the same costs. -/
example (num num' : Id ≃ Nat) : ∃ file doc res, Osm.writeMap Osm.tripReverse (fun _ _ => true) rowMap = some (file, []) ∧
    Osm.writeDoc Osm.intNumbers file = some doc ∧ Osm.parse 0 Osm.intNumbers.num (fun _ _ => false) Osm.tripEnv doc = some res ∧
    ∀ (i' : Input Id (Dbl Rat)) (e' : Rules.Env Id Rat) r' k' cm' g g', Fits num' res.map carDriver i' e' r' k' cm' (fun _ => 4) →
      build (inputOf num rowMap carDriver (fun _ => (4 : Rat)) 0) = some g → build i' = some g' →
      ∃ ds ds' x, g.shortestPath (fun _ cost l => leastOf cost l) (.inl (handle num (20, false))) (.inl (handle num (21, false))) 0 false false =
          .ok (some (some (ds.map fun d => .inl (handle num d)))) ∧
        g'.shortestPath (fun _ cost l => leastOf cost l) (.inl (handle num' (20, false))) (.inl (handle num' (21, false))) k' false false =
          .ok (some (some (ds'.map fun d => .inl (handle num' d)))) ∧
        MTrip rowMap carDriver (fun _ => (4 : Rat)) false 0 ds x ∧ MTrip rowMap carDriver (fun _ => (4 : Rat)) false 0 ds' x := by
  obtain ⟨h1, h2, h3, h4, h5⟩ := rowMap_ok
  have hrev : Osm.intNumbers.reverse Osm.tripReverse = Osm.tripReverse := Osm.intNumbers_reverse
  obtain ⟨file, doc, res, r1, r2, r3, -, -, r6⟩ := reload_routes (F := Rat) (V := Rat) Osm.intNumbers (fun _ _ => true) (fun _ _ => false) h1 h2 h3 h4
    (by rw [hrev]; exact h5)
  obtain ⟨cm, hf, -⟩ := fits_inputOf (F := Rat) num rowMap carDriver h1 h3 (Osm.get_keys (p := fun _ (l : MLine) => l.pts ≠ []) (by decide))
    (Osm.get_keys (p := fun _ (l : MLine) => l.attrs.has "lane_change:left" = true → l.attrs.has "lane_change:right" = true) (by decide))
    (fun _ => 4) (fun _ => by norm_num) 0 (le_refl _)
  refine ⟨file, doc, res, r1, r2, r3, ?_⟩
  intro i' e' r' k' cm' g g' S' hg hg'
  obtain ⟨-, hab⟩ := r6 carDriver (fun _ => 4) 0 num num' _ _ _ _ _ _ 0 k' cm cm' g g' (fun _ cost l => leastOf cost l) (fun _ cost l => leastOf cost l)
    false 0 (fun _ => by simp) hf S' hg hg' leastOf_min leastOf_min (fun h => by cases h) (fun h => by cases h) (20, false) (21, false)
  have ht := (rowMap_trip (fun _ => (4 : Rat))).1
  rcases hab (mtrip_drive hf (Sound.of_map h1 h3) ht _ (by simp)) (mtrip_drive hf (Sound.of_map h1 h3) ht _ (by simp)) with
    ⟨h, -⟩ | ⟨ds, ds', x, x', p1, p2, p3, p4, p5, p6, p7, p8, p9, p10⟩
  · rcases map_shortestPath hf (Sound.of_map h1 h3) g hg leastOf_min false 0 (fun h => by cases h) (20, false) (21, false)
      (mtrip_drive hf (Sound.of_map h1 h3) ht _ (by simp)) (mtrip_drive hf (Sound.of_map h1 h3) ht _ (by simp)) with ⟨-, h'⟩ | ⟨_, _, h', -⟩
    · exact absurd rfl (h' _ _ ht rfl)
    · rw [h] at h'
      cases h'
  · have : x' = x := le_antisymm (by simpa using p9) (by simpa using p10)
    subst this
    exact ⟨ds, ds', x', p1, p2, p3, p4⟩

end Verif.Plan
