import Verif.Rules.Model
import Verif.Lanelet.Props

/-!
C16-C20: traffic rules. The specification follows lanelet2_core/doc/LaneletAndAreaTagging.md and LinestringTagging.md.
-/
namespace Verif.Rules
open Verif.LineStr Verif.Lanelet

variable {P V : Type}

/-! ### Specification of overrides -/

/-- std::map keeps its entries sorted by key -/
def Sorted (a : Attrs) : Prop := a.Pairwise fun x y => x.1 < y.1

/-- the tag `k=v` applies to `tag`, e.g. `one_way:vehicle=no` to `one_way:vehicle:car` (`pre`: at least this much must be
written) -/
def Governs (a : Attrs) (pre tag k v : Str) : Prop := (k, v) ∈ a ∧ pre.length ≤ k.length ∧ k <+: tag

/-- the result of an override: the value of the most general tag that applies, the default if it is not readable or no tag
applies. (According to the documentation at most one may apply.) -/
def Decides {T : Type} (as : Str → Option T) (a : Attrs) (pre tag : Str) (dflt x : T) : Prop :=
  (∃ k v, Governs a pre tag k v ∧ (∀ k' v', Governs a pre tag k' v' → k.length ≤ k'.length) ∧ x = (as v).getD dflt) ∨
  ((∀ k v, ¬ Governs a pre tag k v) ∧ x = dflt)

/-- some tag of this group is set -/
def SetFor (a : Attrs) (pre : Str) : Prop := ∃ k v, (k, v) ∈ a ∧ pre <+: k

theorem startswith_iff (s sub : Str) : startswith s sub = true ↔ sub <+: s := List.isPrefixOf_iff_prefix

theorem hasOverride_iff (a : Attrs) (pre : Str) : hasOverride a pre = true ↔ SetFor a pre := by
  unfold hasOverride SetFor
  simp only [List.any_eq_true, startswith_iff]
  constructor
  · rintro ⟨⟨k, v⟩, h, hp⟩; exact ⟨k, v, h, hp⟩
  · rintro ⟨k, v, h, hp⟩; exact ⟨(k, v), h, hp⟩

theorem not_lt_of_prefix : ∀ {a b : Str}, a <+: b → ¬ b < a := by
  intro a
  induction a with
  | nil => intro b _ h; cases b <;> cases h
  | cons x a ih =>
    intro b hp h
    obtain ⟨t, rfl⟩ := hp
    rw [List.cons_append] at h
    rcases List.cons_lt_cons_iff.mp h with hlt | ⟨-, hlt⟩
    · exact absurd hlt (by simp [Char.lt_irrefl])
    · exact ih ⟨t, rfl⟩ hlt

theorem length_lt_of_prefixes {k k' s : Str} (h : k <+: s) (h' : k' <+: s) (hlt : k < k') : k.length < k'.length := by
  rcases Nat.lt_or_ge k.length k'.length with h1 | h1
  · exact h1
  · exact absurd hlt (not_lt_of_prefix (List.prefix_of_prefix_length_le h' h h1))

theorem getOverride_decides {T : Type} (as : Str → Option T) (a : Attrs) (hs : Sorted a) (pre tag : Str) (d : T) :
    Decides as a pre tag d (getOverride as a pre tag d) := by
  have hp : ∀ e : Str × Str, (if e.1.length < pre.length then false else startswith tag e.1) = true ↔
      pre.length ≤ e.1.length ∧ e.1 <+: tag := by
    intro e
    by_cases h : e.1.length < pre.length
    · rw [if_pos h]; constructor
      · intro h'; cases h'
      · intro h'; omega
    · rw [if_neg h, startswith_iff]
      exact ⟨fun h' => ⟨by omega, h'⟩, fun h' => h'.2⟩
  unfold getOverride
  cases hf : a.find? fun e => if e.1.length < pre.length then false else startswith tag e.1 with
  | none =>
    right
    refine ⟨?_, rfl⟩
    rintro k v ⟨hm, hl, hpre⟩
    exact (List.find?_eq_none.mp hf) (k, v) hm ((hp _).mpr ⟨hl, hpre⟩)
  | some e =>
    left
    obtain ⟨k, v⟩ := e
    have hm := List.mem_of_find?_eq_some hf
    have hfs := List.find?_some hf
    have hk := (hp (k, v)).mp hfs
    refine ⟨k, v, ⟨hm, hk⟩, ?_, rfl⟩
    rintro k' v' ⟨hm', hl', hpre'⟩
    obtain ⟨-, as', bs, hab, hno⟩ := List.find?_eq_some_iff_append.mp hf
    rw [hab] at hm' hs
    rcases List.mem_append.mp hm' with h | h
    · have := hno _ h
      rw [(hp (k', v')).mpr ⟨hl', hpre'⟩] at this
      simp at this
    · rcases List.mem_cons.mp h with h | h
      · have : k' = k := congrArg Prod.fst h
        subst this; exact Nat.le_refl _
      · have h2 := (List.pairwise_append.mp hs).2.1
        have := (List.pairwise_cons.mp h2).1 _ h
        exact Nat.le_of_lt (length_lt_of_prefixes hk.2 hpre' this)

theorem sorted_inj {a : Attrs} (hs : Sorted a) {k v v' : Str} (h : (k, v) ∈ a) (h' : (k, v') ∈ a) : v = v' := by
  induction a with
  | nil => cases h
  | cons e a ih =>
    obtain ⟨h1, h2⟩ := List.pairwise_cons.mp hs
    rcases List.mem_cons.mp h with h | h
    · rcases List.mem_cons.mp h' with h' | h'
      · rw [← h] at h'; exact (congrArg Prod.snd h').symm
      · have := h1 _ h'
        rw [← h] at this
        exact absurd this (List.lt_irrefl k)
    · rcases List.mem_cons.mp h' with h' | h'
      · have := h1 _ h
        rw [← h'] at this
        exact absurd this (List.lt_irrefl k)
      · exact ih h2 h h'

theorem decides_unique {T : Type} {as : Str → Option T} {a : Attrs} (hs : Sorted a) {pre tag : Str} {d x y : T}
    (hx : Decides as a pre tag d x) (hy : Decides as a pre tag d y) : x = y := by
  rcases hx with ⟨k, v, g, hmin, rfl⟩ | ⟨hno, rfl⟩
  · rcases hy with ⟨k', v', g', hmin', rfl⟩ | ⟨hno, -⟩
    · have hl : k.length = k'.length := Nat.le_antisymm (hmin _ _ g') (hmin' _ _ g)
      have hk : k = k' := List.IsPrefix.eq_of_length (List.prefix_of_prefix_length_le g.2.2 g'.2.2 (Nat.le_of_eq hl)) hl
      subst hk
      rw [sorted_inj hs g.1 g'.1]
    · exact absurd g (hno k v)
  · rcases hy with ⟨k', v', g', -, rfl⟩ | ⟨-, rfl⟩
    · exact absurd g' (hno k' v')
    · rfl

/-- An override yields `x` iff the tags decide for `x`. -/
theorem getOverride_iff {T : Type} (as : Str → Option T) (a : Attrs) (hs : Sorted a) (pre tag : Str) (d x : T) :
    getOverride as a pre tag d = x ↔ Decides as a pre tag d x :=
  ⟨fun h => h ▸ getOverride_decides as a hs pre tag d,
   fun h => decides_unique hs (getOverride_decides as a hs pre tag d) h⟩

/-! ### C16 -/

/-- inferred participants by subtype (table of the documentation without bus lanes; no subtype: vehicles) -/
def AllowedByType (subtype p : Str) : Prop :=
  (key "vehicle" <+: p ∧ subtype ∈ [[], key "road", key "highway", key "play_street", key "exit"]) ∨
  (key "bicycle" <+: p ∧
    subtype ∈ [key "road", key "play_street", key "bicycle_lane", key "exit", key "shared_walkway"]) ∨
  (key "pedestrian" <+: p ∧ subtype ∈ [key "play_street", key "exit", key "walkway", key "shared_walkway",
    key "crosswalk", key "stairs"]) ∨
  (key "vehicle:emergency" <+: p ∧ subtype = key "emergency_lane")

/-- the primitive with these regulatory elements and attributes is meant for the participant -/
def Allowed (asBool : Str → Option Bool) (r : Rules V) (regs : List Nat) (a : Attrs) : Prop :=
  match r.byRule regs with
  | some b => b = true
  | none =>
    (SetFor a (key "participant") ∧
      Decides asBool a (key "participant") (key "participant:" ++ r.participant) false true) ∨
    (¬ SetFor a (key "participant") ∧ AllowedByType (attrStr a (key "subtype") []) r.participant)

/-- one-way according to the documentation: tag one_way, else tags one_way:participant (default yes), else yes for all but
pedestrians -/
def OneWayFor (e : Env P V) (d : Nat) (participant : Str) : Prop :=
  match (find (e.llAttr d) (key "one_way")).bind e.asBool with
  | some b => b = true
  | none =>
    (SetFor (e.llAttr d) (key "one_way") ∧
      Decides e.asBool (e.llAttr d) (key "one_way") (key "one_way:" ++ participant) true true) ∨
    (¬ SetFor (e.llAttr d) (key "one_way") ∧ participant ≠ key "pedestrian")

theorem canPassType_iff (t p : Str) : (canPassType t p).getD false = true ↔ AllowedByType t p := by
  unfold canPassType
  by_cases hmem : t ∈ participantMap.map (·.1)
  · simp only [participantMap, List.map_cons, List.map_nil, List.mem_cons, List.not_mem_nil, or_false] at hmem
    rcases hmem with rfl | rfl | rfl | rfl | rfl | rfl | rfl | rfl | rfl | rfl | rfl
    all_goals simp [participantMap, List.find?, startswith_iff, AllowedByType, key]
    all_goals (constructor <;> intro h)
    all_goals (first | (rcases h with h | h | h <;> simp [h]; done) | (rcases h with h | h <;> simp [h]; done))
  · rw [List.find?_eq_none.mpr (fun e he hc => hmem (List.mem_map.mpr ⟨e, he, by simpa using hc⟩))]
    simp only [participantMap, List.map_cons, List.map_nil, List.mem_cons, List.not_mem_nil, or_false, not_or] at hmem
    simp [AllowedByType, hmem]

theorem canPassPrim_iff (asBool : Str → Option Bool) (r : Rules V) (regs : List Nat) (a : Attrs) (hs : Sorted a) :
    canPassPrim asBool r regs a = true ↔ Allowed asBool r regs a := by
  unfold canPassPrim Allowed
  cases r.byRule regs with
  | some b => rfl
  | none =>
    simp only
    by_cases h : hasOverride a (key "participant") = true
    · rw [if_pos h, getOverride_iff asBool a hs]
      have h' := (hasOverride_iff _ _).mp h
      have hk : key "participant" ++ (key ":" ++ r.participant) = key "participant:" ++ r.participant := by simp [key]
      rw [hk]
      simp [h']
    · rw [if_neg h, canPassType_iff]
      have h' : ¬ SetFor a (key "participant") := fun h'' => h ((hasOverride_iff _ _).mpr h'')
      simp [h']

theorem isDrivingDir_iff (e : Env P V) (h : LH) (p : Str) (hs : Sorted (e.llAttr h.data)) :
    isDrivingDir e h p = true ↔ h.inv = false ∨ ¬ OneWayFor e h.data p := by
  unfold isDrivingDir OneWayFor
  cases hi : h.inv with
  | false => simp
  | true =>
    simp only [Bool.not_true, Bool.false_eq_true, if_false, reduceCtorEq, false_or]
    cases (find (e.llAttr h.data) (key "one_way")).bind e.asBool with
    | some b => cases b <;> simp
    | none =>
      simp only
      by_cases ho : hasOverride (e.llAttr h.data) (key "one_way") = true
      · have ho' := (hasOverride_iff _ _).mp ho
        rw [if_pos ho]
        have hk : key "one_way" ++ (key ":" ++ p) = key "one_way:" ++ p := by simp [key]
        rw [hk, Bool.not_eq_true', ← Bool.not_eq_true, getOverride_iff e.asBool _ hs]
        simp [ho']
      · have ho' : ¬ SetFor (e.llAttr h.data) (key "one_way") := fun h'' => ho ((hasOverride_iff _ _).mpr h'')
        rw [if_neg ho]
        simp [ho']

/-- **C16.** A lanelet is passable iff the participant is permitted (by a rule of the country, else by participant tags,
else by the subtype) and the direction is legal: the lanelet is not inverted or not one-way for the participant. -/
theorem canPass_iff (e : Env P V) (r : Rules V) (h : LH) (hs : Sorted (e.llAttr h.data)) :
    canPass e r h = true ↔
      (h.inv = false ∨ ¬ OneWayFor e h.data r.participant) ∧
      Allowed e.asBool r (e.w.lls h.data).regs (e.llAttr h.data) := by
  rw [← isDrivingDir_iff e h r.participant hs, ← canPassPrim_iff _ _ _ _ hs]
  unfold canPass
  cases isDrivingDir e h r.participant <;> simp

/-- Areas: as lanelets, without direction; never for the German vehicle rules. -/
theorem canPassArea_iff (e : Env P V) (r : Rules V) (ar : Nat) (hs : Sorted (e.arAttr ar)) :
    canPassArea e r ar = true ↔ r.areas = true ∧ Allowed e.asBool r (e.w.ars ar).regs (e.arAttr ar) := by
  rw [← canPassPrim_iff _ _ _ _ hs]
  unfold canPassArea
  simp

/-- isOneWay tells whether the lanelet is one-way for the participant, the same for both directions. -/
theorem isOneWay_iff (e : Env P V) (r : Rules V) (h : LH) (hs : Sorted (e.llAttr h.data)) :
    (isOneWay e r h = true ↔ OneWayFor e h.data r.participant) ∧ isOneWay e r (invertL h) = isOneWay e r h := by
  have h1 := isDrivingDir_iff e h r.participant hs
  have h2 := isDrivingDir_iff e (invertL h) r.participant hs
  have hd : (invertL h).data = h.data := rfl
  have hi : (invertL h).inv = !h.inv := rfl
  rw [hd, hi] at h2
  unfold isOneWay
  rw [invertL_invertL]
  constructor
  · by_cases ho : OneWayFor e h.data r.participant <;> cases hinv : h.inv <;>
      cases ha : isDrivingDir e h r.participant <;> cases hb : isDrivingDir e (invertL h) r.participant <;>
      simp_all
  · cases isDrivingDir e h r.participant <;> cases isDrivingDir e (invertL h) r.participant <;> rfl

/-- A lanelet that is not one-way is passable in one direction iff in the other; a one-way lanelet never against its
direction. -/
theorem canPass_directions (e : Env P V) (r : Rules V) (h : LH) (hs : Sorted (e.llAttr h.data)) :
    (isOneWay e r h = false → canPass e r (invertL h) = canPass e r h) ∧
    (isOneWay e r h = true → h.inv = true → canPass e r h = false) := by
  have ho := (isOneWay_iff e r h hs).1
  have h1 := canPass_iff e r h hs
  have h2 := canPass_iff e r (invertL h) hs
  constructor
  · intro hf
    have hn : ¬ OneWayFor e h.data r.participant := fun h' => by rw [ho.mpr h'] at hf; cases hf
    rw [Bool.eq_iff_iff, h1, h2]
    have hn' : ¬ OneWayFor e (invertL h).data r.participant := hn
    simp only [hn, hn', not_false_eq_true, or_true, true_and]
    exact Iff.rfl
  · intro ht hi
    have := ho.mp ht
    cases hc : canPass e r h with
    | false => rfl
    | true => have := (h1.mp hc).1; rw [hi] at this; simp_all

/-- Bus lanes: the documentation lists buses, taxis and emergency vehicles; the code has no entry for them. -/
theorem busLane_counterexample (p : Str) : canPassType (key "bus_lane") p = none := by
  simp [canPassType, participantMap, key, List.find?]

/-- `one_way:bicycle=no` makes the lanelet one-way for pedestrians, who otherwise may use it in both directions. -/
theorem pedestrian_oneway_counterexample :
    ∃ (e e' : Env Nat Nat) (h : LH), h.inv = true ∧ e.llAttr h.data = [] ∧
      e'.llAttr h.data = [(key "one_way:bicycle", key "no")] ∧
      isDrivingDir e h (key "pedestrian") = true ∧ isDrivingDir e' h (key "pedestrian") = false :=
  ⟨⟨⟨fun _ => [], fun _ => 0, fun _ => ⟨⟨0, false⟩, ⟨0, false⟩, [], none⟩, fun _ => ⟨[], [], [], [], []⟩⟩, fun _ => [],
      fun _ => [], fun _ => [], fun _ => some false, fun _ => none⟩,
    ⟨⟨fun _ => [], fun _ => 0, fun _ => ⟨⟨0, false⟩, ⟨0, false⟩, [], none⟩, fun _ => ⟨[], [], [], [], []⟩⟩, fun _ => [],
      fun _ => [(key "one_way:bicycle", key "no")], fun _ => [], fun _ => some false, fun _ => none⟩,
    ⟨0, true⟩, rfl, rfl, rfl, by decide, by decide⟩

/-! ### C18: lane changes -/

/-- a marking may be crossed (table of the documentation); `rightward`: from the left side of the line to its right -/
def MarkPermits (type subtype p : Str) (rightward : Bool) : Prop :=
  ((key "vehicle" <+: p ∨ p = key "bicycle") ∧ (type = key "line_thin" ∨ type = key "line_thick") ∧
    (subtype = key "dashed" ∨ (rightward = true ∧ subtype = key "dashed_solid") ∨
      (rightward = false ∧ subtype = key "solid_dashed"))) ∨
  ((p = key "pedestrian" ∨ p = key "bicycle") ∧ type = key "curbstone" ∧ subtype = key "low")

/-- Specification: the attribute is there. -/
def hasTag (a : Attrs) (k : String) : Prop := (find a (key k)).isSome = true

/-- Specification: the attribute is there and means yes. -/
def tagYes (asBool : Str → Option Bool) (a : Attrs) (k : String) : Prop := attrBool asBool a (key k) false = true

/-- crossing a line with attributes `a`: by the tag lane_change, else by the tags for the two directions, else by the
marking -/
def MayCross (asBool : Str → Option Bool) (a : Attrs) (p : Str) (rightward : Bool) : Prop :=
  (hasTag a "lane_change" ∧ tagYes asBool a "lane_change") ∨
  (¬ hasTag a "lane_change" ∧ (hasTag a "lane_change:left" ∨ hasTag a "lane_change:right") ∧
    tagYes asBool a (if rightward then "lane_change:right" else "lane_change:left")) ∨
  (¬ hasTag a "lane_change" ∧ ¬ hasTag a "lane_change:left" ∧ ¬ hasTag a "lane_change:right" ∧
    MarkPermits (attrStr a (key "type") []) (attrStr a (key "subtype") []) p rightward)

theorem find_none_attrBool {asBool : Str → Option Bool} {a : Attrs} {k : String} (h : ¬ hasTag a k) :
    ¬ tagYes asBool a k := by
  unfold hasTag at h
  unfold tagYes attrBool
  cases hf : find a (key k) with
  | none => simp
  | some v => rw [hf] at h; simp at h

theorem vehicleChange_iff (type subtype : Str) (rightward : Bool) :
    (if rightward then canChangeToRight (mapOr vehicleChange (type, subtype) .none)
      else canChangeToLeft (mapOr vehicleChange (type, subtype) .none)) = true ↔
    (type = key "line_thin" ∨ type = key "line_thick") ∧
      (subtype = key "dashed" ∨ (rightward = true ∧ subtype = key "dashed_solid") ∨
        (rightward = false ∧ subtype = key "solid_dashed")) := by
  by_cases hmem : (type, subtype) ∈ vehicleChange.map (·.1)
  · simp only [vehicleChange, List.map_cons, List.map_nil, List.mem_cons, List.not_mem_nil, or_false, Prod.mk.injEq]
      at hmem
    rcases hmem with ⟨rfl, rfl⟩ | ⟨rfl, rfl⟩ | ⟨rfl, rfl⟩ | ⟨rfl, rfl⟩ | ⟨rfl, rfl⟩ | ⟨rfl, rfl⟩ <;>
      cases rightward <;> decide
  · have hn : mapOr vehicleChange (type, subtype) .none = .none := by
      unfold mapOr
      rw [List.find?_eq_none.mpr (fun e he hc => hmem (List.mem_map.mpr ⟨e, he, by simpa using hc⟩))]
      rfl
    rw [hn]
    simp only [vehicleChange, List.map_cons, List.map_nil, List.mem_cons, List.not_mem_nil, or_false, Prod.mk.injEq,
      not_or, not_and] at hmem
    obtain ⟨h1, h2, h3, h4, h5, h6⟩ := hmem
    constructor
    · cases rightward <;> intro h <;> simp [canChangeToRight, canChangeToLeft] at h
    · rintro ⟨ht, hsub⟩
      exfalso
      rcases ht with rfl | rfl
      · rcases hsub with h | ⟨-, h⟩ | ⟨-, h⟩
        · exact h1 rfl h
        · exact h3 rfl h
        · exact h5 rfl h
      · rcases hsub with h | ⟨-, h⟩ | ⟨-, h⟩
        · exact h2 rfl h
        · exact h4 rfl h
        · exact h6 rfl h

theorem pedestrianChange_iff (type subtype : Str) (rightward : Bool) :
    (if rightward then canChangeToRight (mapOr pedestrianChange (type, subtype) .none)
      else canChangeToLeft (mapOr pedestrianChange (type, subtype) .none)) = true ↔
    type = key "curbstone" ∧ subtype = key "low" := by
  by_cases hmem : (type, subtype) = (key "curbstone", key "low")
  · simp only [Prod.mk.injEq] at hmem
    obtain ⟨rfl, rfl⟩ := hmem
    cases rightward <;> decide
  · have hn : mapOr pedestrianChange (type, subtype) .none = .none := by
      unfold mapOr
      rw [List.find?_eq_none.mpr]
      · rfl
      · intro e he hc
        simp only [pedestrianChange, List.mem_cons, List.not_mem_nil, or_false] at he
        subst he
        exact hmem (of_decide_eq_true hc).symm
    rw [hn]
    simp only [Prod.mk.injEq] at hmem
    cases rightward <;> simp [canChangeToRight, canChangeToLeft, hmem]

theorem change_none_iff (t : Change) :
    t ≠ .none ↔ (canChangeToRight t = true ∨ canChangeToLeft t = true) := by cases t <;> decide

theorem getChangeType_iff (type subtype p : Str) (rightward : Bool) :
    (if rightward then canChangeToRight (getChangeType type subtype p)
      else canChangeToLeft (getChangeType type subtype p)) = true ↔ MarkPermits type subtype p rightward := by
  have hv := vehicleChange_iff type subtype
  have hp := pedestrianChange_iff type subtype
  unfold getChangeType MarkPermits
  by_cases h1 : startswith p (key "vehicle") = true
  · rw [if_pos h1, hv]
    have h1' := (startswith_iff _ _).mp h1
    have n1 : p ≠ key "pedestrian" := by rintro rfl; revert h1; decide
    have n2 : p ≠ key "bicycle" := by rintro rfl; revert h1; decide
    simp [h1', n1, n2]
  · rw [if_neg h1]
    have h1' : ¬ key "vehicle" <+: p := fun h => h1 ((startswith_iff _ _).mpr h)
    by_cases h2 : p = key "pedestrian"
    · rw [if_pos h2, hp]
      have n2 : p ≠ key "bicycle" := by rw [h2]; decide
      have h1'' : ¬ key "vehicle" <+: key "pedestrian" := by rw [← h2]; exact h1'
      simp only [h1', n2, h2, false_or, or_false, true_and]
      have n3 : key "pedestrian" ≠ key "bicycle" := by decide
      simp [h1'', n3]
    · rw [if_neg h2]
      by_cases h3 : p = key "bicycle"
      · rw [if_pos h3]
        simp only [h1', h2, h3, or_true, true_and, or_self, false_or]
        by_cases hvn : mapOr vehicleChange (type, subtype) Change.none ≠ Change.none
        · rw [if_pos hvn, hv]
          -- a line marking is no curbstone
          have := (change_none_iff _).mp hvn
          have hline : type = key "line_thin" ∨ type = key "line_thick" := by
            rcases this with h | h
            · exact ((hv true).mp (by simpa using h)).1
            · exact ((hv false).mp (by simpa using h)).1
          have hnc : type ≠ key "curbstone" := by rcases hline with rfl | rfl <;> decide
          simp [hnc]
        · rw [if_neg hvn, hp]
          simp only [ne_eq, Decidable.not_not] at hvn
          have := hv rightward
          rw [hvn] at this
          have hno : ¬ ((type = key "line_thin" ∨ type = key "line_thick") ∧
              (subtype = key "dashed" ∨ (rightward = true ∧ subtype = key "dashed_solid") ∨
                (rightward = false ∧ subtype = key "solid_dashed"))) := by
            rw [← this]; cases rightward <;> decide
          simp [hno]
      · rw [if_neg h3]
        cases rightward <;> simp [canChangeToRight, canChangeToLeft, h1', h2, h3]

/-- The tags are used as documented: lane_change:left comes with lane_change:right. -/
def TagsComplete (a : Attrs) : Prop := hasTag a "lane_change:left" → hasTag a "lane_change:right"

/-- Specification: what the attributes of a boundary permit, in its own direction. -/
def baseChange (asBool : Str → Option Bool) (a : Attrs) (p : Str) : Change :=
  (getHardcoded asBool a).getD (getChangeType (attrStr a (key "type") []) (attrStr a (key "subtype") []) p)

theorem laneChangeType_base (e : Env P V) (r : Rules V) (b : LS) :
    laneChangeType e r b false =
      (if b.inv then (if baseChange e.asBool (e.lsAttr b.data) r.participant = .toLeft then .toRight
        else if baseChange e.asBool (e.lsAttr b.data) r.participant = .toRight then .toLeft
        else baseChange e.asBool (e.lsAttr b.data) r.participant)
      else baseChange e.asBool (e.lsAttr b.data) r.participant) := by
  unfold laneChangeType baseChange
  simp only [Bool.and_false, Bool.false_and, Bool.false_eq_true, if_false]
  cases getHardcoded e.asBool (e.lsAttr b.data) <;> rfl

/-- laneChangeType without special treatment of virtual lines: crossing from left to right (`toRight`) or from right to
left, seen in the direction of the handle. -/
theorem laneChangeType_iff (e : Env P V) (r : Rules V) (b : LS) (toRight : Bool) (hc : TagsComplete (e.lsAttr b.data)) :
    (if toRight then canChangeToRight (laneChangeType e r b false)
      else canChangeToLeft (laneChangeType e r b false)) = true ↔
    MayCross e.asBool (e.lsAttr b.data) r.participant (toRight != b.inv) := by
  have key1 : ∀ (t : Change) (inv : Bool),
      (if toRight then canChangeToRight (if inv then (if t = .toLeft then .toRight else if t = .toRight then .toLeft else t) else t)
        else canChangeToLeft (if inv then (if t = .toLeft then .toRight else if t = .toRight then .toLeft else t) else t)) =
      (if (toRight != inv) then canChangeToRight t else canChangeToLeft t) := by
    intro t inv; cases toRight <;> cases inv <;> cases t <;> rfl
  have hl := laneChangeType_base e r b
  rw [hl, key1]
  generalize (toRight != b.inv) = rw'
  generalize e.lsAttr b.data = a at hc ⊢
  unfold MayCross
  have hb : baseChange e.asBool a r.participant = (getHardcoded e.asBool a).getD
    (getChangeType (attrStr a (key "type") []) (attrStr a (key "subtype") []) r.participant) := rfl
  rw [hb]
  unfold getHardcoded
  by_cases h1 : (find a (key "lane_change")).isSome = true
  · rw [if_pos h1]
    have h1' : hasTag a "lane_change" := h1
    by_cases h2 : attrBool e.asBool a (key "lane_change") false = true
    · rw [if_pos h2]
      have h2' : tagYes e.asBool a "lane_change" := h2
      cases rw' <;> simp [canChangeToRight, canChangeToLeft, h1', h2']
    · rw [if_neg h2]
      have h2' : ¬ tagYes e.asBool a "lane_change" := h2
      cases rw' <;> simp [canChangeToRight, canChangeToLeft, h1', h2']
  · rw [if_neg h1]
    have h1' : ¬ hasTag a "lane_change" := h1
    have dl : (find a (key "lane_change:left")).isSome = true ↔ hasTag a "lane_change:left" := Iff.rfl
    have dr : (find a (key "lane_change:right")).isSome = true ↔ hasTag a "lane_change:right" := Iff.rfl
    have tl : attrBool e.asBool a (key "lane_change:left") false = true ↔ tagYes e.asBool a "lane_change:left" := Iff.rfl
    have tr : attrBool e.asBool a (key "lane_change:right") false = true ↔ tagYes e.asBool a "lane_change:right" := Iff.rfl
    by_cases hL : hasTag a "lane_change:left"
    · have hR := hc hL
      by_cases hl : tagYes e.asBool a "lane_change:left" <;> by_cases hr : tagYes e.asBool a "lane_change:right"
      · have e1 := tl.mpr hl; have e2 := tr.mpr hr
        cases rw' <;> simp [dl.mpr hL, e1, e2, h1', hL, hl, hr, canChangeToLeft, canChangeToRight]
      · have e1 := tl.mpr hl; have e2 : attrBool e.asBool a (key "lane_change:right") false = false := by
          simpa [tagYes] using hr
        cases rw' <;> simp [dl.mpr hL, e1, e2, h1', hL, hl, hr, canChangeToLeft, canChangeToRight]
      · have e1 : attrBool e.asBool a (key "lane_change:left") false = false := by simpa [tagYes] using hl
        have e2 := tr.mpr hr
        cases rw' <;> simp [dl.mpr hL, dr.mpr hR, e1, e2, h1', hL, hR, hl, hr, canChangeToLeft, canChangeToRight]
      · have e1 : attrBool e.asBool a (key "lane_change:left") false = false := by simpa [tagYes] using hl
        have e2 : attrBool e.asBool a (key "lane_change:right") false = false := by simpa [tagYes] using hr
        cases rw' <;> simp [dl.mpr hL, dr.mpr hR, e1, e2, h1', hL, hR, hl, hr, canChangeToLeft, canChangeToRight]
    · have eL : (find a (key "lane_change:left")).isSome = false := by
        cases h : (find a (key "lane_change:left")).isSome with
        | false => rfl
        | true => exact absurd (dl.mp h) hL
      have nl := find_none_attrBool (asBool := e.asBool) hL
      by_cases hR : hasTag a "lane_change:right"
      · by_cases hr : tagYes e.asBool a "lane_change:right"
        · have e2 := tr.mpr hr
          cases rw' <;> simp [eL, dr.mpr hR, e2, h1', hL, hR, nl, hr, canChangeToLeft, canChangeToRight]
        · have e2 : attrBool e.asBool a (key "lane_change:right") false = false := by simpa [tagYes] using hr
          cases rw' <;> simp [eL, dr.mpr hR, e2, h1', hL, hR, nl, hr, canChangeToLeft, canChangeToRight]
      · have eR : (find a (key "lane_change:right")).isSome = false := by
          cases h : (find a (key "lane_change:right")).isSome with
          | false => rfl
          | true => exact absurd (dr.mp h) hR
        simp only [eL, eR, Bool.false_and, Bool.false_eq_true, if_false, Option.getD_none]
        rw [getChangeType_iff]
        simp [h1', hL, hR]

/-- **C18.** A lane change is allowed iff both lanelets are passable and they are direct neighbours whose common bound may
be crossed from the side of `a`: to the right if `a` is the left one, to the left if `a` is the right one. -/
theorem canChangeLane_iff (e : Env P V) (r : Rules V) (a b : LH)
    (hR : TagsComplete (e.lsAttr (rightBound e.w a).data)) (hL : TagsComplete (e.lsAttr (leftBound e.w a).data)) :
    canChangeLane e r a b = true ↔
      canPass e r a = true ∧ canPass e r b = true ∧
      ((rightBound e.w a = leftBound e.w b ∧
          MayCross e.asBool (e.lsAttr (rightBound e.w a).data) r.participant (!(rightBound e.w a).inv)) ∨
       (rightBound e.w a ≠ leftBound e.w b ∧ leftBound e.w a = rightBound e.w b ∧
          MayCross e.asBool (e.lsAttr (leftBound e.w a).data) r.participant (leftBound e.w a).inv)) := by
  have h1 := laneChangeType_iff e r (rightBound e.w a) true hR
  have h2 := laneChangeType_iff e r (leftBound e.w a) false hL
  simp only [if_true, Bool.false_eq_true, if_false] at h1 h2
  have hl := (leftOf_spec e.w a b).1
  have hr : rightOf e.w a b = true ↔ leftBound e.w a = rightBound e.w b := by
    show leftOf e.w b a = true ↔ _
    rw [(leftOf_spec e.w b a).1]; exact eq_comm
  unfold canChangeLane
  by_cases ha : canPass e r a = true
  · by_cases hb : canPass e r b = true
    · simp only [ha, hb, Bool.not_true, Bool.or_self, Bool.false_eq_true, if_false, true_and]
      by_cases hlo : leftOf e.w a b = true
      · simp only [hlo, Bool.not_true, Bool.false_and, Bool.false_eq_true, if_false, if_true]
        rw [h1]
        simp [hl.mp hlo]
      · have hlo' : leftOf e.w a b = false := by simpa using hlo
        have hne : rightBound e.w a ≠ leftBound e.w b := fun h => hlo (hl.mpr h)
        simp only [hlo', Bool.not_false, Bool.true_and, Bool.false_eq_true, if_false]
        by_cases hro : rightOf e.w a b = true
        · simp only [hro, Bool.not_true, Bool.false_eq_true, if_false]
          rw [h2]
          simp only [hne, hr.mp hro, ne_eq, not_false_eq_true, true_and, false_and, false_or]
          simp
        · have hro' : rightOf e.w a b = false := by simpa using hro
          have hne' : leftBound e.w a ≠ rightBound e.w b := fun h => hro (hr.mpr h)
          simp [hro', hne, hne']
    · simp [ha, hb]
  · simp [ha]

/-- Looking at both lanelets in the opposite direction does not change the answer, if this is also a legal direction (and
the lanelets are not neighbours on both sides). -/
theorem canChangeLane_mirror (e : Env P V) (r : Rules V) (a b : LH)
    (ha : canPass e r (invertL a) = canPass e r a) (hb : canPass e r (invertL b) = canPass e r b)
    (hside : ¬ (leftOf e.w a b = true ∧ rightOf e.w a b = true)) :
    canChangeLane e r (invertL a) (invertL b) = canChangeLane e r a b := by
  have il := invert_spec (fun a _ => a) e.w a
  have hflip : ∀ (s : LS), canChangeToLeft (laneChangeType e r (invert s) false) =
        canChangeToRight (laneChangeType e r s false) ∧
      canChangeToRight (laneChangeType e r (invert s) false) = canChangeToLeft (laneChangeType e r s false) := by
    intro s
    cases s with
    | mk d i =>
      rw [laneChangeType_base, laneChangeType_base]
      simp only [invert]
      have : ∀ (t : Change) (i : Bool),
          canChangeToLeft (if (!i) = true then if t = .toLeft then .toRight else if t = .toRight then .toLeft else t
            else t) =
          canChangeToRight (if i = true then if t = .toLeft then .toRight else if t = .toRight then .toLeft else t
            else t) ∧
          canChangeToRight (if (!i) = true then if t = .toLeft then .toRight else if t = .toRight then .toLeft else t
            else t) =
          canChangeToLeft (if i = true then if t = .toLeft then .toRight else if t = .toRight then .toLeft else t
            else t) := by intro t i; cases i <;> cases t <;> decide
      exact this _ _
  have hl : leftOf e.w (invertL a) (invertL b) = rightOf e.w a b := by
    show _ = leftOf e.w b a
    exact (leftOf_spec e.w b a).2.1
  have hr : rightOf e.w (invertL a) (invertL b) = leftOf e.w a b := by
    show leftOf e.w (invertL b) (invertL a) = _
    exact (leftOf_spec e.w a b).2.1
  unfold canChangeLane
  rw [ha, hb, hl, hr, il.1, il.2.1]
  cases h1 : leftOf e.w a b <;> cases h2 : rightOf e.w a b
  · simp
  · simp [(hflip _).2]
  · simp [(hflip _).1]
  · exact absurd ⟨h1, h2⟩ hside

/-- With only `lane_change:left=no` the tag is ignored: the marking decides. -/
theorem laneChange_left_only_counterexample :
    ∃ (asBool : Str → Option Bool) (a : Attrs), hasTag a "lane_change:left" ∧ ¬ tagYes asBool a "lane_change:left" ∧
      getHardcoded asBool a = none :=
  ⟨fun s => if s = key "no" then some false else none, [(key "lane_change:left", key "no")], by
    unfold hasTag; decide, by unfold tagYes; decide, by decide⟩

/-! ### C17: transitions -/

/-- **C17, lanelets.** -/
theorem canPassLL_iff [DecidableEq P] (e : Env P V) (r : Rules V) (a b : LH) :
    canPassLL e r a b = true ↔ follows e.w a b = true ∧ canPass e r a = true ∧ canPass e r b = true := by
  unfold canPassLL; simp [and_assoc]

theorem commonLineAhead_some [DecidableEq P] (w : World P) (ll : LH) (ar : Nat) (l : LS)
    (h : commonLineAhead w ll ar = some (some l)) :
    ∃ p1 p2, (points w (leftBound w ll)).getLast? = some p1 ∧ (points w (rightBound w ll)).getLast? = some p2 ∧
      l ∈ (w.ars ar).outer ∧ (points w l).getLast? = some p1 ∧ (points w l).head? = some p2 := by
  unfold commonLineAhead at h
  cases h1 : (points w (leftBound w ll)).getLast? with
  | none => simp [h1] at h
  | some p1 =>
    cases h2 : (points w (rightBound w ll)).getLast? with
    | none => simp [h1, h2] at h
    | some p2 =>
      refine ⟨p1, p2, rfl, rfl, ?_⟩
      simp only [h1, h2, Option.bind_eq_bind, Option.bind_some] at h
      let f : Option LS → LS → Option (Option LS) := fun found ls => match found with
        | some l => some (some l)
        | none => do
          let b ← (points w ls).getLast?
          let f ← (points w ls).head?
          return if b = p1 ∧ f = p2 then some ls else none
      have key : ∀ (L : List LS) (acc : Option LS), L.foldlM f acc = some (some l) →
          acc = some l ∨ (l ∈ L ∧ (points w l).getLast? = some p1 ∧ (points w l).head? = some p2) := by
        intro L
        induction L with
        | nil => intro acc h; left; simpa using h
        | cons x L ih =>
          intro acc h
          rw [List.foldlM_cons] at h
          cases acc with
          | some y =>
            rcases ih (some y) (by simpa [f] using h) with h' | ⟨h', h''⟩
            · exact .inl h'
            · exact .inr ⟨List.mem_cons_of_mem _ h', h''⟩
          | none =>
            cases hb : (points w x).getLast? with
            | none => simp [f, hb] at h
            | some b =>
              cases hf : (points w x).head? with
              | none => simp [f, hb, hf] at h
              | some f0 =>
                by_cases hc : b = p1 ∧ f0 = p2
                · have hx : f none x = some (some x) := by simp [f, hb, hf, hc]
                  rw [hx] at h
                  rcases ih (some x) (by simpa using h) with h' | ⟨h', h''⟩
                  · obtain rfl : x = l := by simpa using h'
                    exact .inr ⟨by simp, by rw [hb, hc.1], by rw [hf, hc.2]⟩
                  · exact .inr ⟨List.mem_cons_of_mem _ h', h''⟩
                · have hx : f none x = some none := by simp [f, hb, hf, hc]
                  rw [hx] at h
                  rcases ih none (by simpa using h) with h' | ⟨h', h''⟩
                  · cases h'
                  · exact .inr ⟨List.mem_cons_of_mem _ h', h''⟩
      rcases key _ none h with h' | h'
      · cases h'
      · exact h'

/-- the line may be crossed in this direction of the handle, where an untagged virtual line is no obstacle -/
def CrossLine (e : Env P V) (r : Rules V) (b : LS) (toRight : Bool) : Prop :=
  MayCross e.asBool (e.lsAttr b.data) r.participant (toRight != b.inv) ∨
  (¬ hasTag (e.lsAttr b.data) "lane_change" ∧ ¬ hasTag (e.lsAttr b.data) "lane_change:left" ∧
    ¬ hasTag (e.lsAttr b.data) "lane_change:right" ∧ attrStr (e.lsAttr b.data) (key "type") [] = key "virtual")

theorem getHardcoded_none (asBool : Str → Option Bool) (a : Attrs) (hc : TagsComplete a) :
    getHardcoded asBool a = none ↔
      ¬ hasTag a "lane_change" ∧ ¬ hasTag a "lane_change:left" ∧ ¬ hasTag a "lane_change:right" := by
  unfold getHardcoded
  unfold TagsComplete at hc
  unfold hasTag at hc ⊢
  cases h1 : (find a (key "lane_change")).isSome
  · cases h3 : (find a (key "lane_change:right")).isSome
    · have h2 : (find a (key "lane_change:left")).isSome = false := by
        cases h2 : (find a (key "lane_change:left")).isSome with
        | false => rfl
        | true => have := hc h2; rw [h3] at this; cases this
      simp [h2]
    · simp only [Bool.false_eq_true, if_false, if_true, not_true, and_false, iff_false]
      split
      · split <;> simp
      · split <;> simp
  · simp only [if_true, not_true, false_and, iff_false]
    split <;> simp

theorem crossLine_iff (e : Env P V) (r : Rules V) (b : LS) (toRight : Bool) (hc : TagsComplete (e.lsAttr b.data)) :
    (if toRight then canChangeToRight (laneChangeType e r b true)
      else canChangeToLeft (laneChangeType e r b true)) = true ↔ CrossLine e r b toRight := by
  have h0 := laneChangeType_iff e r b toRight hc
  unfold CrossLine
  rw [← h0]
  have hn := getHardcoded_none e.asBool _ hc
  by_cases hv : getHardcoded e.asBool (e.lsAttr b.data) = none ∧
      attrStr (e.lsAttr b.data) (key "type") [] = key "virtual"
  · have e1 : laneChangeType e r b true = .both := by simp [laneChangeType, hv.1, hv.2]
    have := hn.mp hv.1
    rw [e1]
    cases toRight <;> simp [this, hv.2, canChangeToLeft, canChangeToRight]
  · have e1 : laneChangeType e r b true = laneChangeType e r b false := by
      have hcond : ((getHardcoded e.asBool (e.lsAttr b.data)).isNone && true &&
          attrStr (e.lsAttr b.data) (key "type") [] == key "virtual") = false := by
        cases hg : getHardcoded e.asBool (e.lsAttr b.data) with
        | some t => rfl
        | none => simp [hg] at hv; simp [hv]
      unfold laneChangeType
      simp only [hcond, Bool.and_false, Bool.false_and, Bool.false_eq_true, if_false]
    rw [e1]
    constructor
    · exact .inl
    · rintro (h | h)
      · exact h
      · exact absurd ⟨hn.mpr ⟨h.1, h.2.1, h.2.2.1⟩, h.2.2.2⟩ hv

/-- `l` closes the end of the lanelet: it leads from the end of the right bound to the end of the left bound -/
def ClosesEnd (w : World P) (ll : LH) (l : LS) : Prop :=
  ∃ p1 p2, (points w l).getLast? = some p1 ∧ (points w l).head? = some p2 ∧
    (points w (leftBound w ll)).getLast? = some p1 ∧ (points w (rightBound w ll)).getLast? = some p2

/-- **C17, lanelet to area.** A transition is only possible between passable primitives, over a line of the area's
boundary that is a bound of the lanelet or closes its end, and that may be crossed in this direction (the boundary of an
area has the area on its right). -/
theorem canPassLA_implies [DecidableEq P] (e : Env P V) (r : Rules V) (hc : ∀ d, TagsComplete (e.lsAttr d))
    (a : LH) (b : Nat) (h : canPassLA e r a b = some true) :
    canPass e r a = true ∧ canPassArea e r b = true ∧
    ((invert (leftBound e.w a) ∈ (e.w.ars b).outer ∧ CrossLine e r (leftBound e.w a) false) ∨
     (rightBound e.w a ∈ (e.w.ars b).outer ∧ CrossLine e r (rightBound e.w a) true) ∨
     ∃ l ∈ (e.w.ars b).outer, ClosesEnd e.w a l ∧ CrossLine e r l true) := by
  unfold canPassLA at h
  by_cases hp : (!canPass e r a || !canPassArea e r b) = true
  · rw [if_pos hp] at h; simp at h
  · rw [if_neg hp] at h
    simp only [Bool.or_eq_true, Bool.not_eq_true', not_or, Bool.not_eq_false] at hp
    refine ⟨hp.1, hp.2, ?_⟩
    obtain ⟨s1, s2, -⟩ := areaSides_spec e.w a b
    by_cases hl : areaLeftOf e.w a b = true
    · rw [if_pos hl] at h
      exact .inl ⟨s1.mp hl, (crossLine_iff e r _ false (hc _)).mp (by simpa using h)⟩
    · rw [if_neg hl] at h
      by_cases hr : areaRightOf e.w a b = true
      · rw [if_pos hr] at h
        exact .inr (.inl ⟨s2.mp hr, (crossLine_iff e r _ true (hc _)).mp (by simpa using h)⟩)
      · rw [if_neg hr] at h
        cases hco : commonLineAhead e.w a b with
        | none => rw [hco] at h; simp at h
        | some x =>
          cases x with
          | none => rw [hco] at h; simp at h
          | some l =>
            rw [hco] at h
            obtain ⟨p1, p2, q1, q2, q3, q4, q5⟩ := commonLineAhead_some _ _ _ _ hco
            exact .inr (.inr ⟨l, q3, ⟨p1, p2, q4, q5, q1, q2⟩,
              (crossLine_iff e r _ true (hc _)).mp (by simpa using h)⟩)

/-- **C17, area to lanelet.** -/
theorem canPassAL_implies [DecidableEq P] (e : Env P V) (r : Rules V) (hc : ∀ d, TagsComplete (e.lsAttr d))
    (a : Nat) (b : LH) (h : canPassAL e r a b = some true) :
    canPassArea e r a = true ∧ canPass e r b = true ∧
    ((invert (leftBound e.w b) ∈ (e.w.ars a).outer ∧ CrossLine e r (leftBound e.w b) true) ∨
     (rightBound e.w b ∈ (e.w.ars a).outer ∧ CrossLine e r (rightBound e.w b) false) ∨
     ∃ l ∈ (e.w.ars a).outer, ClosesEnd e.w (invertL b) l ∧ CrossLine e r l false) := by
  unfold canPassAL at h
  by_cases hp : (!canPassArea e r a || !canPass e r b) = true
  · rw [if_pos hp] at h; simp at h
  · rw [if_neg hp] at h
    simp only [Bool.or_eq_true, Bool.not_eq_true', not_or, Bool.not_eq_false] at hp
    refine ⟨hp.1, hp.2, ?_⟩
    obtain ⟨s1, s2, -⟩ := areaSides_spec e.w b a
    by_cases hl : areaLeftOf e.w b a = true
    · rw [if_pos hl] at h
      exact .inl ⟨s1.mp hl, (crossLine_iff e r _ true (hc _)).mp (by simpa using h)⟩
    · rw [if_neg hl] at h
      by_cases hr : areaRightOf e.w b a = true
      · rw [if_pos hr] at h
        exact .inr (.inl ⟨s2.mp hr, (crossLine_iff e r _ false (hc _)).mp (by simpa using h)⟩)
      · rw [if_neg hr] at h
        cases hco : commonLineAhead e.w (invertL b) a with
        | none => rw [hco] at h; simp at h
        | some x =>
          cases x with
          | none => rw [hco] at h; simp at h
          | some l =>
            rw [hco] at h
            obtain ⟨p1, p2, q1, q2, q3, q4, q5⟩ := commonLineAhead_some _ _ _ _ hco
            exact .inr (.inr ⟨l, q3, ⟨p1, p2, q4, q5, q1, q2⟩,
              (crossLine_iff e r _ false (hc _)).mp (by simpa using h)⟩)

/-- **C17, areas.** Missing: that both areas are passable (see `canPassAA_counterexample`); only if the second one is
passable, the first one must be. They share a linestring that may be crossed from the first to the second. -/
theorem canPassAA_partial (e : Env P V) (r : Rules V) (hc : ∀ d, TagsComplete (e.lsAttr d)) (a b : Nat)
    (h : canPassAA e r a b = true) :
    (canPassArea e r b = true → canPassArea e r a = true) ∧
    ∃ l, l ∈ (e.w.ars a).outer ∧ invert l ∈ (e.w.ars b).outer ∧ CrossLine e r l false := by
  unfold canPassAA at h
  by_cases hp : (!canPassArea e r a && canPassArea e r b) = true
  · rw [if_pos hp] at h; cases h
  · rw [if_neg hp] at h
    refine ⟨fun hb => by cases ha : canPassArea e r a <;> simp_all, ?_⟩
    cases hco : commonLineAreas e.w a b with
    | none => rw [hco] at h; cases h
    | some l =>
      rw [hco] at h
      have := (commonLineAreas_spec e.w a b).1 l hco
      exact ⟨l, this.1, this.2, (crossLine_iff e r _ false (hc _)).mp (by simpa using h)⟩

/-- the world of the examples below: lanelet 0 between linestrings 0 and 1, lanelet 1 right of it between 1 and 2, lanelet
2 after lanelet 0; area 0 left of lanelet 0, area 1 beyond linestring 6 of area 0 -/
def exWorld : World Nat where
  pts := fun n => [[0, 1], [10, 11], [20, 21], [1, 2], [11, 12], [0, 5], [5, 1], [9, 1]].getD n []
  ids := fun n => n
  lls := fun n => [⟨⟨0, false⟩, ⟨1, false⟩, [], none⟩, ⟨⟨1, false⟩, ⟨2, false⟩, [], none⟩,
    ⟨⟨3, false⟩, ⟨4, false⟩, [], none⟩].getD n ⟨⟨0, false⟩, ⟨0, false⟩, [], none⟩
  ars := fun n => [⟨[⟨0, true⟩, ⟨5, false⟩, ⟨6, false⟩], [], [], [], []⟩,
    ⟨[⟨6, true⟩, ⟨7, false⟩], [], [], [], []⟩].getD n ⟨[], [], [], [], []⟩

/-- Example. -/
def exBool (s : Str) : Option Bool :=
  if s = key "yes" then some true else if s = key "no" then some false else none

/-- linestring 1 is dashed on the left side, 0 is a low curbstone, 6 virtual; lanelet 0 and 1 are roads, 2 a walkway; area
0 is a walkway, area 1 has no entry in the table -/
def exEnv : Env Nat Nat where
  w := exWorld
  lsAttr := fun n => [[(key "subtype", key "low"), (key "type", key "curbstone")],
    [(key "subtype", key "dashed_solid"), (key "type", key "line_thin")]].getD n
      (if n = 6 then [(key "type", key "virtual")] else [])
  llAttr := fun n => [[(key "one_way", key "no"), (key "participant:pedestrian", key "yes"),
    (key "participant:vehicle", key "yes"), (key "subtype", key "road")],
    [(key "speed_limit", key "50"), (key "speed_limit:vehicle:truck", key "30"), (key "subtype", key "road")],
    [(key "subtype", key "road")]].getD n []
  arAttr := fun n => if n = 0 then [(key "subtype", key "walkway")] else [(key "subtype", key "building")]
  asBool := exBool
  asVel := fun s => if s = key "50" then some 50 else if s = key "30" then some 30 else none

/-- Example. -/
def exRules (p : String) : Rules Nat where
  participant := key p
  byRule := fun _ => none
  regLimit := fun _ => none
  areas := true
  limits := ⟨⟨50, true⟩, ⟨100, true⟩, ⟨130, true⟩, ⟨131, true⟩, ⟨7, true⟩, ⟨5, true⟩, ⟨25, true⟩⟩
  zero := 0

-- C16: lanelet 0 may be used in both directions, lanelet 1 only forwards; trucks may use them, pedestrians only the first
example : canPass exEnv (exRules "vehicle:truck") ⟨0, true⟩ = true ∧ canPass exEnv (exRules "vehicle:truck") ⟨1, true⟩ = false ∧
    canPass exEnv (exRules "vehicle:truck") ⟨1, false⟩ = true ∧ canPass exEnv (exRules "pedestrian") ⟨0, true⟩ = true ∧
    canPass exEnv (exRules "pedestrian") ⟨1, false⟩ = false ∧ isOneWay exEnv (exRules "bicycle") ⟨0, true⟩ = false ∧
    isOneWay exEnv (exRules "bicycle") ⟨1, true⟩ = true := by decide

example : Sorted (exEnv.llAttr 0) ∧ Sorted (exEnv.llAttr 1) := by unfold Sorted; decide

-- C17 and C18: lanelet 2 follows lanelet 0; cars may change from lanelet 0 to lanelet 1 only; pedestrians may step from
-- the lanelet over the low curbstone to area 0
example : canPassLL exEnv (exRules "vehicle") ⟨0, false⟩ ⟨2, false⟩ = true ∧
    canChangeLane exEnv (exRules "vehicle") ⟨0, false⟩ ⟨1, false⟩ = true ∧
    canChangeLane exEnv (exRules "vehicle") ⟨1, false⟩ ⟨0, false⟩ = false ∧
    canPassLA exEnv (exRules "pedestrian") ⟨0, false⟩ 0 = some true ∧
    canPassAL exEnv (exRules "pedestrian") 0 ⟨0, false⟩ = some true := by decide

/-- The code lets pedestrians step into an area that they must not use. -/
theorem canPassAA_counterexample :
    canPassAA exEnv (exRules "pedestrian") 0 1 = true ∧ canPassArea exEnv (exRules "pedestrian") 1 = false := by
  decide

-- C19: the tag for the participant, the general tag, the table
example : (speedLimit exEnv.asBool exEnv.asVel (exRules "vehicle:truck") [] (exEnv.llAttr 1)).speed = 30 ∧
    (speedLimit exEnv.asBool exEnv.asVel (exRules "vehicle:car") [] (exEnv.llAttr 1)).speed = 50 ∧
    (speedLimit exEnv.asBool exEnv.asVel (exRules "vehicle:car") [] (exEnv.llAttr 0)).speed = 50 ∧
    (speedLimit exEnv.asBool exEnv.asVel (exRules "vehicle:car") []
      [(key "location", key "nonurban"), (key "subtype", key "highway")]).speed = 131 := by decide

/-! ### C19: speed limits -/

/-- the limit for the type of the lanelet: table of the documentation (`zero` if there is no entry) -/
def TypeLimit (r : Rules V) (a : Attrs) (l : Limit V) : Prop :=
  let loc := attrStr a (key "location") (key "urban")
  let sub := attrStr a (key "subtype") (key "road")
  (r.participant = key "pedestrian" ∧ l = r.limits.pedestrian) ∨
  (r.participant = key "bicycle" ∧ l = r.limits.bicycle) ∨
  (key "vehicle" <+: r.participant ∧
    ((loc = key "urban" ∧ (sub = key "road" ∨ sub = key "exit") ∧ l = r.limits.urbanRoad) ∨
     (loc = key "nonurban" ∧ sub = key "road" ∧ l = r.limits.nonurbanRoad) ∨
     (loc = key "urban" ∧ sub = key "highway" ∧ l = r.limits.urbanHighway) ∨
     (loc = key "nonurban" ∧ sub = key "highway" ∧ l = r.limits.nonurbanHighway) ∨
     ((loc = key "urban" ∨ loc = key "nonurban") ∧ sub = key "play_street" ∧ l = r.limits.playStreet)))

/-- there is an entry for participant, location and subtype -/
def InTable (r : Rules V) (a : Attrs) : Prop :=
  r.participant = key "pedestrian" ∨ r.participant = key "bicycle" ∨
  (key "vehicle" <+: r.participant ∧
    ((attrStr a (key "location") (key "urban") = key "urban" ∧
        attrStr a (key "subtype") (key "road") ∈ [key "road", key "exit", key "highway", key "play_street"]) ∨
     (attrStr a (key "location") (key "urban") = key "nonurban" ∧
        attrStr a (key "subtype") (key "road") ∈ [key "road", key "highway", key "play_street"])))

theorem limitFromType_spec (r : Rules V) (a : Attrs) :
    (InTable r a → TypeLimit r a (limitFromType r a)) ∧ (¬ InTable r a → limitFromType r a = ⟨r.zero, true⟩) := by
  unfold limitFromType InTable TypeLimit
  by_cases h1 : r.participant = key "pedestrian"
  · simp [h1]
  · rw [if_neg h1]
    by_cases h2 : r.participant = key "bicycle"
    · simp [h2]
    · rw [if_neg h2]
      by_cases h3 : startswith r.participant (key "vehicle") = true
      · rw [if_pos h3]
        have h3' := (startswith_iff _ _).mp h3
        simp only [h1, h2, h3', false_and, false_or, true_and]
        generalize attrStr a (key "location") (key "urban") = loc
        generalize attrStr a (key "subtype") (key "road") = sub
        constructor
        · rintro (⟨rfl, hs⟩ | ⟨rfl, hs⟩)
          · simp only [List.mem_cons, List.not_mem_nil, or_false] at hs
            rcases hs with rfl | rfl | rfl | rfl <;>
            (first
              | exact .inl ⟨rfl, .inl rfl, rfl⟩ | exact .inl ⟨rfl, .inr rfl, rfl⟩ | exact .inr (.inl ⟨rfl, rfl, rfl⟩)
              | exact .inr (.inr (.inl ⟨rfl, rfl, rfl⟩)) | exact .inr (.inr (.inr (.inl ⟨rfl, rfl, rfl⟩)))
              | exact .inr (.inr (.inr (.inr ⟨.inl rfl, rfl, rfl⟩)))
              | exact .inr (.inr (.inr (.inr ⟨.inr rfl, rfl, rfl⟩))))
          · simp only [List.mem_cons, List.not_mem_nil, or_false] at hs
            rcases hs with rfl | rfl | rfl <;>
            (first
              | exact .inl ⟨rfl, .inl rfl, rfl⟩ | exact .inl ⟨rfl, .inr rfl, rfl⟩ | exact .inr (.inl ⟨rfl, rfl, rfl⟩)
              | exact .inr (.inr (.inl ⟨rfl, rfl, rfl⟩)) | exact .inr (.inr (.inr (.inl ⟨rfl, rfl, rfl⟩)))
              | exact .inr (.inr (.inr (.inr ⟨.inl rfl, rfl, rfl⟩)))
              | exact .inr (.inr (.inr (.inr ⟨.inr rfl, rfl, rfl⟩))))
        · intro hno
          unfold mapOr
          rw [List.find?_eq_none.mpr]
          · rfl
          · intro e he hc
            apply hno
            have hc' := of_decide_eq_true hc
            simp only [List.mem_cons, List.not_mem_nil, or_false] at he
            rcases he with rfl | rfl | rfl | rfl | rfl | rfl | rfl <;>
              simp only [Prod.mk.injEq] at hc' <;> obtain ⟨rfl, rfl⟩ := hc' <;> simp
      · rw [if_neg h3]
        have h3' : ¬ key "vehicle" <+: r.participant := fun h => h3 ((startswith_iff _ _).mpr h)
        simp [h1, h2, h3']

/-- **C19.** The speed limit is the one of a regulatory element if there is one; else, if a speed_limit tag is set, the
one of the tag speed_limit:participant, else of the tag speed_limit, else 0, mandatory unless a tag says otherwise; else
the one of the table. -/
theorem speedLimit_spec (asBool : Str → Option Bool) (asVel : Str → Option V) (r : Rules V) (regs : List Nat) (a : Attrs)
    (hs : Sorted a) :
    (∀ l, r.regLimit regs = some l → speedLimit asBool asVel r regs a = l) ∧
    (r.regLimit regs = none → SetFor a (key "speed_limit") →
      Decides asVel a (key "speed_limit:") (key "speed_limit:" ++ r.participant)
        (((find a (key "speed_limit")).bind asVel).getD r.zero) (speedLimit asBool asVel r regs a).speed ∧
      Decides asBool a (key "speed_limit_mandatory") (key "speed_limit_mandatory:" ++ r.participant) true
        (speedLimit asBool asVel r regs a).mandatory) ∧
    (r.regLimit regs = none → ¬ SetFor a (key "speed_limit") →
      (InTable r a → TypeLimit r a (speedLimit asBool asVel r regs a)) ∧
      (¬ InTable r a → speedLimit asBool asVel r regs a = ⟨r.zero, true⟩)) := by
  refine ⟨?_, ?_, ?_⟩
  · intro l h; simp [speedLimit, h]
  · intro h hset
    have ho := (hasOverride_iff _ _).mpr hset
    have e : speedLimit asBool asVel r regs a =
      ⟨getOverride asVel a (key "speed_limit" ++ key ":") (key "speed_limit" ++ key ":" ++ r.participant)
          (((find a (key "speed_limit")).bind asVel).getD r.zero),
       getOverride asBool a (key "speed_limit_mandatory") (key "speed_limit_mandatory" ++ key ":" ++ r.participant) true⟩ := by
      simp [speedLimit, h, ho]
    rw [e]
    have k1 : key "speed_limit" ++ key ":" = key "speed_limit:" := by decide
    have k2 : key "speed_limit_mandatory" ++ key ":" = key "speed_limit_mandatory:" := by decide
    rw [k1, k2]
    exact ⟨getOverride_decides _ _ hs _ _ _, getOverride_decides _ _ hs _ _ _⟩
  · intro h hset
    have n1 : hasOverride a (key "speed_limit") = false := by
      cases hh : hasOverride a (key "speed_limit") with
      | false => rfl
      | true => exact absurd ((hasOverride_iff _ _).mp hh) hset
    have n2 : hasOverride a (key "speed_limit_mandatory") = false := by
      cases hh : hasOverride a (key "speed_limit_mandatory") with
      | false => rfl
      | true =>
        obtain ⟨k, v, hm, hp⟩ := (hasOverride_iff _ _).mp hh
        have hpre : key "speed_limit" <+: key "speed_limit_mandatory" := ⟨key "_mandatory", by decide⟩
        exact absurd ⟨k, v, hm, hpre.trans hp⟩ hset
    have e : speedLimit asBool asVel r regs a = limitFromType r a := by simp [speedLimit, h, n1, n2]
    rw [e]
    exact limitFromType_spec r a

/-- Bus lanes have the limit 0, the documentation says city limit. -/
theorem busLane_limit_counterexample (r : Rules V) (h : key "vehicle" <+: r.participant) :
    limitFromType r [(key "location", key "urban"), (key "subtype", key "bus_lane")] = ⟨r.zero, true⟩ := by
  refine (limitFromType_spec r _).2 ?_
  have n1 : r.participant ≠ key "pedestrian" := by intro e; rw [e] at h; revert h; decide
  have n2 : r.participant ≠ key "bicycle" := by intro e; rw [e] at h; revert h; decide
  unfold InTable
  simp only [n1, n2, h, false_or, true_and]
  decide

/-- German rules for vehicles: the first speed limit element counts; a sign that is not understood is an error. -/
theorem germanRegLimit_spec (kind : Nat → Option Str) (sign : Str → Except Unit V) (regs : List Nat) :
    germanRegLimit kind sign regs =
      match regs.filterMap kind with
      | [] => .ok none
      | t :: _ => (sign t).map fun v => some ⟨v, true⟩ := by
  induction regs with
  | nil => rfl
  | cons x regs ih =>
    unfold germanRegLimit
    cases hk : kind x with
    | none => simp [hk, ih]
    | some t =>
      simp only [List.filterMap_cons, hk]
      cases sign t <;> rfl

theorem hasDynamicRules_iff (e : Env P V) (regAttr : Nat → Attrs) (h : LH) :
    hasDynamicRules e regAttr h = true ↔
      ∃ x ∈ (e.w.lls h.data).regs, tagYes e.asBool (regAttr x) "dynamic" := by
  unfold hasDynamicRules tagYes
  rw [List.any_eq_true]

/-! ### C20: the factory -/

/-- a history of registrations -/
def registerAll {G : Type} (l : List ((Str × Str) × G)) : Registry G :=
  l.foldl (fun reg e => register reg e.1.1 e.1.2 e.2) []

/-- the generator registered last for these names -/
def lastRegistered {G : Type} (l : List ((Str × Str) × G)) (k : Str × Str) : Option G :=
  (l.reverse.find? fun e => decide (e.1 = k)).map (·.2)

theorem lookup_register {G : Type} (reg : Registry G) (loc p : Str) (g : G) (k : Str × Str) :
    lookup (register reg loc p g) k = if k = (loc, p) then some g else lookup reg k := by
  unfold register
  by_cases hany : reg.any (fun e => e.1 == (loc, p)) = true
  · rw [if_pos hany]
    unfold lookup
    induction reg with
    | nil => simp at hany
    | cons x reg ih =>
      by_cases hx : x.1 = (loc, p)
      · by_cases hk : k = (loc, p)
        · simp [hx, hk]
        · have : ∀ (l : Registry G), ((l.map fun e => if e.1 == (loc, p) then (e.1, g) else e).find? fun e => e.1 == k).map (·.2) =
              (l.find? fun e => e.1 == k).map (·.2) := by
            intro l
            induction l with
            | nil => rfl
            | cons y l ihl =>
              by_cases hy : y.1 = (loc, p)
              · have hyk : ¬ ((loc, p) = k) := fun h => hk h.symm
                simpa [hy, List.find?_cons, hyk] using ihl
              · by_cases hyk : y.1 = k
                · simp [hy, hyk, hk]
                · simpa [hy, hyk, List.find?_cons] using ihl
          rw [if_neg hk]
          exact this (x :: reg)
      · have hany' : reg.any (fun e => e.1 == (loc, p)) = true := by simpa [hx] using hany
        have ih := ih hany'
        by_cases hxk : x.1 = k
        · have : ¬ k = (loc, p) := fun h => hx (hxk.trans h)
          simp [hxk, this]
        · simpa [hx, hxk, List.find?_cons] using ih
  · rw [if_neg hany]
    unfold lookup
    rw [List.find?_append]
    by_cases hk : k = (loc, p)
    · rw [if_pos hk]
      have hnone : reg.find? (fun e => e.1 == k) = none := by
        rw [List.find?_eq_none]
        intro e he hc
        exact hany (List.any_eq_true.mpr ⟨e, he, by rw [← hk]; exact hc⟩)
      rw [hnone]
      simp [hk]
    · rw [if_neg hk]
      have : ¬ ((loc, p) = k) := fun h => hk h.symm
      cases h : reg.find? (fun e => e.1 == k) with
      | none => simp [List.find?_cons, this]
      | some x => simp

theorem lookup_registerAll {G : Type} (l : List ((Str × Str) × G)) (k : Str × Str) :
    lookup (registerAll l) k = lastRegistered l k := by
  suffices ∀ (l : List ((Str × Str) × G)) (reg : Registry G),
      lookup (l.foldl (fun reg e => register reg e.1.1 e.1.2 e.2) reg) k = (lastRegistered l k).or (lookup reg k) by
    have h := this l []
    have e : lookup ([] : Registry G) k = none := rfl
    rw [e, Option.or_none] at h
    exact h
  intro l
  induction l with
  | nil => intro reg; rfl
  | cons x l ih =>
    intro reg
    rw [List.foldl_cons, ih, lookup_register]
    unfold lastRegistered
    rw [List.reverse_cons, List.find?_append]
    cases h : l.reverse.find? fun e => decide (e.1 = k) with
    | some y => simp
    | none =>
      by_cases hk : k = x.1
      · simp [hk, List.find?_cons]
      · have hk' : ¬ x.1 = k := fun h => hk h.symm
        simp [hk, hk', List.find?_cons]

/-- **C20.** After any registrations: `create` uses the generator registered last for exactly these names; if there is
none and the participant is a vehicle, the one registered last for `vehicle`; otherwise it is an error. The generator gets
the given configuration with location and participant replaced by the requested ones. -/
theorem create_spec {G : Type} (l : List ((Str × Str) × G)) (loc p : Str) (config : Str → Option Str) :
    (∀ g, lastRegistered l (loc, p) = some g → ∃ c, create (registerAll l) loc p config = .ok (g, c) ∧
      c (key "participant") = some p ∧ c (key "location") = some loc ∧
      ∀ k, k ≠ key "participant" → k ≠ key "location" → c k = config k) ∧
    (lastRegistered l (loc, p) = none → key "vehicle" <+: p → ∀ g, lastRegistered l (loc, key "vehicle") = some g →
      ∃ c, create (registerAll l) loc p config = .ok (g, c) ∧ c (key "participant") = some p ∧
        c (key "location") = some loc ∧ ∀ k, k ≠ key "participant" → k ≠ key "location" → c k = config k) ∧
    (create (registerAll l) loc p config = .error () ↔
      lastRegistered l (loc, p) = none ∧ (key "vehicle" <+: p → lastRegistered l (loc, key "vehicle") = none)) := by
  have hlp : key "location" ≠ key "participant" := by decide
  unfold create
  rw [lookup_registerAll, lookup_registerAll]
  cases h : lastRegistered l (loc, p) with
  | some g =>
    refine ⟨?_, ?_, ?_⟩
    · rintro g' h'
      obtain rfl : g = g' := by simpa using h'
      refine ⟨_, rfl, by simp, by simp [hlp], ?_⟩
      intro k h1 h2; simp [h1, h2]
    · intro h'; cases h'
    · simp
  | none =>
    refine ⟨fun g (h' : none = some g) => (by cases h'), ?_, ?_⟩
    · intro _ hv g hg
      have hv' := (startswith_iff _ _).mpr hv
      simp only [Option.isNone_none, hv', Bool.and_self, if_true, hg]
      refine ⟨_, rfl, by simp, by simp [hlp], ?_⟩
      intro k h1 h2; simp [h1, h2]
    · by_cases hv : startswith p (key "vehicle") = true
      · have hv' := (startswith_iff _ _).mp hv
        simp only [Option.isNone_none, hv, Bool.and_self, if_true]
        cases lastRegistered l (loc, key "vehicle") <;> simp [hv']
      · have hv' : ¬ key "vehicle" <+: p := fun h => hv ((startswith_iff _ _).mpr h)
        simp [hv, hv']

/-- availableTrafficRules lists exactly the names registered, each once. -/
theorem available_spec {G : Type} (l : List ((Str × Str) × G)) :
    (available (registerAll l)).Nodup ∧ ∀ k, k ∈ available (registerAll l) ↔ ∃ g, (k, g) ∈ l := by
  suffices ∀ (l : List ((Str × Str) × G)) (reg : Registry G), (available reg).Nodup →
      (available (l.foldl (fun reg e => register reg e.1.1 e.1.2 e.2) reg)).Nodup ∧
      ∀ k, k ∈ available (l.foldl (fun reg e => register reg e.1.1 e.1.2 e.2) reg) ↔
        k ∈ available reg ∨ ∃ g, (k, g) ∈ l by
    have h := this l [] List.nodup_nil
    refine ⟨h.1, fun k => (h.2 k).trans ?_⟩
    simp [available]
  intro l
  induction l with
  | nil => intro reg h; exact ⟨h, by simp⟩
  | cons x l ih =>
    intro reg hn
    obtain ⟨k0, g0⟩ := x
    have hkeys : (available (register reg k0.1 k0.2 g0)).Nodup ∧
        ∀ k, k ∈ available (register reg k0.1 k0.2 g0) ↔ k ∈ available reg ∨ k = k0 := by
      unfold register
      by_cases hany : reg.any (fun e => e.1 == (k0.1, k0.2)) = true
      · rw [if_pos hany]
        have : available (reg.map fun e => if e.1 == (k0.1, k0.2) then (e.1, g0) else e) = available reg := by
          unfold available
          rw [List.map_map]
          apply List.map_congr_left
          intro e _
          simp only [Function.comp]
          split <;> rfl
        rw [this]
        refine ⟨hn, fun k => ⟨.inl, ?_⟩⟩
        rintro (h | rfl)
        · exact h
        · obtain ⟨e, he, hc⟩ := List.any_eq_true.mp hany
          exact List.mem_map.mpr ⟨e, he, by simpa using hc⟩
      · rw [if_neg hany]
        have hk : k0 ∉ available reg := by
          intro h
          obtain ⟨e, he, hc⟩ := List.mem_map.mp h
          exact hany (List.any_eq_true.mpr ⟨e, he, by simp [hc]⟩)
        have e : available (reg ++ [((k0.1, k0.2), g0)]) = available reg ++ [k0] := by simp [available]
        rw [e]
        refine ⟨?_, by simp⟩
        rw [List.nodup_append]
        refine ⟨hn, by simp, ?_⟩
        intro a ha b hb hab
        obtain rfl : b = k0 := by simpa using hb
        exact hk (hab ▸ ha)
    obtain ⟨h1, h2⟩ := ih _ hkeys.1
    refine ⟨h1, fun k => ?_⟩
    rw [List.foldl_cons, h2, hkeys.2]
    constructor
    · rintro ((h | rfl) | ⟨g, h⟩)
      · exact .inl h
      · exact .inr ⟨g0, by simp⟩
      · exact .inr ⟨g, by simp [h]⟩
    · rintro (h | ⟨g, h⟩)
      · exact .inl (.inl h)
      · rcases List.mem_cons.mp h with h | h
        · exact .inl (.inr (congrArg Prod.fst h))
        · exact .inr ⟨g, h⟩

-- C20: the second registration replaces the first; trucks get the rules for vehicles, bicycles none
example : (create (registerAll [((key "de", key "vehicle"), 1), ((key "de", key "vehicle"), 2)]) (key "de")
      (key "vehicle:truck") fun _ => none).toOption.map (·.1) = some 2 ∧
    (create (registerAll [((key "de", key "vehicle"), 1)]) (key "de") (key "bicycle") fun _ => none).toOption.isNone := by
  decide

end Verif.Rules
