import Verif.Plan.Props
import Verif.Rules.Props
import Verif.Cost.Props

/-!
C65 for the traffic rules and cost modules that come with the library: shortest paths and reachable lanelets in terms of the attributes and bounds of
lanelets and of their lengths or travel times.
-/
set_option linter.unusedSectionVars false
namespace Verif.Plan
open Verif.Graph (RGraph pathView TestsOk)
open Verif.Search (Cost PickMin)
open Verif.Lanelet (LH World points leftBound rightBound follows leftOf rightOf invertL follows_spec leftOf_spec)
open Verif.Build
open Verif.Cost (Dbl Module dblTests distanceModule timeModule)
open Verif.Rules (Env canPass canPassArea canPassLL canPassLA canPassAL canPassAA canChangeLane canPass_iff canChangeLane_iff canPassLL_iff
  OneWayFor Allowed MayCross TagsComplete Sorted)

variable {P V F : Type} [DecidableEq P] [Field F] [LinearOrder F] [IsStrictOrderedRing F]

/-! ### model -/

/-- the rules object as the graph builder sees it, GenericTrafficRules.cpp 133-260. Asking about an area with an empty outer bound is undefined
behaviour there (see `Verif.Rules`); here it is read as `false`, the theorems below are about lanelets. -/
def rulesOf (e : Env P V) (r : Rules.Rules V) : Build.Rules where
  passL := canPass e r
  passA := canPassArea e r
  passLL := canPassLL e r
  passLA a b := (canPassLA e r a b).getD false
  passAL a b := (canPassAL e r a b).getD false
  passAA := canPassAA e r
  change := canChangeLane e r

/-- `a <= b` of doubles that are not negative, as used by the search (ShortestPath.h 45-56, 125: `std::less<double>`). For values that cannot occur
(NaN, negative infinity; Graph.h 190-195) the order is chosen to be total. -/
def dblLe : Dbl F → Dbl F → Prop
  | .fin x, .fin y => x ≤ y
  | .fin _, _ => True
  | .pinf, .fin _ => False
  | .pinf, _ => True
  | _, .fin _ => False
  | _, .pinf => False
  | _, _ => True

/-- doubles as costs of the search; ShortestPath.h 35-56 -/
instance dblCost : Cost (Dbl F) where
  zero := .fin 0
  add := Dbl.add
  le := dblLe
  decLe a b := by cases a <;> cases b <;> unfold dblLe <;> infer_instance
  le_refl a := by cases a <;> simp [dblLe]
  le_trans {a b c} h1 h2 := by
    cases a <;> cases b <;> cases c <;> simp_all [dblLe]
    exact h1.trans h2
  le_total a b := by
    cases a <;> cases b <;> simp [dblLe]
    exact le_total _ _
  add_mono {a b} w h := by cases a <;> cases b <;> cases w <;> simp_all [dblLe, Dbl.add]
  le_add a w h := by cases a <;> cases w <;> simp_all [dblLe, Dbl.add]

theorem dblTests_ok : TestsOk (dblTests : Graph.CostTests (Dbl F)) := by
  intro c h1 h2
  cases c with
  | fin x =>
    show (0 : F) ≤ x
    simpa [dblTests, Dbl.negative] using h2
  | _ => simp [dblTests, Dbl.isFinite] at h1

/-! ### specification -/

/-- Specification: the participant may drive on the lanelet in this direction: it is part of the map, meant for the participant, and not one-way in the
other direction. -/
def MayDrive (e : Env P V) (r : Rules.Rules V) (lanelets : List LH) (ll : LH) : Prop :=
  ⟨ll.data, false⟩ ∈ lanelets ∧ (ll.inv = false ∨ ¬ OneWayFor e ll.data r.participant) ∧
    Allowed e.asBool r (e.w.lls ll.data).regs (e.llAttr ll.data)

/-- Specification: both bounds of `b` begin where those of `a` end. -/
def Joins (w : World P) (a b : LH) : Prop :=
  ∃ l r, (points w (leftBound w a)).getLast? = some l ∧ (points w (leftBound w b)).head? = some l ∧
    (points w (rightBound w a)).getLast? = some r ∧ (points w (rightBound w b)).head? = some r

/-- Specification: `a` and `b` share a bound that may be crossed from the side of `a`. -/
def MayChange (e : Env P V) (r : Rules.Rules V) (a b : LH) : Prop :=
  (rightBound e.w a = leftBound e.w b ∧
      MayCross e.asBool (e.lsAttr (rightBound e.w a).data) r.participant (!(rightBound e.w a).inv)) ∨
  (rightBound e.w a ≠ leftBound e.w b ∧ leftBound e.w a = rightBound e.w b ∧
      MayCross e.asBool (e.lsAttr (leftBound e.w a).data) r.participant (leftBound e.w a).inv)

/-- Specification: a legal trip over these lanelets. `value` is the length of a lanelet or the time to drive along it. A trip leads from the middle of
the first lanelet to the middle of the last; lane changes (only if `lc`) take `κ`. -/
inductive Trip (e : Env P V) (r : Rules.Rules V) (lanelets : List LH) (value : LH → F) (lc : Bool) (κ : F) : List LH → F → Prop
  | start (a : LH) : MayDrive e r lanelets a → Trip e r lanelets value lc κ [a] 0
  | ahead {ds : List LH} {c : F} {a : LH} (b : LH) : Trip e r lanelets value lc κ ds c → ds.getLast? = some a → MayDrive e r lanelets b →
      Joins e.w a b → Trip e r lanelets value lc κ (ds ++ [b]) (c + (value a + value b) / 2)
  | change {ds : List LH} {c : F} {a : LH} (b : LH) : lc = true → Trip e r lanelets value lc κ ds c → ds.getLast? = some a →
      MayDrive e r lanelets b → a ≠ b → MayChange e r a b → Trip e r lanelets value lc κ (ds ++ [b]) (c + κ)

/-! ### proofs -/

/-- The map, the rules and the cost module `k` fit together: the builder was given these rules and this map, attributes are sorted as in a map, tags for
lane changes are given for both directions, and the module gives finite costs as described. Specification. -/
structure Setup (i : Input P (Dbl F)) (e : Env P V) (r : Rules.Rules V) (k : Nat) (m : CostModule (Dbl F)) (value : LH → F) : Prop where
  input : InputOk i
  costs : CostsOk i
  world : i.w = e.w
  rules : i.rules = rulesOf e r
  tests : i.tests = dblTests
  sorted : ∀ d, Sorted (e.llAttr d)
  tags : ∀ d, TagsComplete (e.lsAttr d)
  module : i.costs[k]? = some m
  succ : ∀ a b : LH, m.succ (.inl a) (.inl b) = .fin ((value a + value b) / 2)

section
variable {i : Input P (Dbl F)} {e : Env P V} {r : Rules.Rules V} {k : Nat} {m : CostModule (Dbl F)} {value : LH → F} (S : Setup i e r k m value)
include S

theorem mayDrive_iff (ll : LH) : InGraph i ll ↔ MayDrive e r i.lanelets ll := by
  unfold InGraph MayDrive
  rw [S.rules]
  show _ ∧ canPass e r ⟨ll.data, false⟩ = true ∧ (ll.inv = true → canPass e r ll = true) ↔ _
  rw [canPass_iff e r _ (S.sorted _), canPass_iff e r _ (S.sorted _)]
  obtain ⟨d, v⟩ := ll
  cases v <;> simp

theorem passes_of (ll : LH) (h : InGraph i ll) : canPass e r ll = true :=
  (canPass_iff e r ll (S.sorted _)).mpr ((mayDrive_iff S ll).mp h).2

theorem move_iff (a b : Prim) (c : Dbl F) : Move i m false a b c ↔
    ∃ la lb, a = .inl la ∧ b = .inl lb ∧ MayDrive e r i.lanelets la ∧ MayDrive e r i.lanelets lb ∧ Joins e.w la lb ∧
      c = .fin ((value la + value lb) / 2) := by
  constructor
  · intro h
    cases h with
    | ahead la lb h1 h2 h3 h4 h5 =>
      refine ⟨la, lb, rfl, rfl, (mayDrive_iff S _).mp h1, (mayDrive_iff S _).mp h2, ?_, S.succ _ _⟩
      rw [S.world] at h3
      exact (follows_spec e.w la lb).1.mp h3
    | area _ _ h => cases h
  · rintro ⟨la, lb, rfl, rfl, h1, h2, h3, rfl⟩
    have h1' := (mayDrive_iff S _).mpr h1
    have h2' := (mayDrive_iff S _).mpr h2
    have hf := (follows_spec e.w la lb).1.mpr h3
    have := Move.ahead (m := m) (areas := false) la lb h1' h2' (by rw [S.world]; exact hf)
      (by rw [S.rules]; exact (canPassLL_iff e r la lb).mpr ⟨hf, passes_of S _ h1', passes_of S _ h2'⟩)
      (by rw [S.succ, S.tests]; rfl)
    rw [S.succ] at this
    exact this

theorem laneChange_iff (a b : LH) : LaneChange i a b ↔
    MayDrive e r i.lanelets a ∧ MayDrive e r i.lanelets b ∧ a ≠ b ∧ MayChange e r a b := by
  have hc := canChangeLane_iff e r a b (S.tags _) (S.tags _)
  constructor
  · rintro ⟨h1, h2, h3, -, h5⟩
    rw [S.rules] at h5
    exact ⟨(mayDrive_iff S _).mp h1, (mayDrive_iff S _).mp h2, h3, (hc.mp h5).2.2⟩
  · rintro ⟨h1, h2, h3, h4⟩
    have h1' := (mayDrive_iff S _).mpr h1
    have h2' := (mayDrive_iff S _).mpr h2
    refine ⟨h1', h2', h3, ?_, by rw [S.rules]; exact hc.mpr ⟨passes_of S _ h1', passes_of S _ h2', h4⟩⟩
    rw [Beside, Beside, S.world]
    rcases h4 with ⟨h, -⟩ | ⟨-, h, -⟩
    · right
      show leftOf e.w a b = true
      exact (leftOf_spec e.w a b).1.mpr h
    · left
      show leftOf e.w b a = true
      exact (leftOf_spec e.w b a).1.mpr h.symm

/-- the steps of trips -/
def tripStep (e : Env P V) (r : Rules.Rules V) (lanelets : List LH) (value : LH → F) (lc : Bool) (κ : F) (a b : Prim) (c : Dbl F) : Prop :=
  ∃ la lb, a = .inl la ∧ b = .inl lb ∧ MayDrive e r lanelets la ∧ MayDrive e r lanelets lb ∧
    ((Joins e.w la lb ∧ c = .fin ((value la + value lb) / 2)) ∨ (lc = true ∧ la ≠ lb ∧ MayChange e r la lb ∧ c = .fin κ))

theorem path_trip (lc : Bool) (κ : F) {a : LH} (ha : MayDrive e r i.lanelets a) {ps : List Prim} {c : Dbl F}
    (h : Path (tripStep e r i.lanelets value lc κ) Cost.zero Cost.add ps c) (hh : ps.head? = some (.inl a)) :
    ∃ ds x, ps = ds.map .inl ∧ c = .fin x ∧ Trip e r i.lanelets value lc κ ds x := by
  induction h with
  | single p =>
    simp only [List.head?_cons, Option.some.injEq] at hh
    subst hh
    exact ⟨[a], 0, rfl, rfl, .start a ha⟩
  | snoc hp hl hs ih =>
    rename_i ps c w p q
    obtain ⟨ds, x, rfl, rfl, h1⟩ := ih (by
      cases ps with
      | nil => simp at hl
      | cons y ps => simpa using hh)
    obtain ⟨la, lb, rfl, rfl, -, h3, h4⟩ := hs
    have hl' : ds.getLast? = some la := by
      rw [List.getLast?_map] at hl
      cases hd : ds.getLast? with
      | none => rw [hd] at hl; simp at hl
      | some y => rw [hd] at hl; simpa using hl
    rcases h4 with ⟨h4, rfl⟩ | ⟨h4, h5, h6, rfl⟩
    · exact ⟨ds ++ [lb], _, by simp, rfl, .ahead lb h1 hl' h3 h4⟩
    · exact ⟨ds ++ [lb], _, by simp, rfl, .change lb h4 h1 hl' h3 h5 h6⟩

theorem trip_mayDrive {lc : Bool} {κ : F} {ds : List LH} {x : F} (h : Trip e r i.lanelets value lc κ ds x) :
    ∀ d ∈ ds, MayDrive e r i.lanelets d := by
  induction h with
  | start a ha => simpa using ha
  | ahead b _ _ hb _ ih => intro d hd; rcases List.mem_append.mp hd with h | h
                           · exact ih d h
                           · simp only [List.mem_singleton] at h; subst h; exact hb
  | change b _ _ _ hb _ _ ih => intro d hd; rcases List.mem_append.mp hd with h | h
                                · exact ih d h
                                · simp only [List.mem_singleton] at h; subst h; exact hb

theorem trip_path {lc : Bool} {κ : F} {ds : List LH} {x : F} (h : Trip e r i.lanelets value lc κ ds x) :
    Path (tripStep e r i.lanelets value lc κ) Cost.zero Cost.add (ds.map .inl) (.fin x) := by
  induction h with
  | start a ha => exact .single _
  | ahead b ht hl hb hj ih =>
    rename_i ds c a
    have := Path.snoc ih (q := .inl b) (w := .fin ((value a + value b) / 2)) (p := .inl a) (by rw [List.getLast?_map, hl]; rfl)
      ⟨a, b, rfl, rfl, trip_mayDrive S ht a (List.mem_of_getLast? hl), hb, .inl ⟨hj, rfl⟩⟩
    rw [List.map_append]
    exact this
  | change b hlc ht hl hb hne hj ih =>
    rename_i ds c a
    have := Path.snoc ih (q := .inl b) (w := .fin κ) (p := .inl a) (by rw [List.getLast?_map, hl]; rfl)
      ⟨a, b, rfl, rfl, trip_mayDrive S ht a (List.mem_of_getLast? hl), hb, .inr ⟨hlc, hne, hj, rfl⟩⟩
    rw [List.map_append]
    exact this

/-- what is needed for exact results with lane changes: clear neighbours and a fixed cost -/
def ChangesOk (i : Input P (Dbl F)) (m : CostModule (Dbl F)) (lc : Bool) (κ : F) : Prop :=
  lc = true → Clear i ∧ ∀ x y, m.change x y = .fin κ

theorem steps_eq (lc : Bool) (κ : F) (a b : Prim) (c : Dbl F) :
    (if lc then MoveOrChangeFor i m false (.fin κ) a b c else Move i m false a b c) ↔ tripStep e r i.lanelets value lc κ a b c := by
  have h1 := move_iff S a b c
  unfold tripStep
  cases lc with
  | false =>
    simp only [Bool.false_eq_true, if_false, h1, false_and, or_false]
  | true =>
    simp only [if_true, MoveOrChangeFor, h1, true_and]
    constructor
    · rintro (⟨la, lb, h1, h2, h3, h4, h5, h6⟩ | ⟨la, lb, h1, h2, h3, h4⟩)
      · exact ⟨la, lb, h1, h2, h3, h4, .inl ⟨h5, h6⟩⟩
      · obtain ⟨q1, q2, q3, q4⟩ := (laneChange_iff S la lb).mp h3
        exact ⟨la, lb, h1, h2, q1, q2, .inr ⟨q3, q4, h4⟩⟩
    · rintro ⟨la, lb, h1, h2, h3, h4, ⟨h5, h6⟩ | ⟨h5, h6, h7⟩⟩
      · exact .inl ⟨la, lb, h1, h2, h3, h4, h5, h6⟩
      · exact .inr ⟨la, lb, h1, h2, (laneChange_iff S la lb).mpr ⟨h3, h4, h5, h6⟩, h7⟩

theorem edges_steps (g : RGraph Prim (Dbl F)) (hg : build i = some g) (lc : Bool) (κ : F) (hch : ChangesOk i m lc κ) (a b : Prim) (c : Dbl F) :
    (∃ rel ∈ Graph.pathRelations lc false, Graph.HasEdge g a b k rel c) ↔ tripStep e r i.lanelets value lc κ a b c := by
  rw [← steps_eq S]
  cases lc with
  | false => exact edge_move i S.input S.costs g hg k m S.module false (fun h => by cases h) a b c
  | true =>
    obtain ⟨h1, h2⟩ := hch rfl
    exact edge_change i S.input S.costs g hg k m S.module false (fun h => by cases h) h1 _ h2 (by rw [S.tests]; rfl) a b c

/-- **C65.** `shortestPath` between lanelets on which the participant may drive: the shortest legal trip, nothing if there is none. -/
theorem shortestPath_trip (g : RGraph Prim (Dbl F)) (hg : build i = some g) {pick : Nat → (Nat → Dbl F) → List Nat → Nat} (hpick : PickMin pick)
    (lc : Bool) (κ : F) (hch : ChangesOk i m lc κ) (a b : LH) (ha : MayDrive e r i.lanelets a) (hb : MayDrive e r i.lanelets b) :
    (g.shortestPath pick (.inl a) (.inl b) k lc false = .ok (some none) ∧
      ∀ ds x, Trip e r i.lanelets value lc κ ds x → ds.head? = some a → ds.getLast? ≠ some b) ∨
    (∃ ds x, g.shortestPath pick (.inl a) (.inl b) k lc false = .ok (some (some (ds.map .inl))) ∧
      Trip e r i.lanelets value lc κ ds x ∧ ds.head? = some a ∧ ds.getLast? = some b ∧
      ∀ ds' x', Trip e r i.lanelets value lc κ ds' x' → ds'.head? = some a → ds'.getLast? = some b → x ≤ x') := by
  have hmap : ∀ (ds : List LH) (d : LH), ((ds.map (Sum.inl : LH → Prim)).head? = some (.inl d) ↔ ds.head? = some d) ∧
      ((ds.map (Sum.inl : LH → Prim)).getLast? = some (.inl d) ↔ ds.getLast? = some d) := by
    intro ds d
    rw [List.head?_map, List.getLast?_map]
    constructor <;> simp
  rcases shortest_of_edges i S.input S.costs (by rw [S.tests]; exact dblTests_ok) g hg hpick k m S.module false (fun h => by cases h) lc _
    (edges_steps S g hg lc κ hch) (.inl a) (.inl b) ((mayDrive_iff S a).mpr ha) ((mayDrive_iff S b).mpr hb)
    with ⟨h1, h2⟩ | ⟨ps, c, h1, h2, h3, h4, h5⟩
  · refine .inl ⟨h1, fun ds x ht hh hl => h2 _ _ (trip_path S ht) ((hmap ds a).1.mpr hh) ((hmap ds b).2.mpr hl)⟩
  · obtain ⟨ds, x, rfl, rfl, ht⟩ := path_trip S lc κ ha h2 h3
    refine .inr ⟨ds, x, h1, ht, (hmap ds a).1.mp h3, (hmap ds b).2.mp h4, fun ds' x' ht' hh hl => ?_⟩
    exact h5 _ _ (trip_path S ht') ((hmap ds' a).1.mpr hh) ((hmap ds' b).2.mpr hl)

/-- **C65.** `reachableSet`: exactly the lanelets with a legal trip that is not longer than the limit. -/
theorem reachableSet_trip (g : RGraph Prim (Dbl F)) (hg : build i = some g) {pick : Nat → (Nat → Dbl F) → List Nat → Nat} (hpick : PickMin pick)
    (lc : Bool) (κ : F) (hch : ChangesOk i m lc κ) (a : LH) (ha : MayDrive e r i.lanelets a) (limit : F) :
    ∃ ls : List LH, g.reachableSet pick false (.inl a) (.fin limit) k (pathView lc false) = .ok (some (ls.map .inl)) ∧ ls.Nodup ∧
      ∀ b, b ∈ ls ↔ ∃ ds x, Trip e r i.lanelets value lc κ ds x ∧ ds.head? = some a ∧ ds.getLast? = some b ∧ x ≤ limit := by
  obtain ⟨⟨res, r1, r2, r3⟩, -⟩ := reachable_of_edges i S.input S.costs (by rw [S.tests]; exact dblTests_ok) g hg hpick k m S.module false
    (fun h => by cases h) lc _ (edges_steps S g hg lc κ hch) (.inl a) ((mayDrive_iff S a).mpr ha) (.fin limit)
  have hres : ∃ ls : List LH, res = ls.map .inl := by
    have : ∀ q ∈ res, ∃ l : LH, q = .inl l := by
      intro q hq
      obtain ⟨ps, c, p1, p2, p3, -⟩ := (r3 q).mp hq
      obtain ⟨ds, x, rfl, -, -⟩ := path_trip S lc κ ha p1 p2
      rw [List.getLast?_map] at p3
      cases hd : ds.getLast? with
      | none => rw [hd] at p3; simp at p3
      | some y => rw [hd] at p3; exact ⟨y, by simpa using p3.symm⟩
    clear r1 r2 r3
    induction res with
    | nil => exact ⟨[], rfl⟩
    | cons q res ih =>
      obtain ⟨ls, rfl⟩ := ih (fun q hq => this q (by simp [hq]))
      obtain ⟨l, rfl⟩ := this q (by simp)
      exact ⟨l :: ls, rfl⟩
  obtain ⟨ls, rfl⟩ := hres
  refine ⟨ls, r1, (List.pairwise_map.mp r2).imp (fun h e => h (by rw [e])), fun b => ?_⟩
  have hm : b ∈ ls ↔ (.inl b : Prim) ∈ ls.map (Sum.inl : LH → Prim) := by simp
  rw [hm, r3]
  constructor
  · rintro ⟨ps, c, p1, p2, p3, p4⟩
    obtain ⟨ds, x, rfl, rfl, ht⟩ := path_trip S lc κ ha p1 p2
    rw [List.head?_map] at p2
    rw [List.getLast?_map] at p3
    exact ⟨ds, x, ht, by simpa using p2, by simpa using p3, p4⟩
  · rintro ⟨ds, x, ht, p2, p3, p4⟩
    exact ⟨_, _, trip_path S ht, by rw [List.head?_map, p2]; rfl, by rw [List.getLast?_map, p3]; rfl, p4⟩

end

/-- The distance module meets the conditions: the value of a lanelet is its length, and without a minimal length lane changes have a fixed cost. -/
theorem distance_module (md : Module F) (length : Prim → F) :
    (∀ a b : LH, (distanceModule md length).succ (.inl a) (.inl b) = .fin ((length (.inl a) + length (.inl b)) / 2)) ∧
    (md.minChange ≤ 0 → ∀ x y, (distanceModule md length).change x y = .fin md.laneChangeCost) := by
  refine ⟨fun a b => rfl, fun h x y => ?_⟩
  simp [distanceModule, Verif.Cost.distanceChange, h]

/-- The travel time module meets them too if all speed limits are positive: the value is the time to drive along the lanelet. -/
theorem time_module (mt : Module F) (max : F) (length limit : Prim → F) (hl : ∀ p, 0 ≤ length p) (hv : ∀ p, 0 < limit p) :
    (∀ a b : LH, (timeModule mt max length limit).succ (.inl a) (.inl b) =
      .fin ((length (.inl a) / limit (.inl a) + length (.inl b) / limit (.inl b)) / 2)) ∧
    (mt.minChange ≤ 0 → ∀ x y, (timeModule mt max length limit).change x y = .fin mt.laneChangeCost) := by
  constructor
  · intro a b
    obtain ⟨c, h1, -, h2, -⟩ := Verif.Cost.timeSucc_spec max length limit hl (fun p => (hv p).le) (.inl a) (.inl b)
    simp only [timeModule, h1, Option.getD_some]
    exact h2 (hv _).ne' (hv _).ne'
  · intro h x y
    simp [timeModule, Verif.Cost.timeChange, h]

/-! ### example: a truck on two neighbouring lanelets and a third one ahead -/

/-- a queue for any costs. Example. -/
def leastOf {K : Type} [Cost K] (cost : Nat → K) : List Nat → Nat
  | [] => 0
  | [a] => a
  | a :: b :: l => if Cost.le (cost a) (cost (leastOf cost (b :: l))) then a else leastOf cost (b :: l)

theorem leastOf_min {K : Type} [Cost K] : PickMin (fun _ (cost : Nat → K) l => leastOf cost l) := by
  intro i cost q hq
  induction q with
  | nil => exact absurd rfl hq
  | cons a l ih =>
    cases l with
    | nil =>
      refine ⟨by simp [leastOf], fun u hu => ?_⟩
      simp only [List.mem_singleton] at hu
      subst hu
      exact Cost.le_refl _
    | cons b l =>
      obtain ⟨h1, h2⟩ := ih (by simp)
      simp only [leastOf]
      split
      · rename_i h
        refine ⟨by simp, fun u hu => ?_⟩
        rcases List.mem_cons.mp hu with rfl | hu
        · exact Cost.le_refl _
        · exact Cost.le_trans h (h2 u hu)
      · rename_i h
        refine ⟨List.mem_cons_of_mem _ h1, fun u hu => ?_⟩
        rcases List.mem_cons.mp hu with rfl | hu
        · exact (Cost.le_total _ _).resolve_left h
        · exact h2 u hu

/-- Example: lanelet `n` is `10 * (n + 1)` long. -/
def exLength : Prim → Rat
  | .inl l => 10 * (l.data + 1)
  | .inr _ => 1

/-- Example: the map of `Verif.Rules` with lanelet 2 ahead of lanelet 0 and lanelet 1 to its right. -/
def exPlan : Input Nat (Dbl Rat) where
  w := Rules.exWorld
  ptId n := n
  llId n := n
  lanelets := [⟨0, false⟩, ⟨1, false⟩, ⟨2, false⟩]
  areas := []
  rules := rulesOf Rules.exEnv (Rules.exRules "vehicle:truck")
  costs := [distanceModule ⟨7, 0⟩ exLength, timeModule ⟨3, 0⟩ 50 exLength (fun _ => 50)]
  tests := dblTests
  one := .fin 1
  boxLL _ _ := true
  boxAL _ _ := true
  boxAA _ _ := true
  overlapsLL _ _ := false
  overlapsAL _ _ := false
  overlapsAA _ _ := false
  orderRange := List.reverse
  orderSearch := List.reverse
  orderSearchA l := l
  shuffle := List.reverse

theorem exPlan_setup : Setup exPlan Rules.exEnv (Rules.exRules "vehicle:truck") 0 (distanceModule ⟨7, 0⟩ exLength) (fun l => exLength (.inl l)) := by
  have hl : ∀ p, 0 ≤ exLength p := by
    rintro (⟨d, v⟩ | a)
    · show (0 : Rat) ≤ 10 * ((d : Rat) + 1)
      positivity
    · show (0 : Rat) ≤ 1
      norm_num
  refine ⟨⟨by decide, by decide, by decide, by decide, fun l => List.reverse_perm l, fun l => List.reverse_perm l, fun l => List.Perm.refl l,
    fun l => List.reverse_perm l⟩, ?_, rfl, rfl, rfl, ?_, ?_, rfl, (distance_module _ _).1⟩
  · exact Cost.modules_ok exPlan ⟨7, 0⟩ ⟨3, 0⟩ (by norm_num) (by norm_num) 50 exLength (fun _ => 50) hl (fun _ => by norm_num) ⟨rfl, rfl, rfl⟩
  · intro d
    match d with
    | 0 => unfold Sorted; decide
    | 1 => unfold Sorted; decide
    | 2 => unfold Sorted; decide
    | d + 3 => exact List.Pairwise.nil
  · intro d
    match d with
    | 0 => unfold TagsComplete Rules.hasTag; decide
    | 1 => unfold TagsComplete Rules.hasTag; decide
    | d + 2 =>
      show TagsComplete (if d + 2 = 6 then _ else [])
      split
      · unfold TagsComplete Rules.hasTag; decide
      · unfold TagsComplete Rules.hasTag; decide

theorem exPlan_all : allLanelets exPlan = [⟨0, false⟩, ⟨1, false⟩, ⟨2, false⟩, ⟨0, true⟩] := by decide

theorem exPlan_drive (ll : LH) : MayDrive Rules.exEnv (Rules.exRules "vehicle:truck") exPlan.lanelets ll ↔
    ll ∈ [(⟨0, false⟩ : LH), ⟨1, false⟩, ⟨2, false⟩, ⟨0, true⟩] := by
  rw [← mayDrive_iff exPlan_setup, ← exPlan_all, mem_allLanelets exPlan exPlan_setup.input]
  rfl

theorem exPlan_clear : ChangesOk exPlan (distanceModule ⟨7, 0⟩ exLength) true 7 := by
  refine fun _ => ⟨?_, (distance_module _ _).2 (le_refl _)⟩
  intro isLeft a b ha hb
  have ha' := (exPlan_drive a).mp ((mayDrive_iff exPlan_setup a).mp ha)
  have hb' := (exPlan_drive b).mp ((mayDrive_iff exPlan_setup b).mp hb)
  intro h1 h2 h3
  have key : ∀ a ∈ [(⟨0, false⟩ : LH), ⟨1, false⟩, ⟨2, false⟩, ⟨0, true⟩], ∀ b ∈ [(⟨0, false⟩ : LH), ⟨1, false⟩, ⟨2, false⟩, ⟨0, true⟩],
      a ≠ b → ∀ isLeft, (Beside exPlan isLeft a b ∧ exPlan.rules.change a b = true → a = ⟨0, false⟩ ∧ b = ⟨1, false⟩ ∧ isLeft = false) := by decide
  obtain ⟨rfl, rfl, rfl⟩ := key a ha' b hb' h1 isLeft ⟨h2, h3⟩
  refine ⟨⟨by decide, by decide, by decide, by decide, by decide, by decide⟩, fun b' hb'' => ?_⟩
  have hb3 := (exPlan_drive b').mp ((mayDrive_iff exPlan_setup b').mp hb'')
  have key2 : ∀ b' ∈ [(⟨0, false⟩ : LH), ⟨1, false⟩, ⟨2, false⟩, ⟨0, true⟩], b' ≠ ⟨0, false⟩ → Beside exPlan false ⟨0, false⟩ b' → b' = ⟨1, false⟩ := by
    decide
  exact key2 b' hb3

/-- Case: the truck finds the way to lanelet 2 (cost 20 = (10 + 30) / 2), with a lane change the one to lanelet 1. Without lane changes there is no way
to lanelet 1. -/
example : ∃ g, build exPlan = some g ∧
    (∃ ds x, g.shortestPath (fun _ cost l => leastOf cost l) (.inl ⟨0, false⟩) (.inl ⟨2, false⟩) 0 false false = .ok (some (some (ds.map .inl))) ∧
      Trip Rules.exEnv (Rules.exRules "vehicle:truck") exPlan.lanelets (fun l => exLength (.inl l)) false 0 ds x ∧ x ≤ 20) ∧
    (∃ ds x, g.shortestPath (fun _ cost l => leastOf cost l) (.inl ⟨0, false⟩) (.inl ⟨1, false⟩) 0 true false = .ok (some (some (ds.map .inl))) ∧
      Trip Rules.exEnv (Rules.exRules "vehicle:truck") exPlan.lanelets (fun l => exLength (.inl l)) true 7 ds x ∧ x ≤ 7) := by
  obtain ⟨g, hg, -⟩ := build_vertices exPlan exPlan_setup.input exPlan_setup.costs
  have d0 := (exPlan_drive ⟨0, false⟩).mpr (by decide)
  have d1 := (exPlan_drive ⟨1, false⟩).mpr (by decide)
  have d2 := (exPlan_drive ⟨2, false⟩).mpr (by decide)
  refine ⟨g, hg, ?_, ?_⟩
  · rcases shortestPath_trip exPlan_setup g hg leastOf_min false 0 (fun h => by cases h) ⟨0, false⟩ ⟨2, false⟩ d0 d2 with ⟨-, h⟩ | ⟨ds, x, h1, h2, -, -, h5⟩
    · exact absurd rfl (h _ _ (.ahead ⟨2, false⟩ (.start ⟨0, false⟩ d0) rfl d2 ⟨1, 11, rfl, rfl, rfl, rfl⟩) rfl)
    · refine ⟨ds, x, h1, h2, ?_⟩
      have := h5 _ _ (.ahead ⟨2, false⟩ (.start ⟨0, false⟩ d0) rfl d2 ⟨1, 11, rfl, rfl, rfl, rfl⟩) rfl rfl
      norm_num [exLength] at this
      exact this
  · have hm : MayChange Rules.exEnv (Rules.exRules "vehicle:truck") ⟨0, false⟩ ⟨1, false⟩ :=
      ((canChangeLane_iff _ _ _ _ (exPlan_setup.tags _) (exPlan_setup.tags _)).mp (by decide)).2.2
    rcases shortestPath_trip exPlan_setup g hg leastOf_min true 7 exPlan_clear ⟨0, false⟩ ⟨1, false⟩ d0 d1 with ⟨-, h⟩ | ⟨ds, x, h1, h2, -, -, h5⟩
    · exact absurd rfl (h _ _ (.change ⟨1, false⟩ rfl (.start ⟨0, false⟩ d0) rfl d1 (by decide) hm) rfl)
    · refine ⟨ds, x, h1, h2, ?_⟩
      have := h5 _ _ (.change ⟨1, false⟩ rfl (.start ⟨0, false⟩ d0) rfl d1 (by decide) hm) rfl rfl
      simpa using this

/-- Case: within 20 the truck reaches lanelet 2, and lanelet 1 by a lane change. -/
example : ∃ g, ∃ ls : List LH, build exPlan = some g ∧
    g.reachableSet (fun _ cost l => leastOf cost l) false (.inl ⟨0, false⟩) (.fin 20) 0 (pathView true false) = .ok (some (ls.map .inl)) ∧
    (⟨1, false⟩ : LH) ∈ ls ∧ ⟨2, false⟩ ∈ ls := by
  obtain ⟨g, hg, -⟩ := build_vertices exPlan exPlan_setup.input exPlan_setup.costs
  have d0 := (exPlan_drive ⟨0, false⟩).mpr (by decide)
  have d1 := (exPlan_drive ⟨1, false⟩).mpr (by decide)
  have d2 := (exPlan_drive ⟨2, false⟩).mpr (by decide)
  have hm : MayChange Rules.exEnv (Rules.exRules "vehicle:truck") ⟨0, false⟩ ⟨1, false⟩ :=
    ((canChangeLane_iff _ _ _ _ (exPlan_setup.tags _) (exPlan_setup.tags _)).mp (by decide)).2.2
  obtain ⟨ls, h1, -, h3⟩ := reachableSet_trip exPlan_setup g hg leastOf_min true 7 exPlan_clear ⟨0, false⟩ d0 20
  refine ⟨g, ls, hg, h1, (h3 _).mpr ⟨_, _, .change ⟨1, false⟩ rfl (.start ⟨0, false⟩ d0) rfl d1 (by decide) hm, rfl, rfl, by norm_num⟩,
    (h3 _).mpr ⟨_, _, .ahead ⟨2, false⟩ (.start ⟨0, false⟩ d0) rfl d2 ⟨1, 11, rfl, rfl, rfl, rfl⟩, rfl, rfl, by norm_num [exLength]⟩⟩

end Verif.Plan
