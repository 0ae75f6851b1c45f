import Verif.Plan.Queries
import Verif.Route.Via

/-!
C68: routes in terms of the map, for the traffic rules and cost modules of the library: from the attributes and bounds of lanelets to the lanelets of a
route and what is said about them.
-/
set_option linter.unusedSectionVars false
namespace Verif.Plan
open Verif.Graph (RGraph TestsOk HasEdge pathRelations followRelations RelationType joinLegs PPath)
open Verif.Graph.RelationType
open Verif.Search (Cost PickMin)
open Verif.Lanelet (LH World leftBound rightBound follows invertL follows_spec)
open Verif.Build
open Verif.Cost (Dbl distanceModule)
open Verif.Rules (Env canChangeLane_iff)
open Verif.Route (Route IsRoute buildRoute getRoute getRouteVia NoSideCircle)
open Relation (ReflTransGen)

variable {P V F : Type} [DecidableEq P] [Field F] [LinearOrder F] [IsStrictOrderedRing F]

/-! ### specification -/

/-- Specification. Lane changes to the left only, or to the right only, do not lead round in a circle. -/
def NoRing (e : Env P V) (r : Rules.Rules V) (lanelets : List LH) : Prop :=
  ∀ isLeft, ∃ rank : LH → Nat, ∀ a b, MayDrive e r lanelets a → MayDrive e r lanelets b → a ≠ b → Side e.w isLeft a b → MayChange e r a b →
    rank b < rank a

/-- Specification. The lanelets of the route. -/
def On (rt : Route Prim (Dbl F)) (a : LH) : Prop := rt.contains (.inl a) = true

section
variable {i : Input P (Dbl F)} {e : Env P V} {r : Rules.Rules V} {k : Nat} {m : CostModule (Dbl F)} {value : LH → F} (S : Setup i e r k m value)
include S

theorem noSideCircle_of (g : RGraph Prim (Dbl F)) (hg : build i = some g) (h : NoRing e r i.lanelets) : NoSideCircle g k := by
  have hb := build_built i S.input S.costs g hg
  have key : ∀ isLeft : Bool, ∃ rank : Prim → Nat, ∀ p q c, HasEdge g p q k (if isLeft then Left else Right) c → rank q < rank p := by
    intro isLeft
    obtain ⟨rank, hr⟩ := h isLeft
    refine ⟨fun p => match p with | .inl a => rank a | .inr _ => 0, ?_⟩
    intro p q c he
    have hm := (hasEdge_iff_mem hb _ _ _ _ _).mp he
    obtain ⟨la, lb, rfl, rfl, h3, h4, h5, h6, h7, -⟩ := laneChange_sound i S.input S.costs g hg isLeft _ _ _ hm rfl
    have d1 := (mayDrive_iff S _).mp h3
    have d2 := (mayDrive_iff S _).mp h4
    exact hr la lb d1 d2 h5 ((beside_iff S _ _ _).mp h6) ((change_iff S la lb d1 d2).mp h7)
  intro rel hrel
  simp only [List.mem_cons, List.not_mem_nil, or_false] at hrel
  rcases hrel with rfl | rfl
  · exact key true
  · exact key false

theorem contains_members (rt : Route Prim (Dbl F)) (p : Prim) : rt.contains p = true ↔ p ∈ rt.members := by
  unfold Route.contains Route.members
  constructor
  · intro h
    obtain ⟨v, hv⟩ := Option.isSome_iff_exists.mp h
    exact List.mem_of_getElem? (Graph.getVertex_spec hv).2
  · intro h
    obtain ⟨v, hv⟩ := Graph.getVertex_isSome h
    rw [hv]; rfl

/-- **C68.** What is on a route: only lanelets, and only those on which the participant may drive. -/
theorem route_onMap (g : RGraph Prim (Dbl F)) (hg : build i = some g) {ds : List LH} {lc : Bool} {rt : Route Prim (Dbl F)}
    (h : IsRoute i.tests g (ds.map .inl) lc k rt) {p : Prim} (hp : rt.contains p = true) : ∃ a, p = .inl a ∧ MayDrive e r i.lanelets a := by
  have hb := build_built i S.input S.costs g hg
  have hp := (contains_members S rt p).mp hp
  have hu := (usable_iff i S.input S.costs g hg p).mp ((Verif.Route.route_members hb h).2 p hp)
  have hl : ∃ a, p = .inl a := by
    cases Verif.Route.route_attached_partial hb h hp with
    | path hp =>
      obtain ⟨a, -, rfl⟩ := List.mem_map.mp hp
      exact ⟨a, rfl⟩
    | next _ _ _ hr he =>
      have hr' : ∀ lc : Bool, ∀ rel ∈ followRelations lc, rel ∈ pathRelations true false := by decide
      rcases edge_change_sound i S.input S.costs g hg k m S.module false (fun h => by cases h) _ _ _ ⟨_, hr' lc _ hr, he⟩ with hm | ⟨la, lb, rfl, -⟩
      · cases hm with
        | ahead la lb => exact ⟨la, rfl⟩
        | area _ _ h => cases h
      · exact ⟨la, rfl⟩
  obtain ⟨a, rfl⟩ := hl
  exact ⟨a, rfl, (mayDrive_iff S a).mp hu⟩

/-- the followers in the graph -/
theorem successor_trip (g : RGraph Prim (Dbl F)) (hg : build i = some g) (p q : Prim) :
    (∃ c, HasEdge g p q k Successor c) ↔ ∃ a b, p = .inl a ∧ q = .inl b ∧ MayDrive e r i.lanelets a ∧ MayDrive e r i.lanelets b ∧ Joins e.w a b := by
  have hs := fun c => edges_steps S g hg false 0 (fun h => by cases h) p q c
  constructor
  · rintro ⟨c, hc⟩
    obtain ⟨a, b, h1, h2, h3, h4, ⟨h5, -⟩ | ⟨h5, -⟩⟩ := (hs c).mp ⟨Successor, by simp [pathRelations], hc⟩
    · exact ⟨a, b, h1, h2, h3, h4, h5⟩
    · cases h5
  · rintro ⟨a, b, h1, h2, h3, h4, h5⟩
    obtain ⟨rel, hr, he⟩ := (hs _).mpr ⟨a, b, h1, h2, h3, h4, .inl ⟨h5, rfl⟩⟩
    have : rel = Successor := by simpa [pathRelations] using hr
    exact ⟨_, this ▸ he⟩

/-- **C68.** The followers of a lanelet on the route are exactly the lanelets of the route whose bounds begin where those of the lanelet end; the same for
the predecessors. -/
theorem route_follows (g : RGraph Prim (Dbl F)) (hg : build i = some g) {ds : List LH} {lc : Bool} {rt : Route Prim (Dbl F)}
    (h : IsRoute i.tests g (ds.map .inl) lc k rt) (a : LH) (q : Prim) :
    (q ∈ rt.following (.inl a) ↔ ∃ b, q = .inl b ∧ On rt a ∧ On rt b ∧ Joins e.w a b) ∧
    (q ∈ rt.previous (.inl a) ↔ ∃ b, q = .inl b ∧ On rt a ∧ On rt b ∧ Joins e.w b a) := by
  have hb := build_built i S.input S.costs g hg
  have hrb := Verif.Route.route_built hb h
  have hrel := Verif.Route.route_relations hb h
  have hlc : Successor ∈ Verif.Route.routeRelations lc := by cases lc <;> decide
  have key : ∀ p q : Prim, (∃ c, HasEdge rt.graph.graph p q 0 Successor c) ↔
      ∃ a b, p = .inl a ∧ q = .inl b ∧ On rt a ∧ On rt b ∧ Joins e.w a b := by
    intro p q
    constructor
    · rintro ⟨c, hc⟩
      obtain ⟨-, h1, h2, -, h3⟩ := (hrel p q 0 Successor c).mp hc
      obtain ⟨a, b, rfl, rfl, -, -, hj⟩ := (successor_trip S g hg p q).mp ⟨c, h3⟩
      exact ⟨a, b, rfl, rfl, (contains_members S rt _).mpr h1, (contains_members S rt _).mpr h2, hj⟩
    · rintro ⟨a, b, rfl, rfl, h1, h2, hj⟩
      obtain ⟨a', ha, d1⟩ := route_onMap S g hg h h1
      obtain ⟨b', hb', d2⟩ := route_onMap S g hg h h2
      cases ha; cases hb'
      obtain ⟨c, hc⟩ := (successor_trip S g hg (.inl a) (.inl b)).mpr ⟨a, b, rfl, rfl, d1, d2, hj⟩
      exact ⟨c, (hrel _ _ 0 Successor c).mpr ⟨rfl, (contains_members S rt _).mp h1, (contains_members S rt _).mp h2, hlc, hc⟩⟩
  have hget := Graph.getAllEdges_iff hrb (w := (Graph.withoutLaneChanges, [Successor])) (by simp [Graph.views]) 0
  constructor
  · unfold Route.following
    rw [hget (.inl a) q true]
    simp only [List.mem_singleton, exists_eq_left, if_true]
    rw [key]
    constructor
    · rintro ⟨a', b, h1, h2, h3⟩; cases h1; exact ⟨b, h2, h3⟩
    · rintro ⟨b, h2, h3⟩; exact ⟨a, b, rfl, h2, h3⟩
  · unfold Route.previous
    rw [hget (.inl a) q false]
    simp only [List.mem_singleton, exists_eq_left, Bool.false_eq_true, if_false]
    rw [key]
    constructor
    · rintro ⟨b, a', h1, h2, h3, h4, h5⟩; cases h2; exact ⟨b, h1, h4, h3, h5⟩
    · rintro ⟨b, h1, h3, h4, h5⟩; exact ⟨b, a, h1, rfl, h4, h3, h5⟩

/-- **C68.** Lanelets that conflict with a lanelet of the route overlap with it or are its other direction, and the participant may drive on them;
overlapping lanelets that are not its followers or neighbours are among them, and so is the other direction. -/
theorem route_conflicts (g : RGraph Prim (Dbl F)) (hg : build i = some g) {ds : List LH} {lc : Bool} {rt : Route Prim (Dbl F)}
    (h : IsRoute i.tests g (ds.map .inl) lc k rt) (a b : LH) (ha : On rt a) :
    ((.inl b : Prim) ∈ rt.conflictingInRoute (.inl a) ↔ (.inl b : Prim) ∈ rt.conflictingInMap (.inl a) ∧ On rt b) ∧
    ((.inl b : Prim) ∈ rt.conflictingInMap (.inl a) → MayDrive e r i.lanelets b ∧ a ≠ b ∧
      (i.overlapsLL a b = true ∨ i.overlapsLL b a = true ∨ b = invertL a)) ∧
    (MayDrive e r i.lanelets b → b.inv = false → a ≠ b → i.boxLL a b = true → i.overlapsLL a b = true →
      ¬ Joins e.w a b → ¬ Side e.w true a b → ¬ Side e.w false a b → (.inl b : Prim) ∈ rt.conflictingInMap (.inl a)) ∧
    (MayDrive e r i.lanelets (invertL a) → a.inv = false → i.boxLL a a = true → (.inl (invertL a) : Prim) ∈ rt.conflictingInMap (.inl a)) := by
  have hbd := build_built i S.input S.costs g hg
  have ham := (contains_members S rt _).mp ha
  obtain ⟨a', ha', d1⟩ := route_onMap S g hg h ha
  cases ha'
  have hc : i.costs ≠ [] := by intro hc; have := S.module; rw [hc] at this; simp at this
  have hk : k < i.costs.length := (List.getElem?_eq_some_iff.mp S.module).1
  refine ⟨?_, ?_, ?_, ?_⟩
  · rw [Verif.Route.route_conflictingInRoute hbd h, Verif.Route.route_conflictingInMap hbd h ham]
    constructor
    · rintro ⟨-, h2, h3⟩; exact ⟨h3, (contains_members S rt _).mpr h2⟩
    · rintro ⟨h3, h2⟩; exact ⟨ham, (contains_members S rt _).mp h2, h3⟩
  · rw [Verif.Route.route_conflictingInMap hbd h ham]
    rintro ⟨c, hc⟩
    obtain ⟨-, h2, h3, -, h5, -⟩ := conflicting_sound i S.input S.costs g hg a b _ ((hasEdge_iff_mem hbd _ _ _ _ _).mp hc) rfl
    exact ⟨(mayDrive_iff S _).mp h2, h3, h5⟩
  · intro d2 hinv hne hbox ho hj hl hr
    rw [Verif.Route.route_conflictingInMap hbd h ham]
    have := (conflicting_complete i S.input S.costs hc g hg a b ((mayDrive_iff S _).mpr d1) ((mayDrive_iff S _).mpr d2) hinv hne hbox ho).2 (by
      cases hf : follows i.w a b with
      | false => rfl
      | true => rw [S.world] at hf; exact absurd ((follows_spec e.w a b).1.mp hf) hj)
      (fun h => hl ((beside_iff S _ _ _).mp h)) (fun h => hr ((beside_iff S _ _ _).mp h)) k hk
    exact ⟨_, (hasEdge_iff_mem hbd _ _ _ _ _).mpr this.1⟩
  · intro d2 hinv hbox
    rw [Verif.Route.route_conflictingInMap hbd h ham]
    exact ⟨_, (hasEdge_iff_mem hbd _ _ _ _ _).mpr (conflicting_inverse i S.input S.costs hc g hg a ((mayDrive_iff S _).mpr d1) hinv
      ((mayDrive_iff S _).mpr d2) hbox k hk).1⟩

/-- **C68.** On a route without lane changes every lanelet leads to the destination: there is a legal trip along lanelets of the route. -/
theorem route_trip (g : RGraph Prim (Dbl F)) (hg : build i = some g) {ds : List LH} {rt : Route Prim (Dbl F)}
    (h : IsRoute i.tests g (ds.map .inl) false k rt) {x : F} (ht : Trip e r i.lanelets value false 0 ds x) {last : LH} (hl : ds.getLast? = some last)
    {a : LH} (ha : On rt a) :
    ∃ ds' x', Trip e r i.lanelets value false 0 ds' x' ∧ ds'.head? = some a ∧ ds'.getLast? = some last ∧ ∀ d ∈ ds', On rt d := by
  have hbd := build_built i S.input S.costs g hg
  have hstep := edges_steps S g hg false 0 (fun h => by cases h)
  have hp := path_ppath (fun a b c h => (hstep a b c).mpr h) (trip_path S ht)
  have hconn := Verif.Route.ppath_connected (lc := false) hp
  have hlead := Verif.Route.route_leads hbd hconn h (last := .inl last) (by rw [List.getLast?_map, hl]; rfl) ((contains_members S rt _).mp ha)
  have key : ∀ p : Prim, ReflTransGen (fun a b => b ∈ rt.following a) p (.inl last) → ∀ a, p = .inl a → On rt a →
      ∃ ds' x', Trip e r i.lanelets value false 0 ds' x' ∧ ds'.head? = some a ∧ ds'.getLast? = some last ∧ ∀ d ∈ ds', On rt d := by
    intro p hp
    induction hp using Relation.ReflTransGen.head_induction_on with
    | refl =>
      intro a ha hon
      cases ha
      obtain ⟨a', ha', d⟩ := route_onMap S g hg h hon
      cases ha'
      exact ⟨[last], 0, .start last d, rfl, rfl, by simpa using hon⟩
    | head hab _ ih =>
      intro a ha hon
      subst ha
      obtain ⟨b, rfl, h1, h2, h3⟩ := (route_follows S g hg h a _).1.mp hab
      obtain ⟨ds', x', k1, k2, k3, k4⟩ := ih b rfl h2
      obtain ⟨a', ha', da⟩ := route_onMap S g hg h h1
      cases ha'
      obtain ⟨b', hb', db⟩ := route_onMap S g hg h h2
      cases hb'
      refine ⟨a :: ds', _, trip_cons S k1 k2 ⟨da, db, .inl ⟨h3, rfl⟩⟩, rfl, ?_, ?_⟩
      · rw [List.getLast?_cons, k3]; rfl
      · intro d hd
        rcases List.mem_cons.mp hd with rfl | hd
        · exact h1
        · exact k4 d hd
  exact key _ hlead a rfl ha

/-- a route for each path; undefined behaviour only with lane changes -/
theorem route_of_path (g : RGraph Prim (Dbl F)) (hg : build i = some g) (lc : Bool) (hring : lc = true → NoRing e r i.lanelets) {ps : List Prim} {c : Dbl F}
    (hp : PPath g Cost.zero Cost.add k (followRelations lc) ps c) (hne : ps ≠ []) (hm : ∀ p, ps.head? = some p → p ∈ g.vertices) :
    (∃ rt, buildRoute i.tests g ps lc k = some (.ok (some rt)) ∧ rt.shortestPath = ps ∧ ∀ p ∈ ps, rt.contains p = true) ∨
    (lc = true ∧ buildRoute i.tests g ps lc k = some (.error .ub)) := by
  have hbd := build_built i S.input S.costs g hg
  have hconn := Verif.Route.ppath_connected hp
  have hmem := Verif.Route.ppath_members hp ⟨hne, hm⟩
  cases lc with
  | false =>
    obtain ⟨rt, hx⟩ := Verif.Route.route_straight hbd hne hmem hconn
    exact .inl ⟨rt, hx, Verif.Route.route_contains_path hbd hx hconn⟩
  | true =>
    obtain ⟨y, hy⟩ := Verif.Route.route_terminates hbd ps true (costId := k) (fun _ => noSideCircle_of S g hg (hring rfl))
    cases y with
    | error f =>
      obtain ⟨rfl, -⟩ := Verif.Route.route_fault hbd hne hmem hy
      exact .inr ⟨rfl, hy⟩
    | ok o =>
      obtain ⟨rt, rfl⟩ := Option.isSome_iff_exists.mp (Verif.Route.route_exists hbd hconn hy)
      exact .inl ⟨rt, hy, Verif.Route.route_contains_path hbd hy hconn⟩

theorem pathRel_follow (lc : Bool) : pathRelations lc false = followRelations lc := by cases lc <;> rfl

/-- **C68.** `getRoute` between lanelets on which the participant may drive: nothing if there is no legal trip; otherwise a route along the shortest legal
trip, all of whose lanelets are on the route. Without lane changes this is all that can happen; with lane changes the construction may have undefined
behaviour (see `Verif.Route.build_counterexample`). -/
theorem getRoute_trip (g : RGraph Prim (Dbl F)) (hg : build i = some g) {pick : Nat → (Nat → Dbl F) → List Nat → Nat} (hpick : PickMin pick)
    (lc : Bool) (κ : F) (hch : ChangesOk i m lc κ) (hring : lc = true → NoRing e r i.lanelets) (a b : LH) (ha : MayDrive e r i.lanelets a)
    (hb : MayDrive e r i.lanelets b) :
    (getRoute i.tests g pick (.inl a) (.inl b) k lc = some (.ok none) ∧
      ∀ ds x, Trip e r i.lanelets value lc κ ds x → ds.head? = some a → ds.getLast? ≠ some b) ∨
    (∃ rt ds x, getRoute i.tests g pick (.inl a) (.inl b) k lc = some (.ok (some rt)) ∧ IsRoute i.tests g (ds.map .inl) lc k rt ∧
      rt.shortestPath = ds.map .inl ∧ Trip e r i.lanelets value lc κ ds x ∧ ds.head? = some a ∧ ds.getLast? = some b ∧
      (∀ ds' x', Trip e r i.lanelets value lc κ ds' x' → ds'.head? = some a → ds'.getLast? = some b → x ≤ x') ∧ ∀ d ∈ ds, On rt d) ∨
    (lc = true ∧ getRoute i.tests g pick (.inl a) (.inl b) k lc = some (.error .ub)) := by
  have hstep := edges_steps S g hg lc κ hch
  rcases shortestPath_trip S g hg hpick lc κ hch a b ha hb with ⟨h1, h2⟩ | ⟨ds, x, h1, h2, h3, h4, h5⟩
  · refine .inl ⟨?_, h2⟩
    unfold getRoute; rw [h1]
  · have hgr : getRoute i.tests g pick (.inl a) (.inl b) k lc = buildRoute i.tests g (ds.map .inl) lc k := by
      unfold getRoute; rw [h1]
    rw [hgr]
    have hp := path_ppath (fun a b c h => (hstep a b c).mpr h) (trip_path S h2)
    rw [pathRel_follow S] at hp
    have hne : ds.map (Sum.inl : LH → Prim) ≠ [] := by
      intro h
      exact trip_ne S h2 (List.map_eq_nil_iff.mp h)
    rcases route_of_path S g hg lc hring hp hne (by
      intro p hp
      rw [List.head?_map, h3] at hp
      cases hp
      exact (usable_iff i S.input S.costs g hg _).mpr ((mayDrive_iff S a).mpr ha)) with ⟨rt, k1, k2, k3⟩ | ⟨k1, k2⟩
    · exact .inr (.inl ⟨rt, ds, x, k1, k1, k2, h2, h3, h4, h5, fun d hd => k3 _ (List.mem_map_of_mem hd)⟩)
    · exact .inr (.inr ⟨k1, k2⟩)

/-- **C68.** `getRouteVia`: nothing if there is no legal trip between some consecutive lanelets; otherwise a route along shortest legal trips between
them, all of whose lanelets are on the route. Without lane changes this is all that can happen. -/
theorem getRouteVia_trip (g : RGraph Prim (Dbl F)) (hg : build i = some g) {pick : Nat → (Nat → Dbl F) → List Nat → Nat} (hpick : PickMin pick)
    (lc : Bool) (κ : F) (hch : ChangesOk i m lc κ) (hring : lc = true → NoRing e r i.lanelets) (start target : LH) (via : List LH) :
    let pts := start :: via ++ [target]
    (getRouteVia i.tests g pick (.inl start) (via.map .inl) (.inl target) k lc = some (.ok none) ∧
      ∃ (j : Nat) (a b : LH), pts[j]? = some a ∧ pts[j + 1]? = some b ∧
        ∀ ds x, Trip e r i.lanelets value lc κ ds x → ds.head? = some a → ds.getLast? ≠ some b) ∨
    (∃ rt, ∃ legs : List (List LH), getRouteVia i.tests g pick (.inl start) (via.map .inl) (.inl target) k lc = some (.ok (some rt)) ∧
      IsRoute i.tests g ((joinLegs legs).map .inl) lc k rt ∧ legs.length = via.length + 1 ∧
      (∀ (j : Nat) l, legs[j]? = some l → ∃ a b x, pts[j]? = some a ∧ pts[j + 1]? = some b ∧ Trip e r i.lanelets value lc κ l x ∧
        l.head? = some a ∧ l.getLast? = some b ∧
        ∀ ds' x', Trip e r i.lanelets value lc κ ds' x' → ds'.head? = some a → ds'.getLast? = some b → x ≤ x') ∧
      rt.shortestPath = (joinLegs legs).map .inl ∧ ∀ d ∈ joinLegs legs, On rt d) ∨
    (lc = true ∧ getRouteVia i.tests g pick (.inl start) (via.map .inl) (.inl target) k lc = some (.error .ub)) := by
  intro pts
  have hbd := build_built i S.input S.costs g hg
  have ht : TestsOk i.tests := by rw [S.tests]; exact dblTests_ok
  have hid := numCosts i S.input S.costs ht g hg hpick k m S.module false (fun h => by cases h)
  rcases shortestPathVia_trip S g hg hpick lc κ hch start target via with ⟨h1, h2⟩ | ⟨legs, h1, h2, h3⟩
  · refine .inl ⟨?_, h2⟩
    unfold getRouteVia; rw [h1]
  · have hgr : getRouteVia i.tests g pick (.inl start) (via.map .inl) (.inl target) k lc = buildRoute i.tests g ((joinLegs legs).map .inl) lc k := by
      unfold getRouteVia; rw [h3]
    rw [hgr]
    rcases Graph.routing_shortestPathVia ht hbd hpick (.inl start) (.inl target) (via.map .inl) k hid lc false with ⟨q1, -⟩ | ⟨legs', q1, q2, q3, ⟨c, q4⟩, q5, q6⟩
    · rw [h3] at q1; cases q1
    · have heq : joinLegs legs' = (joinLegs legs).map .inl := by
        rw [h3] at q3
        simpa using q3.symm
      rw [heq, pathRel_follow S] at q4
      rw [heq] at q5
      have hne : (joinLegs legs).map (Sum.inl : LH → Prim) ≠ [] := by intro h; rw [h] at q5; cases q5
      have hs : (.inl start : Prim) ∈ g.vertices := by
        obtain ⟨l, hl⟩ : ∃ l, legs'[0]? = some l := ⟨legs'[0]'(by omega), List.getElem?_eq_getElem (by omega)⟩
        obtain ⟨a, b, k1, -, k3, -⟩ := q2 0 l hl
        simp only [List.cons_append, List.getElem?_cons_zero, Option.some.injEq] at k1
        subst k1
        exact k3.1
      rcases route_of_path S g hg lc hring q4 hne (by intro p hp; rw [q5] at hp; cases hp; exact hs) with ⟨rt, k1, k2, k3⟩ | ⟨k1, k2⟩
      · exact .inr (.inl ⟨rt, legs, k1, k1, h1, h2, k2, fun d hd => k3 _ (List.mem_map_of_mem hd)⟩)
      · exact .inr (.inr ⟨k1, k2⟩)

end

/-! ### cases -/

theorem exPlan_noRing : NoRing Rules.exEnv (Rules.exRules "vehicle:truck") exPlan.lanelets := by
  intro isLeft
  refine ⟨fun a => if isLeft then a.data else 2 - a.data, ?_⟩
  intro a b ha hb hne hs hc
  have ha' := (exPlan_drive a).mp ha
  have hb' := (exPlan_drive b).mp hb
  have key : ∀ isLeft : Bool, ∀ a ∈ [(⟨0, false⟩ : LH), ⟨1, false⟩, ⟨2, false⟩, ⟨0, true⟩], ∀ b ∈ [(⟨0, false⟩ : LH), ⟨1, false⟩, ⟨2, false⟩, ⟨0, true⟩],
      a ≠ b → Beside exPlan isLeft a b → exPlan.rules.change a b = true →
      (if isLeft then b.data else 2 - b.data) < (if isLeft then a.data else 2 - a.data) := by decide
  exact key isLeft a ha' b hb' hne ((beside_iff exPlan_setup _ _ _).mpr hs) ((change_iff exPlan_setup a b ha hb).mpr hc)

/-- Case: there is a route for the truck from lanelet 0 to lanelet 2, without lane changes; lanelet 2 follows on it, and lanelet 0 leads there. -/
example : ∃ g rt, build exPlan = some g ∧ getRoute exPlan.tests g (fun _ cost l => leastOf cost l) (.inl ⟨0, false⟩) (.inl ⟨2, false⟩) 0 false =
      some (.ok (some rt)) ∧ On rt ⟨0, false⟩ ∧ On rt ⟨2, false⟩ ∧ (.inl ⟨2, false⟩ : Prim) ∈ rt.following (.inl ⟨0, false⟩) := by
  obtain ⟨g, hg, -⟩ := build_vertices exPlan exPlan_setup.input exPlan_setup.costs
  have d0 := (exPlan_drive ⟨0, false⟩).mpr (by decide)
  have d2 := (exPlan_drive ⟨2, false⟩).mpr (by decide)
  rcases getRoute_trip exPlan_setup g hg leastOf_min false 0 (fun h => by cases h) (fun h => by cases h) ⟨0, false⟩ ⟨2, false⟩ d0 d2 with
    ⟨-, h⟩ | ⟨rt, ds, x, h1, h2, -, -, h3, h4, -, h5⟩ | ⟨h, -⟩
  · exact absurd rfl (h _ _ (.ahead ⟨2, false⟩ (.start ⟨0, false⟩ d0) rfl d2 ⟨1, 11, rfl, rfl, rfl, rfl⟩) rfl)
  · have k0 := h5 _ (List.mem_of_head? h3)
    have k2 := h5 _ (List.mem_of_getLast? h4)
    exact ⟨g, rt, hg, h1, k0, k2, ((route_follows exPlan_setup g hg h2 _ _).1).mpr ⟨⟨2, false⟩, rfl, k0, k2, 1, 11, rfl, rfl, rfl, rfl⟩⟩
  · cases h

/-- Case: a route over lanelet 2 that stays there exists; lanelet 0 leads to the destination, and its other direction conflicts with it. -/
example : ∃ g rt, build exPlan = some g ∧
    getRouteVia exPlan.tests g (fun _ cost l => leastOf cost l) (.inl ⟨0, false⟩) [.inl ⟨2, false⟩] (.inl ⟨2, false⟩) 0 false = some (.ok (some rt)) ∧
    (.inl ⟨0, true⟩ : Prim) ∈ rt.conflictingInMap (.inl ⟨0, false⟩) := by
  obtain ⟨g, hg, -⟩ := build_vertices exPlan exPlan_setup.input exPlan_setup.costs
  have d0 := (exPlan_drive ⟨0, false⟩).mpr (by decide)
  have d0' := (exPlan_drive ⟨0, true⟩).mpr (by decide)
  have d2 := (exPlan_drive ⟨2, false⟩).mpr (by decide)
  rcases getRouteVia_trip exPlan_setup g hg leastOf_min false 0 (fun h => by cases h) (fun h => by cases h) ⟨0, false⟩ ⟨2, false⟩ [⟨2, false⟩] with
    ⟨-, j, a, b, h1, h2, h3⟩ | ⟨rt, legs, h1, h2, h3, h4, -, h6⟩ | ⟨h, -⟩
  · exfalso
    match j, h1, h2 with
    | 0, h1, h2 =>
      cases h1; cases h2
      exact h3 _ _ (.ahead ⟨2, false⟩ (.start ⟨0, false⟩ d0) rfl d2 ⟨1, 11, rfl, rfl, rfl, rfl⟩) rfl rfl
    | 1, h1, h2 =>
      cases h1; cases h2
      exact h3 _ _ (.start ⟨2, false⟩ d2) rfl rfl
    | j + 2, h1, h2 => cases h2
  · refine ⟨g, rt, hg, h1, ?_⟩
    have k0 : On rt ⟨0, false⟩ := by
      apply h6
      match legs, h3, h4 with
      | l :: ls, h3, h4 =>
        obtain ⟨a, b, x, k1, -, -, k2, -⟩ := h4 0 l rfl
        cases k1
        have : (⟨0, false⟩ : LH) ∈ l := List.mem_of_head? k2
        simp only [joinLegs]
        exact List.mem_append_left _ this
    exact (route_conflicts exPlan_setup g hg h2 ⟨0, false⟩ ⟨0, false⟩ k0).2.2.2 d0' rfl rfl
  · cases h

/-- Case: with lane changes; the only alternative to a route is undefined behaviour. -/
example : ∃ g, build exPlan = some g ∧
    ((∃ rt, ∃ ds : List LH, getRoute exPlan.tests g (fun _ cost l => leastOf cost l) (.inl ⟨0, false⟩) (.inl ⟨1, false⟩) 0 true = some (.ok (some rt)) ∧
      rt.shortestPath = ds.map .inl ∧ On rt ⟨1, false⟩) ∨
    getRoute exPlan.tests g (fun _ cost l => leastOf cost l) (.inl ⟨0, false⟩) (.inl ⟨1, false⟩) 0 true = some (.error .ub)) := by
  obtain ⟨g, hg, -⟩ := build_vertices exPlan exPlan_setup.input exPlan_setup.costs
  have d0 := (exPlan_drive ⟨0, false⟩).mpr (by decide)
  have d1 := (exPlan_drive ⟨1, false⟩).mpr (by decide)
  have hm : MayChange Rules.exEnv (Rules.exRules "vehicle:truck") ⟨0, false⟩ ⟨1, false⟩ :=
    ((canChangeLane_iff _ _ _ _ (exPlan_setup.tags _) (exPlan_setup.tags _)).mp (by decide)).2.2
  refine ⟨g, hg, ?_⟩
  rcases getRoute_trip exPlan_setup g hg leastOf_min true 7 exPlan_clear (fun _ => exPlan_noRing) ⟨0, false⟩ ⟨1, false⟩ d0 d1 with
    ⟨-, h⟩ | ⟨rt, ds, x, h1, -, h2, -, -, h4, -, h5⟩ | ⟨-, h⟩
  · exact absurd rfl (h _ _ (.change ⟨1, false⟩ rfl (.start ⟨0, false⟩ d0) rfl d1 (by decide) hm) rfl)
  · exact .inl ⟨rt, ds, h1, h2, h5 _ (List.mem_of_getLast? h4)⟩
  · exact .inr h

end Verif.Plan
