import Verif.Build.Props
import Verif.Graph.Props2
import Mathlib.Tactic.Tauto
import Mathlib.Data.List.Induction

/-!
C65: routing on a map. The construction of the routing graph (Verif.Build), its views (Verif.Graph) and the search (Verif.Search) are put together:
what `shortestPath` and `reachableSet` return is stated in terms of the map, the traffic rules and the cost modules only.
-/
set_option linter.unusedSectionVars false
namespace Verif.Plan
open Verif.Graph (RGraph EdgeInfo BaseEdge CostTests RelationType HasEdge PPath PPathTo pathRelations pathView TestsOk edgeRelations)
open Verif.Graph.RelationType
open Verif.Search (Cost PickMin)
open Verif.Lanelet (LH World points leftBound rightBound follows leftOf rightOf invertL)
open Verif.Build

variable {P K : Type} [DecidableEq P]

/-! ### specification -/

/-- Specification: what may be used, a lanelet in one direction or an area. -/
def Usable (i : Input P K) : Prim → Prop
  | .inl ll => InGraph i ll
  | .inr ar => ar ∈ i.areas ∧ i.rules.passA ar = true

/-- Specification: driving on from `a` to `b` for the cost `c` (according to the cost module `m`): to a lanelet that begins where the lanelet ends, or
into or out of an area, as the traffic rules permit. -/
inductive Move (i : Input P K) (m : CostModule K) (areas : Bool) : Prim → Prim → K → Prop
  | ahead (a b : LH) : InGraph i a → InGraph i b → follows i.w a b = true → i.rules.passLL a b = true →
      i.tests.isFinite (m.succ (.inl a) (.inl b)) = true → Move i m areas (.inl a) (.inl b) (m.succ (.inl a) (.inl b))
  | area (a b : Prim) : areas = true → Usable i a → Usable i b → canDrive i a b = true →
      i.tests.isFinite (m.succ a b) = true → Move i m areas a b (m.succ a b)

/-- Specification: a permitted lane change to the direct neighbour. -/
def LaneChange (i : Input P K) (a b : LH) : Prop :=
  InGraph i a ∧ InGraph i b ∧ a ≠ b ∧ (Beside i true a b ∨ Beside i false a b) ∧ i.rules.change a b = true

/-- Specification: a sequence of steps, the costs are added up from the first to the last. -/
inductive Path (step : Prim → Prim → K → Prop) (zero : K) (add : K → K → K) : List Prim → K → Prop
  | single (p : Prim) : Path step zero add [p] zero
  | snoc {ps : List Prim} {c w : K} {p q : Prim} : Path step zero add ps c → ps.getLast? = some p → step p q w →
      Path step zero add (ps ++ [q]) (add c w)

/-- Specification: the same with the costs added up from the last to the first. -/
inductive PathTo (step : Prim → Prim → K → Prop) (zero : K) (add : K → K → K) : List Prim → K → Prop
  | single (p : Prim) : PathTo step zero add [p] zero
  | cons {ps : List Prim} {c w : K} {p q : Prim} : PathTo step zero add ps c → ps.head? = some q → step p q w →
      PathTo step zero add (p :: ps) (add c w)

/-- Specification: driving on, or a permitted lane change for the cost that the module gives to a chain of lane changes that begins with it. -/
def MoveOrChange (i : Input P K) (m : CostModule K) (areas : Bool) (a b : Prim) (c : K) : Prop :=
  Move i m areas a b c ∨ ∃ la lb, a = .inl la ∧ b = .inl lb ∧ LaneChange i la lb ∧ i.tests.isFinite c = true ∧
    ∃ rest : List (LH × LH), c = m.change (la :: rest.map (·.1)) (lb :: rest.map (·.2)) ∧ ∀ p ∈ rest, LaneChange i p.1 p.2

/-- Specification: driving on, or a permitted lane change for the cost `κ`. -/
def MoveOrChangeFor (i : Input P K) (m : CostModule K) (areas : Bool) (κ : K) (a b : Prim) (c : K) : Prop :=
  Move i m areas a b c ∨ ∃ la lb, a = .inl la ∧ b = .inl lb ∧ LaneChange i la lb ∧ c = κ

/-- Specification: neighbours are clear: a neighbour to which the lane may be changed is the only neighbour on this side, it is beside only (it does
not follow, overlap or coincide with the lanelet). -/
def Clear (i : Input P K) : Prop :=
  ∀ isLeft a b, InGraph i a → InGraph i b → a ≠ b → Beside i isLeft a b → i.rules.change a b = true →
    OnlyBeside i isLeft a b ∧ ∀ b', InGraph i b' → b' ≠ a → Beside i isLeft a b' → b' = b

/-! ### the constructed graph was built through the interface of the container -/

theorem plus_built {t : CostTests K} {g : RGraph Prim K} (h : Graph.Built t g) (a b : Prim) (xs : List (EdgeInfo K))
    (hx : ∀ x ∈ xs, x.relation ∈ edgeRelations ∧ t.isFinite x.routingCost = true ∧ t.negative x.routingCost = false) :
    Graph.Built t (plus g a b xs) := by
  induction xs generalizing g with
  | nil => rw [plus_nil]; exact h
  | cons x xs ih =>
    have hc := hx x (by simp)
    have h1 : Graph.Built t (plus g a b [x]) := by
      refine .edge a b x h hc.1 ?_
      have := addEdge_plus t g a b x hc.2.2
      rw [if_pos hc.2.1] at this
      revert this
      cases g.addEdge t a b x with
      | error e => simp [Except.toOption]
      | ok y => intro h; simpa [Except.toOption] using h
    have h2 := ih h1 (fun y hy => hx y (by simp [hy]))
    rw [plus_plus] at h2
    exact h2

theorem infos_built (i : Input P K) (ok : CostsOk i) (a b : Prim) (rel : RelationType) (hr : rel ∈ edgeRelations) :
    ∀ x ∈ infos i a b rel, x.relation ∈ edgeRelations ∧ i.tests.isFinite x.routingCost = true ∧
      i.tests.negative x.routingCost = false := by
  intro x hx
  refine ⟨by rw [infos_rel i a b rel x hx]; exact hr, ?_⟩
  by_cases h : rel = Successor ∨ rel = Area
  · obtain ⟨k, c, h1, h2, rfl⟩ := (mem_infos_drive i a b rel h x).mp hx
    exact ⟨h2, ok.succ c (List.mem_of_getElem? h1) a b⟩
  · obtain ⟨k, h1, rfl⟩ := (mem_infos_fixed i a b rel h x).mp hx
    exact ⟨ok.one_finite, ok.one_pos⟩

theorem grow_built (i : Input P K) (ok : CostsOk i) {ph : Phase} {g g' : RGraph Prim K} (h : Grow i ph g g')
    (hg : Graph.Built i.tests g) : Graph.Built i.tests g' := by
  induction h with
  | refl => exact hg
  | step a b xs _ r ih =>
    refine plus_built ih a b xs ?_
    cases r with
    | change isLeft a b rest ha hb hne hbs hc =>
      intro x hx
      obtain ⟨ci, hci, rfl⟩ := List.mem_map.mp hx
      have hmem : ci.1 ∈ i.costs := List.mem_of_getElem? ((mem_zipIdx_costs i ci).mp hci)
      unfold laneChangeInfo
      split
      · rename_i hf
        refine ⟨by cases isLeft <;> simp [edgeRelations], hf, ok.change _ hmem _ _⟩
      · exact ⟨by cases isLeft <;> simp [edgeRelations], ok.one_finite, ok.one_pos⟩
    | adjacent isLeft => cases isLeft <;> exact infos_built i ok _ _ _ (by decide)
    | _ => exact infos_built i ok _ _ _ (by decide)

theorem vertices_built (t : CostTests K) (n : Nat) (vs : List Prim) (h : vs.Nodup) : Graph.Built t (⟨n, vs, []⟩ : RGraph Prim K) := by
  induction vs using List.reverseRecOn with
  | nil => exact .empty n
  | append_singleton vs p ih =>
    rw [List.nodup_append] at h
    exact (ih h.1).vertex p (fun hp => h.2.2 p hp p (by simp) rfl)

/-- What the builder returns was made with the interface of the graph container, so all theorems about such graphs hold for it. -/
theorem build_built (i : Input P K) (hi : InputOk i) (ok : CostsOk i) (g : RGraph Prim K) (hg : build i = some g) :
    Graph.Built i.tests g := by
  obtain ⟨s, l, gl, gr, g', h1, h2⟩ := build_phases i hi ok
  obtain rfl : g' = g := by rw [hg] at h1; simpa using h1.symm
  obtain ⟨g2, q1, -, -, -, q5⟩ := build_vertices i hi ok
  obtain rfl : g2 = g' := by rw [hg] at q1; simpa using q1.symm
  refine grow_built i ok h2.areas.1 (grow_built i ok h2.right.ext.1 (grow_built i ok h2.left.ext.1 (grow_built i ok h2.lanes.ext.1 ?_)))
  have hs : s.g = ⟨s.g.numRoutingCosts, s.g.vertices, []⟩ := by
    have := h2.start.2.1
    cases hsg : s.g with
    | mk n vs es => rw [hsg] at this; simp only at this; rw [this]
  show Graph.Built i.tests s.g
  rw [hs]
  refine vertices_built _ _ _ ?_
  rw [h2.start.1, ← h2.vertices]
  exact q5

theorem hasEdge_iff_mem {t : CostTests K} {g : RGraph Prim K} (h : Graph.Built t g) (a b : Prim) (k : Nat) (r : RelationType) (c : K) :
    HasEdge g a b k r c ↔ (⟨c, k, r⟩ : EdgeInfo K) ∈ edgesOf g a b := by
  have wf := Graph.built_wf h
  unfold edgesOf
  constructor
  · rintro ⟨e, e1, e2, e3, rfl, rfl, rfl⟩
    rw [(Graph.getVertex_iff wf.nodup).mpr e2, (Graph.getVertex_iff wf.nodup).mpr e3]
    simp only [List.mem_map, List.mem_filter]
    exact ⟨e, ⟨e1, by simp⟩, rfl⟩
  · intro hm
    cases ha : g.getVertex a with
    | none => rw [ha] at hm; simp at hm
    | some u =>
      cases hb : g.getVertex b with
      | none => rw [ha, hb] at hm; simp at hm
      | some v =>
        rw [ha, hb] at hm
        simp only [List.mem_map, List.mem_filter, Bool.and_eq_true, beq_iff_eq] at hm
        obtain ⟨e, ⟨e1, e2, e3⟩, e4⟩ := hm
        refine ⟨e, e1, ?_, ?_, ?_, ?_, ?_⟩
        · rw [e2]; exact (Graph.getVertex_spec ha).2
        · rw [e3]; exact (Graph.getVertex_spec hb).2
        all_goals rw [e4]

theorem usable_iff (i : Input P K) (hi : InputOk i) (ok : CostsOk i) (g : RGraph Prim K) (hg : build i = some g) (p : Prim) :
    p ∈ g.vertices ↔ Usable i p := by
  obtain ⟨g2, q1, -, q3, q4, -⟩ := build_vertices i hi ok
  obtain rfl : g2 = g := by rw [hg] at q1; simpa using q1.symm
  cases p with
  | inl ll => exact q3 ll
  | inr ar => exact q4 ar

/-! ### edges as steps on the map -/

section
variable (i : Input P K) (hi : InputOk i) (ok : CostsOk i) (g : RGraph Prim K) (hg : build i = some g)
include hi ok hg

/-- Edges without lane changes are exactly the moves on the map. -/
theorem edge_move (k : Nat) (m : CostModule K) (hk : i.costs[k]? = some m) (areas : Bool)
    (hbox : areas = true → ∀ a b, canDrive i a b = true → boxesMeet i a b = true) (a b : Prim) (c : K) :
    (∃ r ∈ pathRelations false areas, HasEdge g a b k r c) ↔ Move i m areas a b c := by
  have hb := build_built i hi ok g hg
  have hS : HasEdge g a b k Successor c ↔ ∃ la lb, a = .inl la ∧ b = .inl lb ∧ InGraph i la ∧ InGraph i lb ∧ follows i.w la lb = true ∧
      i.rules.passLL la lb = true ∧ DriveEdge i a b Successor ⟨c, k, Successor⟩ := by
    rw [hasEdge_iff_mem hb, ← successor_iff i hi ok g hg a b ⟨c, k, Successor⟩]
    simp
  have hD : ∀ r, DriveEdge i a b r ⟨c, k, r⟩ ↔ i.tests.isFinite (m.succ a b) = true ∧ c = m.succ a b := by
    intro r
    constructor
    · rintro ⟨k', c', h1, h2, h3⟩
      simp only [EdgeInfo.mk.injEq, and_true] at h3
      obtain ⟨rfl, rfl⟩ := h3
      rw [hk] at h1
      obtain rfl := Option.some.inj h1
      exact ⟨h2, rfl⟩
    · rintro ⟨h1, rfl⟩
      exact ⟨k, m, hk, h1, rfl⟩
  constructor
  · rintro ⟨r, hr, he⟩
    have hr' : r = Successor ∨ (areas = true ∧ r = Area) := by
      cases areas <;> simp [pathRelations] at hr <;> tauto
    rcases hr' with rfl | ⟨rfl, rfl⟩
    · obtain ⟨la, lb, rfl, rfl, h1, h2, h3, h4, h5⟩ := hS.mp he
      obtain ⟨h6, rfl⟩ := (hD _).mp h5
      exact .ahead la lb h1 h2 h3 h4 h6
    · have := (area_iff i hi ok g hg (hbox rfl) a b ⟨c, k, Area⟩).mp ⟨(hasEdge_iff_mem hb a b k Area c).mp he, rfl⟩
      obtain ⟨h1, h2, h3, h4⟩ := this
      obtain ⟨h6, rfl⟩ := (hD _).mp h4
      exact .area a b rfl ((usable_iff i hi ok g hg a).mp h1) ((usable_iff i hi ok g hg b).mp h2) h3 h6
  · intro h
    cases h with
    | ahead la lb h1 h2 h3 h4 h5 =>
      refine ⟨Successor, by cases areas <;> simp [pathRelations], hS.mpr ⟨la, lb, rfl, rfl, h1, h2, h3, h4, (hD _).mpr ⟨h5, rfl⟩⟩⟩
    | area a b h0 h1 h2 h3 h4 =>
      subst h0
      refine ⟨Area, by simp [pathRelations], (hasEdge_iff_mem hb _ _ k Area _).mpr ?_⟩
      exact ((area_iff i hi ok g hg (hbox rfl) a b ⟨m.succ a b, k, Area⟩).mpr
        ⟨(usable_iff i hi ok g hg a).mpr h1, (usable_iff i hi ok g hg b).mpr h2, h3, (hD _).mpr ⟨h4, rfl⟩⟩).1

theorem rels_split (areas : Bool) (r : RelationType) :
    r ∈ pathRelations true areas ↔ r ∈ pathRelations false areas ∨ ∃ isLeft : Bool, r = if isLeft then Left else Right := by
  clear hi ok hg
  cases areas <;> simp [pathRelations] <;> tauto

/-- Edges of queries with lane changes are moves or permitted lane changes. -/
theorem edge_change_sound (k : Nat) (m : CostModule K) (hk : i.costs[k]? = some m) (areas : Bool)
    (hbox : areas = true → ∀ a b, canDrive i a b = true → boxesMeet i a b = true) (a b : Prim) (c : K)
    (h : ∃ r ∈ pathRelations true areas, HasEdge g a b k r c) : MoveOrChange i m areas a b c := by
  have hb := build_built i hi ok g hg
  obtain ⟨r, hr, he⟩ := h
  rcases (rels_split i hi ok g hg areas r).mp hr with h' | ⟨isLeft, rfl⟩
  · exact .inl ((edge_move i hi ok g hg k m hk areas hbox a b c).mp ⟨r, h', he⟩)
  · obtain ⟨la, lb, rfl, rfl, h1, h2, h3, h4, h5, ch, m', h6, h7, h8, h9, h10⟩ :=
      laneChange_sound i hi ok g hg isLeft a b ⟨c, k, _⟩ ((hasEdge_iff_mem hb a b k _ c).mp he) rfl
    simp only at h8 h9 h10
    rw [hk] at h8
    obtain rfl := Option.some.inj h8
    have hside : ∀ (x y : LH), Beside i isLeft x y → Beside i true x y ∨ Beside i false x y := by
      intro x y h; cases isLeft
      · exact .inr h
      · exact .inl h
    cases ch with
    | nil => simp at h6
    | cons p rest =>
      simp only [List.head?_cons, Option.some.injEq] at h6
      subst h6
      refine .inr ⟨la, lb, rfl, rfl, ⟨h1, h2, h3, hside _ _ h4, h5⟩, h10, rest, by simpa using h9, ?_⟩
      intro p hp
      obtain ⟨q1, q2, q0, q3, q4⟩ := h7.1 p (by simp [hp])
      exact ⟨q1, q2, q0, hside _ _ q3, q4⟩

/-- If neighbours are clear and lane changes always cost `κ`, the edges of queries with lane changes are exactly the moves and the permitted lane
changes. -/
theorem edge_change (k : Nat) (m : CostModule K) (hk : i.costs[k]? = some m) (areas : Bool)
    (hbox : areas = true → ∀ a b, canDrive i a b = true → boxesMeet i a b = true) (hclear : Clear i) (κ : K)
    (hκ : ∀ x y, m.change x y = κ) (hfin : i.tests.isFinite κ = true) (a b : Prim) (c : K) :
    (∃ r ∈ pathRelations true areas, HasEdge g a b k r c) ↔ MoveOrChangeFor i m areas κ a b c := by
  have hb := build_built i hi ok g hg
  constructor
  · intro h
    rcases edge_change_sound i hi ok g hg k m hk areas hbox a b c h with h | ⟨la, lb, rfl, rfl, h1, -, rest, h2, -⟩
    · exact .inl h
    · exact .inr ⟨la, lb, rfl, rfl, h1, by rw [h2, hκ]⟩
  · rintro (h | ⟨la, lb, rfl, rfl, ⟨h1, h2, h3, h4, h5⟩, rfl⟩)
    · obtain ⟨r, hr, he⟩ := (edge_move i hi ok g hg k m hk areas hbox a b c).mpr h
      exact ⟨r, (rels_split i hi ok g hg areas r).mpr (.inl hr), he⟩
    · obtain ⟨isLeft, h4⟩ : ∃ isLeft, Beside i isLeft la lb := by
        rcases h4 with h4 | h4
        · exact ⟨_, h4⟩
        · exact ⟨_, h4⟩
      obtain ⟨q1, q2⟩ := hclear isLeft la lb h1 h2 h3 h4 h5
      have hc : i.costs ≠ [] := by rintro hc; rw [hc] at hk; simp at hk
      obtain ⟨ch, -, -, he⟩ := neighbour_laneChange i hi ok hc g hg isLeft la lb h1 h2 q1 q2 h5
      refine ⟨if isLeft then Left else Right, (rels_split i hi ok g hg areas _).mpr (.inr ⟨isLeft, rfl⟩), ?_⟩
      rw [hasEdge_iff_mem hb, he, List.mem_map]
      refine ⟨(m, k), (mem_zipIdx_costs i (m, k)).mpr hk, ?_⟩
      simp only [changeEdge, hκ, if_pos hfin]

end

/-! ### paths -/

theorem ppath_path {g : RGraph Prim K} {zero : K} {add : K → K → K} {k : Nat} {rels : List RelationType} {step : Prim → Prim → K → Prop}
    (h : ∀ a b c, (∃ r ∈ rels, HasEdge g a b k r c) → step a b c) {ps : List Prim} {c : K} (hp : PPath g zero add k rels ps c) :
    Path step zero add ps c := by
  induction hp with
  | single p => exact .single p
  | snoc _ hl hr he ih => exact .snoc ih hl (h _ _ _ ⟨_, hr, he⟩)

theorem path_ppath {g : RGraph Prim K} {zero : K} {add : K → K → K} {k : Nat} {rels : List RelationType} {step : Prim → Prim → K → Prop}
    (h : ∀ a b c, step a b c → ∃ r ∈ rels, HasEdge g a b k r c) {ps : List Prim} {c : K} (hp : Path step zero add ps c) :
    PPath g zero add k rels ps c := by
  induction hp with
  | single p => exact .single p
  | snoc _ hl hs ih =>
    obtain ⟨r, hr, he⟩ := h _ _ _ hs
    exact .snoc ih hl hr he

theorem ppathTo_pathTo {g : RGraph Prim K} {zero : K} {add : K → K → K} {k : Nat} {rels : List RelationType}
    {step : Prim → Prim → K → Prop} (h : ∀ a b c, (∃ r ∈ rels, HasEdge g a b k r c) ↔ step a b c) {ps : List Prim} {c : K} :
    PPathTo g zero add k rels ps c ↔ PathTo step zero add ps c := by
  constructor
  · intro hp
    induction hp with
    | single p => exact .single p
    | cons _ hl hr he ih => exact .cons ih hl ((h _ _ _).mp ⟨_, hr, he⟩)
  · intro hp
    induction hp with
    | single p => exact .single p
    | cons _ hl hs ih =>
      obtain ⟨r, hr, he⟩ := (h _ _ _).mpr hs
      exact .cons ih hl hr he

/-! ### C65 -/

variable [Cost K]

/-- Specification: `r` is the answer of a shortest path query from `a` to `b` on a map where the steps are `step`: nothing if there is no path,
otherwise one of minimal cost. -/
def Shortest (step : Prim → Prim → K → Prop) (a b : Prim) (r : Except Unit (Option (Option (List Prim)))) : Prop :=
  (r = .ok (some none) ∧ ∀ ps c, Path step Cost.zero Cost.add ps c → ps.head? = some a → ps.getLast? ≠ some b) ∨
  (∃ ps c, r = .ok (some (some ps)) ∧ Path step Cost.zero Cost.add ps c ∧ ps.head? = some a ∧ ps.getLast? = some b ∧
    ∀ ps' c', Path step Cost.zero Cost.add ps' c' → ps'.head? = some a → ps'.getLast? = some b → Cost.le c c')

section
variable (i : Input P K) (hi : InputOk i) (ok : CostsOk i) (ht : TestsOk i.tests) (g : RGraph Prim K) (hg : build i = some g)
  {pick : Nat → (Nat → K) → List Nat → Nat} (hpick : PickMin pick) (k : Nat) (m : CostModule K) (hk : i.costs[k]? = some m) (areas : Bool)
  (hbox : areas = true → ∀ a b, canDrive i a b = true → boxesMeet i a b = true)
include hi ok ht hg hpick hk hbox

theorem numCosts : k < g.numRoutingCosts := by
  clear hbox hpick ht
  obtain ⟨g2, q1, q2, -⟩ := build_vertices i hi ok
  obtain rfl : g2 = g := by rw [hg] at q1; simpa using q1.symm
  rw [q2]
  exact (List.getElem?_eq_some_iff.mp hk).1

theorem shortest_of_edges (lc : Bool) (step : Prim → Prim → K → Prop)
    (h : ∀ a b c, (∃ r ∈ pathRelations lc areas, HasEdge g a b k r c) ↔ step a b c) (a b : Prim) (ha : Usable i a) (hb : Usable i b) :
    Shortest step a b (g.shortestPath pick a b k lc areas) := by
  have hbd := build_built i hi ok g hg
  rcases Graph.routing_shortestPath ht hbd hpick a b ((usable_iff i hi ok g hg a).mpr ha) ((usable_iff i hi ok g hg b).mpr hb) k
    (numCosts i hi ok ht g hg hpick k m hk areas hbox) lc areas with ⟨h1, h2⟩ | ⟨ps, c, h1, h2, h3, h4, h5⟩
  · exact .inl ⟨h1, fun ps c hp => h2 ps c (path_ppath (fun a b c => (h a b c).mpr) hp)⟩
  · exact .inr ⟨ps, c, h1, ppath_path (fun a b c => (h a b c).mp) h2, h3, h4,
      fun ps' c' hp => h5 ps' c' (path_ppath (fun a b c => (h a b c).mpr) hp)⟩

/-- **C65.** Without lane changes, `shortestPath` on the graph of a map returns the cheapest way to drive from `a` to `b` that the traffic rules
permit, and nothing only if there is none. -/
theorem shortestPath_map (a b : Prim) (ha : Usable i a) (hb : Usable i b) :
    Shortest (Move i m areas) a b (g.shortestPath pick a b k false areas) :=
  shortest_of_edges i hi ok ht g hg hpick k m hk areas hbox false _ (edge_move i hi ok g hg k m hk areas hbox) a b ha hb

/-- **C65.** With lane changes, if neighbours are clear and lane changes have a fixed cost. -/
theorem shortestPath_map_changes (hclear : Clear i) (κ : K) (hκ : ∀ x y, m.change x y = κ) (hfin : i.tests.isFinite κ = true)
    (a b : Prim) (ha : Usable i a) (hb : Usable i b) :
    Shortest (MoveOrChangeFor i m areas κ) a b (g.shortestPath pick a b k true areas) :=
  shortest_of_edges i hi ok ht g hg hpick k m hk areas hbox true _ (edge_change i hi ok g hg k m hk areas hbox hclear κ hκ hfin) a b ha hb

/-- **C65.** With lane changes on any map: a returned path consists of permitted steps, and it is not more expensive than any path without lane
changes; nothing is returned only if there is no path without lane changes. -/
theorem shortestPath_map_changes_partial (a b : Prim) (ha : Usable i a) (hb : Usable i b) :
    (g.shortestPath pick a b k true areas = .ok (some none) ∧
      ∀ ps c, Path (Move i m areas) Cost.zero Cost.add ps c → ps.head? = some a → ps.getLast? ≠ some b) ∨
    (∃ ps c, g.shortestPath pick a b k true areas = .ok (some (some ps)) ∧ Path (MoveOrChange i m areas) Cost.zero Cost.add ps c ∧
      ps.head? = some a ∧ ps.getLast? = some b ∧
      ∀ ps' c', Path (Move i m areas) Cost.zero Cost.add ps' c' → ps'.head? = some a → ps'.getLast? = some b → Cost.le c c') := by
  have hbd := build_built i hi ok g hg
  have hmv : ∀ a b c, Move i m areas a b c → ∃ r ∈ pathRelations true areas, HasEdge g a b k r c := by
    intro a b c h
    obtain ⟨r, hr, he⟩ := (edge_move i hi ok g hg k m hk areas hbox a b c).mpr h
    exact ⟨r, (rels_split i hi ok g hg areas r).mpr (.inl hr), he⟩
  rcases Graph.routing_shortestPath ht hbd hpick a b ((usable_iff i hi ok g hg a).mpr ha) ((usable_iff i hi ok g hg b).mpr hb) k
    (numCosts i hi ok ht g hg hpick k m hk areas hbox) true areas with ⟨h1, h2⟩ | ⟨ps, c, h1, h2, h3, h4, h5⟩
  · exact .inl ⟨h1, fun ps c hp => h2 ps c (path_ppath hmv hp)⟩
  · exact .inr ⟨ps, c, h1, ppath_path (edge_change_sound i hi ok g hg k m hk areas hbox) h2, h3, h4,
      fun ps' c' hp => h5 ps' c' (path_ppath hmv hp)⟩

theorem reachable_of_edges (lc : Bool) (step : Prim → Prim → K → Prop)
    (h : ∀ a b c, (∃ r ∈ pathRelations lc areas, HasEdge g a b k r c) ↔ step a b c) (a : Prim) (ha : Usable i a) (limit : K) :
    (∃ r, g.reachableSet pick false a limit k (pathView lc areas) = .ok (some r) ∧ r.Nodup ∧
      ∀ q, q ∈ r ↔ ∃ ps c, Path step Cost.zero Cost.add ps c ∧ ps.head? = some a ∧ ps.getLast? = some q ∧ Cost.le c limit) ∧
    (∃ r, g.reachableSet pick true a limit k (pathView lc areas) = .ok (some r) ∧ r.Nodup ∧
      ∀ q, q ∈ r ↔ ∃ ps c, PathTo step Cost.zero Cost.add ps c ∧ ps.head? = some q ∧ ps.getLast? = some a ∧ Cost.le c limit) := by
  have hbd := build_built i hi ok g hg
  have hv := (usable_iff i hi ok g hg a).mpr ha
  have hn := numCosts i hi ok ht g hg hpick k m hk areas hbox
  obtain ⟨r, r1, r2, r3⟩ := Graph.routing_reachableSet ht hbd hpick a hv k hn limit lc areas
  obtain ⟨s, s1, s2, s3⟩ := Graph.routing_reachableSetTowards ht hbd hpick a hv k hn limit lc areas
  refine ⟨⟨r, r1, r2, fun q => ?_⟩, s, s1, s2, fun q => ?_⟩
  · rw [r3]
    constructor
    · rintro ⟨ps, c, h1, h2⟩; exact ⟨ps, c, ppath_path (fun a b c => (h a b c).mp) h1, h2⟩
    · rintro ⟨ps, c, h1, h2⟩; exact ⟨ps, c, path_ppath (fun a b c => (h a b c).mpr) h1, h2⟩
  · rw [s3]
    constructor
    · rintro ⟨ps, c, h1, h2⟩; exact ⟨ps, c, (ppathTo_pathTo h).mp h1, h2⟩
    · rintro ⟨ps, c, h1, h2⟩; exact ⟨ps, c, (ppathTo_pathTo h).mpr h1, h2⟩

/-- **C65.** Without lane changes, `reachableSet` returns exactly the lanelets (and areas) to which one may drive for at most this cost, and
`reachableSetTowards` those from which one may drive here. -/
theorem reachableSet_map (a : Prim) (ha : Usable i a) (limit : K) :
    (∃ r, g.reachableSet pick false a limit k (pathView false areas) = .ok (some r) ∧ r.Nodup ∧ ∀ q, q ∈ r ↔
      ∃ ps c, Path (Move i m areas) Cost.zero Cost.add ps c ∧ ps.head? = some a ∧ ps.getLast? = some q ∧ Cost.le c limit) ∧
    (∃ r, g.reachableSet pick true a limit k (pathView false areas) = .ok (some r) ∧ r.Nodup ∧ ∀ q, q ∈ r ↔
      ∃ ps c, PathTo (Move i m areas) Cost.zero Cost.add ps c ∧ ps.head? = some q ∧ ps.getLast? = some a ∧ Cost.le c limit) :=
  reachable_of_edges i hi ok ht g hg hpick k m hk areas hbox false _ (edge_move i hi ok g hg k m hk areas hbox) a ha limit

/-- **C65.** The same with lane changes, if neighbours are clear and lane changes have a fixed cost. -/
theorem reachableSet_map_changes (hclear : Clear i) (κ : K) (hκ : ∀ x y, m.change x y = κ) (hfin : i.tests.isFinite κ = true)
    (a : Prim) (ha : Usable i a) (limit : K) :
    (∃ r, g.reachableSet pick false a limit k (pathView true areas) = .ok (some r) ∧ r.Nodup ∧ ∀ q, q ∈ r ↔
      ∃ ps c, Path (MoveOrChangeFor i m areas κ) Cost.zero Cost.add ps c ∧ ps.head? = some a ∧ ps.getLast? = some q ∧ Cost.le c limit) ∧
    (∃ r, g.reachableSet pick true a limit k (pathView true areas) = .ok (some r) ∧ r.Nodup ∧ ∀ q, q ∈ r ↔
      ∃ ps c, PathTo (MoveOrChangeFor i m areas κ) Cost.zero Cost.add ps c ∧ ps.head? = some q ∧ ps.getLast? = some a ∧ Cost.le c limit) :=
  reachable_of_edges i hi ok ht g hg hpick k m hk areas hbox true _ (edge_change i hi ok g hg k m hk areas hbox hclear κ hκ hfin) a ha limit

end

/-! ### examples -/

theorem exInput_tests : TestsOk exInput.tests := fun c _ _ => Nat.zero_le c

/-- Case: in the map of `Verif.Build`, lanelet 2 follows lanelet 0 for a cost of 3. -/
example : ∃ g, build exInput = some g ∧ ∃ ps c, g.shortestPath Search.exPick (.inl ⟨0, false⟩) (.inl ⟨2, false⟩) 0 false false = .ok (some (some ps)) ∧
    Path (Move exInput ⟨fun _ _ => 3, fun _ _ => 2⟩ false) Cost.zero Cost.add ps c ∧ Cost.le c 3 := by
  obtain ⟨g, hg, -⟩ := build_vertices exInput exInput_ok.1 exInput_ok.2
  have hp : Path (Move exInput ⟨fun _ _ => 3, fun _ _ => 2⟩ false) Cost.zero Cost.add ([.inl ⟨0, false⟩] ++ [.inl ⟨2, false⟩]) (Cost.add Cost.zero 3) :=
    .snoc (.single _) rfl (.ahead ⟨0, false⟩ ⟨2, false⟩ (by decide) (by decide) (by decide) (by decide) (by decide))
  rcases shortestPath_map exInput exInput_ok.1 exInput_ok.2 exInput_tests g hg Search.exPick_min 0 _ rfl false (fun h => by cases h)
    (.inl ⟨0, false⟩) (.inl ⟨2, false⟩) (by show InGraph _ _; decide) (by show InGraph _ _; decide) with ⟨-, h⟩ | ⟨ps, c, h1, h2, -, -, h5⟩
  · exact absurd rfl (h _ _ hp rfl)
  · exact ⟨g, hg, ps, c, h1, h2, h5 _ _ hp rfl rfl⟩

/-- Case: from there both lanelets are within 3. -/
example : ∃ g r, build exInput = some g ∧ g.reachableSet Search.exPick false (.inl ⟨0, false⟩) 3 0 (pathView false false) = .ok (some r) ∧
    .inl ⟨2, false⟩ ∈ r := by
  obtain ⟨g, hg, -⟩ := build_vertices exInput exInput_ok.1 exInput_ok.2
  have hp : Path (Move exInput ⟨fun _ _ => 3, fun _ _ => 2⟩ false) Cost.zero Cost.add ([.inl ⟨0, false⟩] ++ [.inl ⟨2, false⟩]) (Cost.add Cost.zero 3) :=
    .snoc (.single _) rfl (.ahead ⟨0, false⟩ ⟨2, false⟩ (by decide) (by decide) (by decide) (by decide) (by decide))
  obtain ⟨⟨r, r1, -, r3⟩, -⟩ := reachableSet_map exInput exInput_ok.1 exInput_ok.2 exInput_tests g hg Search.exPick_min 0 _ rfl false
    (fun h => by cases h) (.inl ⟨0, false⟩) (by show InGraph _ _; decide) 3
  exact ⟨g, r, hg, r1, (r3 _).mpr ⟨_, _, hp, rfl, rfl, Nat.le_refl 3⟩⟩

/-- Example: lanelets 1 and 2 are both to the right of lanelet 0. -/
def exTwo : Input Nat Nat :=
  { exInput with
    w := { exWorld with
      lls := fun n => if n = 0 then ⟨⟨0, false⟩, ⟨1, false⟩, [], none⟩ else if n = 1 then ⟨⟨1, false⟩, ⟨2, false⟩, [], none⟩
        else ⟨⟨1, false⟩, ⟨5, false⟩, [], none⟩ }
    lanelets := [⟨0, false⟩, ⟨1, false⟩, ⟨2, false⟩]
    areas := []
    rules := ⟨fun l => !l.inv, fun _ => true, fun _ _ => true, fun _ _ => false, fun _ _ => false, fun _ _ => false, fun a b => a.data == 0 && b.data != 0⟩
    overlapsLL := fun _ _ => false }

theorem exTwo_ok : InputOk exTwo ∧ CostsOk exTwo := by
  refine ⟨⟨by decide, by decide, by decide, by decide, fun l => List.reverse_perm l, fun l => List.reverse_perm l,
    fun l => List.Perm.refl l, fun l => List.reverse_perm l⟩, by decide, by decide, ?_, ?_⟩
  · intro c _ a b; rfl
  · intro c _ a b; rfl

/-- With lane changes, the shortest path is not always found: if two lanelets are to the right of a lanelet (they share its right bound) and the lane
may be changed to both, there is no path to one of them. Only one lane change per lanelet and side is entered in the graph. -/
theorem shortestPath_map_changes_counterexample :
    LaneChange exTwo ⟨0, false⟩ ⟨1, false⟩ ∧ LaneChange exTwo ⟨0, false⟩ ⟨2, false⟩ ∧
    ∃ g, build exTwo = some g ∧ ∃ b : LH, (b = ⟨1, false⟩ ∨ b = ⟨2, false⟩) ∧
      g.shortestPath Search.exPick (.inl ⟨0, false⟩) (.inl b) 0 true false = .ok (some none) := by
  refine ⟨by unfold LaneChange; decide, by unfold LaneChange; decide, ?_⟩
  obtain ⟨g, hg, -⟩ := build_vertices exTwo exTwo_ok.1 exTwo_ok.2
  refine ⟨g, hg, ?_⟩
  have hbd := build_built exTwo exTwo_ok.1 exTwo_ok.2 g hg
  have ht : TestsOk exTwo.tests := fun c _ _ => Nat.zero_le c
  have hall : allLanelets exTwo = [⟨0, false⟩, ⟨1, false⟩, ⟨2, false⟩] := by decide
  -- an edge to a lanelet is the lane change from lanelet 0 to the right
  have into : ∀ (p : Prim) (b : LH) (r : RelationType) (c : Nat), r ∈ pathRelations true false → HasEdge g p (.inl b) 0 r c →
      (⟨c, 0, r⟩ : EdgeInfo Nat) ∈ edgesOf g (.inl ⟨0, false⟩) (.inl b) ∧ r = Right := by
    intro p b r c hr he
    have hmem := (hasEdge_iff_mem hbd p (.inl b) 0 r c).mp he
    have hdec : ∀ x ∈ [(⟨0, false⟩ : LH), ⟨1, false⟩, ⟨2, false⟩], ∀ y ∈ [(⟨0, false⟩ : LH), ⟨1, false⟩, ⟨2, false⟩],
        follows exTwo.w x y = false ∧ (x ≠ y → exTwo.rules.change x y = true → x = ⟨0, false⟩ ∧ ¬ Beside exTwo true x y) := by decide
    have hin : ∀ x, InGraph exTwo x → x ∈ [(⟨0, false⟩ : LH), ⟨1, false⟩, ⟨2, false⟩] := by
      intro x hx
      rw [← hall]
      exact (mem_allLanelets exTwo exTwo_ok.1 x).mpr hx
    rcases (rels_split exTwo exTwo_ok.1 exTwo_ok.2 g hg false r).mp hr with h' | ⟨isLeft, rfl⟩
    · have hm := (edge_move exTwo exTwo_ok.1 exTwo_ok.2 g hg 0 _ rfl false (fun h => by cases h) p (.inl b) c).mp ⟨r, h', he⟩
      cases hm with
      | ahead x y h1 h2 h3 _ _ => rw [(hdec x (hin x h1) b (hin b h2)).1] at h3; cases h3
      | area _ _ h => cases h
    · obtain ⟨x, y, rfl, hy, h1, h2, h3, h4, h5, -⟩ := laneChange_sound exTwo exTwo_ok.1 exTwo_ok.2 g hg isLeft p (.inl b) _ hmem rfl
      obtain rfl := Sum.inl.inj hy
      obtain ⟨rfl, hn⟩ := (hdec x (hin x h1) b (hin b h2)).2 h3 h5
      cases isLeft with
      | true => exact absurd h4 hn
      | false => exact ⟨hmem, rfl⟩
  have none_of : ∀ b : LH, (⟨0, false⟩ : LH) ≠ b → (.inl b : Prim) ∈ g.vertices → (∀ x ∈ edgesOf g (.inl ⟨0, false⟩) (.inl b), x.relation ≠ Right) →
      g.shortestPath Search.exPick (.inl ⟨0, false⟩) (.inl b) 0 true false = .ok (some none) := by
    intro b hne hb hno
    rcases Graph.routing_shortestPath ht hbd Search.exPick_min (.inl ⟨0, false⟩) (.inl b)
      ((usable_iff exTwo exTwo_ok.1 exTwo_ok.2 g hg (.inl ⟨0, false⟩)).mpr (by show InGraph _ _; decide)) hb 0
      (numCosts exTwo exTwo_ok.1 exTwo_ok.2 ht g hg Search.exPick_min 0 _ rfl false (fun h => by cases h)) true false
      with ⟨h1, -⟩ | ⟨ps, c, -, h2, h3, h4, -⟩
    · exact h1
    · exfalso
      cases h2 with
      | single p =>
        simp only [List.head?_cons, List.getLast?_singleton, Option.some.injEq] at h3 h4
        rw [h3] at h4
        exact hne (Sum.inl.inj h4)
      | snoc _ _ hr he =>
        simp only [List.getLast?_append, List.getLast?_singleton, Option.some_or, Option.some.injEq] at h4
        subst h4
        obtain ⟨h5, rfl⟩ := into _ _ _ _ hr he
        exact hno _ h5 rfl
  have hv : ∀ b : LH, InGraph exTwo b → (.inl b : Prim) ∈ g.vertices := fun b h => (usable_iff exTwo exTwo_ok.1 exTwo_ok.2 g hg (.inl b)).mpr h
  by_cases h1 : ∀ x ∈ edgesOf g (.inl ⟨0, false⟩) (.inl ⟨1, false⟩), x.relation ≠ Right
  · exact ⟨⟨1, false⟩, .inl rfl, none_of _ (by decide) (hv _ (by decide)) h1⟩
  · refine ⟨⟨2, false⟩, .inr rfl, none_of _ (by decide) (hv _ (by decide)) fun x hx hr => h1 fun y hy hr' => ?_⟩
    have := laneChange_unique exTwo exTwo_ok.1 exTwo_ok.2 g hg false _ _ _ x y hx hy hr hr'
    exact absurd this (by decide)

end Verif.Plan
