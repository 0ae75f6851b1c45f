import Verif.Plan.Vehicle
import Verif.Graph.Queries

/-!
C67: the other queries of the routing graph in terms of the map, for the traffic rules and cost modules of the library: following and previous
lanelets, neighbours, conflicts, possible paths and paths over given lanelets.
-/
set_option linter.unusedSectionVars false
namespace Verif.Plan
open Verif.Graph (RGraph pathView TestsOk HasEdge pathRelations Arc Trail Reach PBelow RelationType joinLegs Connected Cheapest PPath)
open Verif.Graph.RelationType
open Verif.Search (Cost PickMin PossiblePathsParams)
open Verif.Lanelet (LH World points leftBound rightBound follows leftOf rightOf invertL follows_spec leftOf_spec)
open Verif.Build
open Verif.Cost (Dbl Module dblTests distanceModule timeModule)
open Verif.Rules (Env canPass canChangeLane canPass_iff canChangeLane_iff OneWayFor Allowed MayCross TagsComplete Sorted)

variable {P V F : Type} [DecidableEq P] [Field F] [LinearOrder F] [IsStrictOrderedRing F]

/-! ### specification -/

/-- Specification. `b` is directly on the left (right) of `a`: they share a bound. -/
def Side (w : World P) (isLeft : Bool) (a b : LH) : Prop :=
  if isLeft then leftBound w a = rightBound w b else rightBound w a = leftBound w b

/-- Specification. Direct neighbours are the only ones on their side and are connected in no other way (they do not follow, overlap or coincide). -/
def Tidy (i : Input P (Dbl F)) (e : Env P V) (r : Rules.Rules V) : Prop :=
  ∀ isLeft a b, MayDrive e r i.lanelets a → MayDrive e r i.lanelets b → a ≠ b → Side e.w isLeft a b →
    ¬ Side e.w (!isLeft) a b ∧ ¬ Joins e.w a b ∧ i.overlapsLL a b = false ∧ i.overlapsLL b a = false ∧ b ≠ invertL a ∧
      ∀ b', MayDrive e r i.lanelets b' → b' ≠ a → Side e.w isLeft a b' → b' = b

/-- Specification. One step of a trip. -/
def StepL (e : Env P V) (r : Rules.Rules V) (lanelets : List LH) (value : LH → F) (lc : Bool) (κ : F) (a b : LH) (w : F) : Prop :=
  MayDrive e r lanelets a ∧ MayDrive e r lanelets b ∧
    ((Joins e.w a b ∧ w = (value a + value b) / 2) ∨ (lc = true ∧ a ≠ b ∧ MayChange e r a b ∧ w = κ))

/-- the relation of the edges to a neighbour, RoutingGraph.cpp 492-512 -/
def sideRel (isLeft adjacent : Bool) : RelationType :=
  if adjacent then if isLeft then Graph.adjacentLeft else Graph.adjacentRight
  else if isLeft then Graph.left else Graph.right

/-- what tells lanelets from areas. RoutingGraph.cpp 180-191 -/
def isLL : Prim → Bool
  | .inl _ => true
  | .inr _ => false

/-! ### steps -/

section
variable {i : Input P (Dbl F)} {e : Env P V} {r : Rules.Rules V} {k : Nat} {m : CostModule (Dbl F)} {value : LH → F} (S : Setup i e r k m value)
include S

theorem beside_iff (isLeft : Bool) (a b : LH) : Beside i isLeft a b ↔ Side e.w isLeft a b := by
  unfold Beside Side
  rw [S.world]
  cases isLeft with
  | true =>
    simp only [if_true]
    rw [(leftOf_spec e.w b a).1]
    exact eq_comm
  | false =>
    simp only [Bool.false_eq_true, if_false]
    rw [(leftOf_spec e.w a b).2.2, (leftOf_spec e.w a b).1]

theorem side_symm (isLeft : Bool) (a b : LH) : Side e.w isLeft a b ↔ Side e.w (!isLeft) b a := by
  unfold Side
  cases isLeft <;> simp [eq_comm]

theorem change_iff (a b : LH) (ha : MayDrive e r i.lanelets a) (hb : MayDrive e r i.lanelets b) :
    i.rules.change a b = true ↔ MayChange e r a b := by
  have hc := canChangeLane_iff e r a b (S.tags _) (S.tags _)
  rw [S.rules]
  constructor
  · intro h; exact (hc.mp h).2.2
  · intro h
    exact hc.mpr ⟨passes_of S _ ((mayDrive_iff S _).mpr ha), passes_of S _ ((mayDrive_iff S _).mpr hb), h⟩

theorem arcs_iff (g : RGraph Prim (Dbl F)) (hg : build i = some g) (lc : Bool) (κ : F) (hch : ChangesOk i m lc κ) (backw : Bool)
    (p q : Prim) (c : Dbl F) : (∃ rel ∈ pathRelations lc false, Arc g k backw p q rel c) ↔
      ∃ a b w, p = .inl a ∧ q = .inl b ∧ c = .fin w ∧
        StepL e r i.lanelets value lc κ (if backw then b else a) (if backw then a else b) w := by
  have key : ∀ p q : Prim, tripStep e r i.lanelets value lc κ p q c ↔
      ∃ a b w, p = .inl a ∧ q = .inl b ∧ c = .fin w ∧ StepL e r i.lanelets value lc κ a b w := by
    intro p q
    constructor
    · rintro ⟨a, b, h1, h2, h3, h4, ⟨h5, h6⟩ | ⟨h5, h6, h7, h8⟩⟩
      · exact ⟨a, b, _, h1, h2, h6, h3, h4, .inl ⟨h5, rfl⟩⟩
      · exact ⟨a, b, _, h1, h2, h8, h3, h4, .inr ⟨h5, h6, h7, rfl⟩⟩
    · rintro ⟨a, b, w, h1, h2, h3, h4, h5, ⟨h6, h7⟩ | ⟨h6, h7, h8, h9⟩⟩
      · exact ⟨a, b, h1, h2, h4, h5, .inl ⟨h6, by rw [h3, h7]⟩⟩
      · exact ⟨a, b, h1, h2, h4, h5, .inr ⟨h6, h7, h8, by rw [h3, h9]⟩⟩
  cases backw with
  | false =>
    show (∃ rel ∈ pathRelations lc false, HasEdge g p q k rel c) ↔ _
    rw [edges_steps S g hg lc κ hch, key]
    simp
  | true =>
    show (∃ rel ∈ pathRelations lc false, HasEdge g q p k rel c) ↔ _
    rw [edges_steps S g hg lc κ hch, key]
    simp only [if_true]
    constructor
    · rintro ⟨a, b, w, h1, h2, h3, h4⟩; exact ⟨b, a, w, h2, h1, h3, h4⟩
    · rintro ⟨a, b, w, h1, h2, h3, h4⟩; exact ⟨b, a, w, h2, h1, h3, h4⟩

/-! ### trips -/

theorem trip_ne {lc : Bool} {κ : F} {ds : List LH} {x : F} (h : Trip e r i.lanelets value lc κ ds x) : ds ≠ [] := by
  cases h <;> simp

theorem trip_snoc {lc : Bool} {κ : F} {ds : List LH} {x w : F} {a b : LH} (h : Trip e r i.lanelets value lc κ ds x)
    (hl : ds.getLast? = some a) (hs : StepL e r i.lanelets value lc κ a b w) : Trip e r i.lanelets value lc κ (ds ++ [b]) (x + w) := by
  obtain ⟨-, h2, ⟨h3, rfl⟩ | ⟨h3, h4, h5, rfl⟩⟩ := hs
  · exact .ahead b h hl h2 h3
  · exact .change b h3 h hl h2 h4 h5

theorem trip_cons {lc : Bool} {κ : F} {ds : List LH} {x : F} (h : Trip e r i.lanelets value lc κ ds x) :
    ∀ {w : F} {a b : LH}, ds.head? = some b → StepL e r i.lanelets value lc κ a b w → Trip e r i.lanelets value lc κ (a :: ds) (w + x) := by
  have key : ∀ {ds : List LH} {c : F} {a b : LH}, ds ≠ [] → (ds ++ [b]).head? = some a → ds.head? = some a := by
    intro ds c a b hne h
    cases ds with
    | nil => exact absurd rfl hne
    | cons => simpa using h
  induction h with
  | start b hb =>
    intro w a b' hh hs
    simp only [List.head?_cons, Option.some.injEq] at hh
    subst hh
    have := trip_snoc S (.start a hs.1) (by simp) hs
    rw [add_comm] at this
    exact this
  | ahead b ht hl hb hj ih =>
    intro w a b' hh hs
    have := ih (key (c := 0) (trip_ne S ht) hh) hs
    have := Trip.ahead b this (a := _) (by rw [List.getLast?_cons, hl]; rfl) hb hj
    rw [add_assoc] at this
    exact this
  | change b hlc ht hl hb hne hj ih =>
    intro w a b' hh hs
    have := ih (key (c := 0) (trip_ne S ht) hh) hs
    have := Trip.change b hlc this (a := _) (by rw [List.getLast?_cons, hl]; rfl) hb hne hj
    rw [add_assoc] at this
    exact this

theorem trip_unsnoc {lc : Bool} {κ : F} {ds : List LH} {x : F} (h : Trip e r i.lanelets value lc κ ds x) :
    (∃ a, ds = [a] ∧ x = 0) ∨ ∃ ds' x' w a b, ds = ds' ++ [b] ∧ ds'.getLast? = some a ∧ Trip e r i.lanelets value lc κ ds' x' ∧
      StepL e r i.lanelets value lc κ a b w ∧ x = x' + w := by
  cases h with
  | start a ha => exact .inl ⟨a, rfl, rfl⟩
  | ahead b ht hl hb hj =>
    exact .inr ⟨_, _, _, _, b, rfl, hl, ht, ⟨trip_mayDrive S ht _ (List.mem_of_getLast? hl), hb, .inl ⟨hj, rfl⟩⟩, rfl⟩
  | change b hlc ht hl hb hne hj =>
    exact .inr ⟨_, _, _, _, b, rfl, hl, ht, ⟨trip_mayDrive S ht _ (List.mem_of_getLast? hl), hb, .inr ⟨hlc, hne, hj, rfl⟩⟩, rfl⟩

theorem trip_uncons {lc : Bool} {κ : F} {ds : List LH} {x : F} (h : Trip e r i.lanelets value lc κ ds x) :
    (∃ a, ds = [a] ∧ x = 0) ∨ ∃ ds' x' w a b, ds = a :: ds' ∧ ds'.head? = some b ∧ Trip e r i.lanelets value lc κ ds' x' ∧
      StepL e r i.lanelets value lc κ a b w ∧ x = x' + w := by
  have key : ∀ (ds : List LH) (x : F), Trip e r i.lanelets value lc κ ds x → ∀ (b : LH) (a : LH) (w : F), ds.getLast? = some a →
      StepL e r i.lanelets value lc κ a b w → (ds ++ [b] = [b] ∧ x = 0) ∨ ∃ ds' x' w' a' b', ds ++ [b] = a' :: ds' ∧ ds'.head? = some b' ∧
        Trip e r i.lanelets value lc κ ds' x' ∧ StepL e r i.lanelets value lc κ a' b' w' ∧ x + w = x' + w' := by
    intro ds
    induction hlen : ds.length generalizing ds with
    | zero =>
      intro x h
      exact absurd (List.length_eq_zero_iff.1 hlen) (trip_ne S h)
    | succ n ih =>
      intro x h b a w hl hs
      right
      rcases trip_unsnoc S h with ⟨a0, rfl, rfl⟩ | ⟨ds0, x0, w0, a0, b0, rfl, hl0, h0, hs0, rfl⟩
      · simp only [List.getLast?_singleton, Option.some.injEq] at hl
        subst hl
        exact ⟨[b], 0, w, a0, b, rfl, rfl, .start b hs.2.1, hs, by ring⟩
      · obtain rfl : b0 = a := by simpa using hl
        rcases ih ds0 (by simpa using hlen) x0 h0 b0 a0 w0 hl0 hs0 with ⟨h1, -⟩ | ⟨ds', x', w', a', b', h1, h2, h3, h4, h5⟩
        · exfalso
          have := congrArg List.length h1
          have hne := trip_ne S h0
          cases ds0 with
          | nil => exact hne rfl
          | cons => simp at this
        · have hl' : ds'.getLast? = some b0 := by
            have := congrArg List.getLast? h1
            rw [List.getLast?_concat, List.getLast?_cons] at this
            cases hd : ds'.getLast? with
            | none => rw [List.getLast?_eq_none_iff] at hd; rw [hd] at h2; cases h2
            | some y => rw [hd] at this; simpa using this.symm
          refine ⟨ds' ++ [b], x' + w, w', a', b', by rw [h1]; rfl, ?_, trip_snoc S h3 hl' hs, h4, by rw [h5]; ring⟩
          cases ds' with
          | nil => cases h2
          | cons => simpa using h2
  rcases trip_unsnoc S h with h | ⟨ds', x', w, a, b, rfl, h2, h3, h4, rfl⟩
  · exact .inl h
  · rcases key ds' x' h3 b a w h2 h4 with ⟨h5, -⟩ | h5
    · exfalso
      have := congrArg List.length h5
      have hne := trip_ne S h3
      cases ds' with
      | nil => exact hne rfl
      | cons => simp at this
    · exact .inr h5

/-- trails from `a` are trips, read in the direction of driving -/
theorem trail_trip (g : RGraph Prim (Dbl F)) (hg : build i = some g) (lc : Bool) (κ : F) (hch : ChangesOk i m lc κ) (backw : Bool)
    {a : LH} (ha : MayDrive e r i.lanelets a) {ps : List Prim} {c : Dbl F}
    (h : Trail g k backw (pathRelations lc false) ps c) (hh : ps.head? = some (.inl a)) :
    ∃ ds x, ps = ds.map .inl ∧ c = .fin x ∧ Trip e r i.lanelets value lc κ (if backw then ds.reverse else ds) x := by
  induction h with
  | single p =>
    simp only [List.head?_cons, Option.some.injEq] at hh
    subst hh
    exact ⟨[a], 0, rfl, rfl, by cases backw <;> exact .start a ha⟩
  | snoc hp hl hr harc ih =>
    rename_i ps c w p q rel
    obtain ⟨ds, x, rfl, rfl, h1⟩ := ih (by
      cases ps with
      | nil => simp at hl
      | cons y ps => simpa using hh)
    obtain ⟨la, lb, y, rfl, rfl, rfl, hs⟩ := (arcs_iff S g hg lc κ hch backw p q w).mp ⟨rel, hr, harc⟩
    have hl' : ds.getLast? = some la := by
      rw [List.getLast?_map] at hl
      obtain ⟨z, hz, hz'⟩ := Option.map_eq_some_iff.1 hl
      cases hz'; exact hz
    refine ⟨ds ++ [lb], x + y, by simp, rfl, ?_⟩
    cases backw with
    | false => exact trip_snoc S h1 hl' hs
    | true =>
      simp only [if_true, List.reverse_append, List.reverse_cons, List.reverse_nil, List.nil_append, List.singleton_append] at h1 hs ⊢
      rw [add_comm]
      exact trip_cons S h1 (by rw [List.head?_reverse]; exact hl') hs

theorem reach_trip (g : RGraph Prim (Dbl F)) (hg : build i = some g) (lc : Bool) (κ : F) (hch : ChangesOk i m lc κ) (backw : Bool)
    {a : LH} (ha : MayDrive e r i.lanelets a) {B : Prim → Prop} {p : Prim} {c : Dbl F}
    (h : Reach g k backw (pathRelations lc false) B (.inl a) c p) :
    ∃ b ds x, p = .inl b ∧ c = .fin x ∧ Trip e r i.lanelets value lc κ ds x ∧ ds.head? = some (if backw then b else a) ∧
      ds.getLast? = some (if backw then a else b) := by
  induction h with
  | nil => exact ⟨a, [a], 0, rfl, rfl, .start a ha, by cases backw <;> rfl, by cases backw <;> rfl⟩
  | snoc hp hb hr harc ih =>
    obtain ⟨b, ds, x, rfl, rfl, h1, h2, h3⟩ := ih
    obtain ⟨la, lb, y, hla, rfl, rfl, hs⟩ := (arcs_iff S g hg lc κ hch backw _ _ _).mp ⟨_, hr, harc⟩
    cases hla
    have hne := trip_ne S h1
    cases backw with
    | false =>
      refine ⟨lb, ds ++ [lb], x + y, rfl, rfl, trip_snoc S h1 h3 hs, ?_, by simp⟩
      rw [List.head?_append_of_ne_nil _ hne]; exact h2
    | true =>
      refine ⟨lb, lb :: ds, x + y, rfl, rfl, ?_, rfl, ?_⟩
      · rw [add_comm]; exact trip_cons S h1 h2 hs
      · rw [List.getLast?_cons, h3]; rfl

/-- what can be reached by trips whose parts end where B holds -/
theorem trip_reach (g : RGraph Prim (Dbl F)) (hg : build i = some g) (lc : Bool) (κ : F) (hch : ChangesOk i m lc κ) (backw : Bool)
    (a : LH) {B : Prim → Prop} : ∀ (ds : List LH) (x : F) (b : LH), Trip e r i.lanelets value lc κ ds x →
      ds.head? = some (if backw then b else a) → ds.getLast? = some (if backw then a else b) →
      (∀ ds' x' b', ds'.length < ds.length → Trip e r i.lanelets value lc κ ds' x' → x' ≤ x → ds'.head? = some (if backw then b' else a) →
        ds'.getLast? = some (if backw then a else b') → B (.inl b')) →
      (∀ u v w, StepL e r i.lanelets value lc κ u v w → 0 ≤ w) →
      Reach g k backw (pathRelations lc false) B (.inl a) (.fin x) (.inl b) := by
  intro ds
  induction hlen : ds.length generalizing ds with
  | zero => intro x b h; exact absurd (List.length_eq_zero_iff.1 hlen) (trip_ne S h)
  | succ n ih =>
    intro x b h h1 h2 hB hpos
    cases backw with
    | false =>
      simp only [Bool.false_eq_true, if_false] at h1 h2 hB ih
      rcases trip_unsnoc S h with ⟨c, rfl, rfl⟩ | ⟨ds', x', w, c, d, rfl, k1, k2, k3, rfl⟩
      · have e1 : c = a := by simpa using h1
        have e2 : c = b := by simpa using h2
        rw [← e2, e1]; exact .nil
      · obtain rfl : d = b := by simpa using h2
        have hne := trip_ne S k2
        have hh : ds'.head? = some a := by rw [← h1, List.head?_append_of_ne_nil _ hne]
        have hw := hpos _ _ _ k3
        have hlen' : ds'.length = n := by simpa using hlen
        have r1 := ih ds' hlen' x' c k2 hh k1
          (fun ds'' x'' b' l1 l2 l3 => hB ds'' x'' b' (by omega) l2 (by linarith)) hpos
        obtain ⟨rel, hr, harc⟩ := (arcs_iff S g hg lc κ hch false (.inl c) (.inl d) (.fin w)).mpr ⟨c, d, w, rfl, rfl, rfl, k3⟩
        exact .snoc r1 (hB ds' x' c (by omega) k2 (by linarith) hh k1) hr harc
    | true =>
      simp only [if_true] at h1 h2 hB ih
      rcases trip_uncons S h with ⟨c, rfl, rfl⟩ | ⟨ds', x', w, d, c, rfl, k1, k2, k3, rfl⟩
      · have e1 : c = b := by simpa using h1
        have e2 : c = a := by simpa using h2
        rw [← e1, e2]; exact .nil
      · obtain rfl : d = b := by simpa using h1
        have hne := trip_ne S k2
        have hh : ds'.getLast? = some a := by
          rw [List.getLast?_cons] at h2
          cases hd : ds'.getLast? with
          | none => rw [List.getLast?_eq_none_iff] at hd; exact absurd hd hne
          | some y => rw [hd] at h2; simpa using h2
        have hw := hpos _ _ _ k3
        have hlen' : ds'.length = n := by simpa using hlen
        have r1 := ih ds' hlen' x' c k2 k1 hh
          (fun ds'' x'' b' l1 l2 l3 => hB ds'' x'' b' (by omega) l2 (by linarith)) hpos
        obtain ⟨rel, hr, harc⟩ := (arcs_iff S g hg lc κ hch true (.inl c) (.inl d) (.fin w)).mpr ⟨c, d, w, rfl, rfl, rfl, k3⟩
        exact .snoc r1 (hB ds' x' c (by omega) k2 (by linarith) k1 hh) hr harc

theorem step_nonneg (lc : Bool) (κ : F) (hch : ChangesOk i m lc κ) (u v : LH) (w : F) (h : StepL e r i.lanelets value lc κ u v w) : 0 ≤ w := by
  have hm := List.mem_of_getElem? S.module
  obtain ⟨-, -, ⟨-, rfl⟩ | ⟨hlc, -, -, rfl⟩⟩ := h
  · have := S.costs.succ m hm (.inl u) (.inl v)
    rw [S.succ, S.tests] at this
    simpa [dblTests, Dbl.negative] using this
  · have := S.costs.change m hm [] []
    rw [(hch hlc).2, S.tests] at this
    simpa [dblTests, Dbl.negative] using this

/-! ### queries -/

/-- **C67.** following and previous: exactly the lanelets on which the participant may drive and whose bounds begin (end) where those of the lanelet
end (begin); with lane changes also those to (from) which a lane change is permitted. -/
theorem following_trip (hk : k = 0) (g : RGraph Prim (Dbl F)) (hg : build i = some g) (lc : Bool) (κ : F) (hch : ChangesOk i m lc κ) (a : LH) (q : Prim) :
    (q ∈ g.following isLL (.inl a) lc ↔ ∃ b, q = .inl b ∧ MayDrive e r i.lanelets a ∧ MayDrive e r i.lanelets b ∧
      (Joins e.w a b ∨ (lc = true ∧ a ≠ b ∧ MayChange e r a b))) ∧
    (q ∈ g.previous isLL (.inl a) lc ↔ ∃ b, q = .inl b ∧ MayDrive e r i.lanelets a ∧ MayDrive e r i.lanelets b ∧
      (Joins e.w b a ∨ (lc = true ∧ b ≠ a ∧ MayChange e r b a))) := by
  subst hk
  have hb := build_built i S.input S.costs g hg
  have hrel : Graph.followRelations lc = pathRelations lc false := by cases lc <;> rfl
  have hstep : ∀ p q : Prim, (∃ rel ∈ pathRelations lc false, ∃ c, HasEdge g p q 0 rel c) ↔
      ∃ a b, p = .inl a ∧ q = .inl b ∧ MayDrive e r i.lanelets a ∧ MayDrive e r i.lanelets b ∧
        (Joins e.w a b ∨ (lc = true ∧ a ≠ b ∧ MayChange e r a b)) := by
    intro p q
    constructor
    · rintro ⟨rel, hr, c, he⟩
      obtain ⟨a, b, w, h1, h2, -, h3, h4, h5⟩ := (arcs_iff S g hg lc κ hch false p q c).mp ⟨rel, hr, he⟩
      refine ⟨a, b, h1, h2, h3, h4, ?_⟩
      rcases h5 with h5 | h5
      · exact .inl h5.1
      · exact .inr ⟨h5.1, h5.2.1, h5.2.2.1⟩
    · rintro ⟨a, b, rfl, rfl, h3, h4, h5⟩
      rcases h5 with h5 | ⟨h5, h6, h7⟩
      · obtain ⟨rel, hr, he⟩ := (arcs_iff S g hg lc κ hch false (.inl a) (.inl b) _).mpr ⟨a, b, _, rfl, rfl, rfl, h3, h4, .inl ⟨h5, rfl⟩⟩
        exact ⟨rel, hr, _, he⟩
      · obtain ⟨rel, hr, he⟩ := (arcs_iff S g hg lc κ hch false (.inl a) (.inl b) _).mpr ⟨a, b, _, rfl, rfl, rfl, h3, h4, .inr ⟨h5, h6, h7, rfl⟩⟩
        exact ⟨rel, hr, _, he⟩
  constructor
  · rw [Graph.following_exact hb, hrel, hstep]
    constructor
    · rintro ⟨-, a', b, h1, h2, h3⟩
      cases h1
      exact ⟨b, h2, h3⟩
    · rintro ⟨b, rfl, h⟩
      exact ⟨rfl, a, b, rfl, rfl, h⟩
  · rw [Graph.previous_exact hb, hrel, hstep]
    constructor
    · rintro ⟨-, b, a', h1, h2, h3, h4, h5⟩
      cases h2
      exact ⟨b, h1, h4, h3, h5⟩
    · rintro ⟨b, rfl, h3, h4, h5⟩
      exact ⟨rfl, b, a, rfl, rfl, h4, h3, h5⟩

theorem sideRel_view (isLeft adj : Bool) : (sideRel isLeft adj,
    [if adj then if isLeft then AdjacentLeft else AdjacentRight else if isLeft then Left else Right]) ∈ Graph.views := by
  cases isLeft <;> cases adj <;> simp [sideRel, Graph.views]

/-- **C67.** What `left`, `right`, `adjacentLeft` and `adjacentRight` return is on this side and may be driven on; lane changes are permitted for left
and right, and not for the adjacent ones. On every map. -/
theorem neighbour_sound (g : RGraph Prim (Dbl F)) (hg : build i = some g) (hfin : ∀ x y, ∃ κ, m.change x y = .fin κ) (isLeft adj : Bool) (a : LH)
    (q : Prim) (h : g.neighbour isLL k (sideRel isLeft adj) (.inl a) = some q) :
    ∃ b, q = .inl b ∧ MayDrive e r i.lanelets a ∧ MayDrive e r i.lanelets b ∧ a ≠ b ∧ Side e.w isLeft a b ∧ (MayChange e r a b ↔ adj = false) := by
  have hb := build_built i S.input S.costs g hg
  obtain ⟨-, rel, hr, c, he⟩ := Graph.neighbour_iff hb isLL (sideRel_view S isLeft adj) k (.inl a) q h
  have hm := (hasEdge_iff_mem hb _ _ _ _ _).mp he
  cases adj with
  | false =>
    have hrel : rel = if isLeft then Left else Right := by simpa using hr
    subst hrel
    obtain ⟨la, lb, h1, rfl, h3, h4, h5, h6, h7, -⟩ := laneChange_sound i S.input S.costs g hg isLeft _ _ _ hm rfl
    cases h1
    have d1 := (mayDrive_iff S _).mp h3
    have d2 := (mayDrive_iff S _).mp h4
    exact ⟨lb, rfl, d1, d2, h5, (beside_iff S _ _ _).mp h6, by simp [(change_iff S a lb d1 d2).mp h7]⟩
  | true =>
    have hrel : rel = if isLeft then AdjacentLeft else AdjacentRight := by simpa using hr
    subst hrel
    obtain ⟨la, lb, h1, rfl, h3, h4, h5, h6, -, h7⟩ := adjacent_sound i S.input S.costs g hg isLeft _ _ _ hm rfl
    cases h1
    have d1 := (mayDrive_iff S _).mp h3
    have d2 := (mayDrive_iff S _).mp h4
    refine ⟨lb, rfl, d1, d2, h5, (beside_iff S _ _ _).mp h6, ?_⟩
    have : i.rules.change a lb = false := by
      rcases h7 with h7 | ⟨ch, m', -, hm', hf⟩
      · exact h7
      · exfalso
        simp only at hm'
        rw [S.module] at hm'
        obtain rfl := Option.some.inj hm'
        obtain ⟨κ, hκ⟩ := hfin (ch.map (·.1)) (ch.map (·.2))
        rw [hκ, S.tests] at hf
        cases hf
    have hn : ¬ MayChange e r a lb := by
      intro hc
      rw [(change_iff S a lb d1 d2).mpr hc] at this
      cases this
    simp [hn]

/-- **C67.** If neighbours are clear, nothing is missing: `left` and `right` (`adjacentLeft`, `adjacentRight`) return the lanelet on this side exactly if
the lane change is (not) permitted. -/
theorem neighbour_exact (g : RGraph Prim (Dbl F)) (hg : build i = some g) (hfin : ∀ x y, ∃ κ, m.change x y = .fin κ) (htidy : Tidy i e r)
    (isLeft adj : Bool) (a b : LH) :
    g.neighbour isLL k (sideRel isLeft adj) (.inl a) = some (.inl b) ↔
      MayDrive e r i.lanelets a ∧ MayDrive e r i.lanelets b ∧ a ≠ b ∧ Side e.w isLeft a b ∧ (MayChange e r a b ↔ adj = false) := by
  have hbd := build_built i S.input S.costs g hg
  constructor
  · intro h
    obtain ⟨b', hb', h'⟩ := neighbour_sound S g hg hfin isLeft adj a _ h
    cases hb'
    exact h'
  · rintro ⟨d1, d2, hne, hs, hch⟩
    obtain ⟨t1, t2, t3, t4, t5, t6⟩ := htidy isLeft a b d1 d2 hne hs
    have g1 := (mayDrive_iff S _).mpr d1
    have g2 := (mayDrive_iff S _).mpr d2
    have hob : OnlyBeside i isLeft a b := ⟨hne, (beside_iff S _ _ _).mpr hs, fun h => t1 ((beside_iff S _ _ _).mp h), by
      cases hf : follows i.w a b with
      | false => rfl
      | true => rw [S.world] at hf; exact absurd ((follows_spec e.w a b).1.mp hf) t2, ⟨t3, t4⟩, t5⟩
    have hc : i.costs ≠ [] := by intro hc; have := S.module; rw [hc] at this; simp at this
    -- there is an edge
    have hedge : ∃ c, HasEdge g (.inl a) (.inl b) k (if adj then if isLeft then AdjacentLeft else AdjacentRight else if isLeft then Left else Right) c := by
      cases adj with
      | true =>
        have hcf : i.rules.change a b = false := by
          cases hx : i.rules.change a b with
          | false => rfl
          | true => exact absurd (hch.mp ((change_iff S a b d1 d2).mp hx)) (by decide)
        have he := neighbour_adjacent i S.input S.costs hc g hg isLeft a b g1 g2 hob hcf
        refine ⟨i.one, (hasEdge_iff_mem hbd _ _ _ _ _).mpr ?_⟩
        rw [he, List.mem_map]
        exact ⟨(m, k), (mem_zipIdx_costs i (m, k)).mpr S.module, rfl⟩
      | false =>
        obtain ⟨ch, -, -, he⟩ := neighbour_laneChange i S.input S.costs hc g hg isLeft a b g1 g2 hob
          (fun b' h1 h2 h3 => t6 b' ((mayDrive_iff S _).mp h1) h2 ((beside_iff S _ _ _).mp h3))
          ((change_iff S a b d1 d2).mpr (hch.mpr rfl))
        obtain ⟨κ, hκ⟩ := hfin (ch.map (·.1)) (ch.map (·.2))
        refine ⟨.fin κ, (hasEdge_iff_mem hbd _ _ _ _ _).mpr ?_⟩
        rw [he, List.mem_map]
        refine ⟨(m, k), (mem_zipIdx_costs i (m, k)).mpr S.module, ?_⟩
        have : i.tests.isFinite (Dbl.fin κ) = true := by rw [S.tests]; rfl
        simp only [changeEdge, hκ, if_pos this]
        rfl
    obtain ⟨c, he⟩ := hedge
    cases hn : g.neighbour isLL k (sideRel isLeft adj) (.inl a) with
    | none =>
      exfalso
      refine (Graph.neighbour_none_iff hbd isLL (sideRel_view S isLeft adj) k (.inl a) ?_).mp hn (.inl b) _ c (by simp) he
      intro q rel c' hr he'
      cases q with
      | inl => rfl
      | inr ar =>
        exfalso
        have hm := (hasEdge_iff_mem hbd _ _ _ _ _).mp he'
        simp only [List.mem_singleton] at hr
        subst hr
        cases adj with
        | false =>
          obtain ⟨la, lb, -, h2, -⟩ := laneChange_sound i S.input S.costs g hg isLeft _ _ _ hm rfl
          cases h2
        | true =>
          obtain ⟨la, lb, -, h2, -⟩ := adjacent_sound i S.input S.costs g hg isLeft _ _ _ hm rfl
          cases h2
    | some q =>
      obtain ⟨b', rfl, -, h2, h3, h4, -⟩ := neighbour_sound S g hg hfin isLeft adj a q hn
      rw [t6 b' h2 (Ne.symm h3) h4]

/-- **C67.** The left neighbour has the lanelet as its right neighbour, with or without permission to change back; and the other way round. -/
theorem neighbour_back (g : RGraph Prim (Dbl F)) (hg : build i = some g) (hfin : ∀ x y, ∃ κ, m.change x y = .fin κ) (htidy : Tidy i e r)
    (isLeft adj : Bool) (a b : LH) (h : g.neighbour isLL k (sideRel isLeft adj) (.inl a) = some (.inl b)) :
    ∃ adj', g.neighbour isLL k (sideRel (!isLeft) adj') (.inl b) = some (.inl a) := by
  classical
  obtain ⟨h1, h2, h3, h4, -⟩ := (neighbour_exact S g hg hfin htidy isLeft adj a b).mp h
  refine ⟨decide (¬ MayChange e r b a), (neighbour_exact S g hg hfin htidy (!isLeft) _ b a).mpr
    ⟨h2, h1, Ne.symm h3, (side_symm S isLeft a b).mp h4, ?_⟩⟩
  simp

/-- **C67.** Conflicts between lanelets are mutual; only lanelets on which the participant may drive conflict, and only if they overlap or are the two
directions of a lanelet. -/
theorem conflicting_trip (hk : k = 0) (g : RGraph Prim (Dbl F)) (hg : build i = some g) (a b : LH) :
    ((.inl b : Prim) ∈ g.conflictingOf (.inl a) ↔ (.inl a : Prim) ∈ g.conflictingOf (.inl b)) ∧
    ((.inl b : Prim) ∈ g.conflictingOf (.inl a) → MayDrive e r i.lanelets a ∧ MayDrive e r i.lanelets b ∧ a ≠ b ∧
      (i.overlapsLL a b = true ∨ i.overlapsLL b a = true ∨ b = invertL a)) ∧
    (MayDrive e r i.lanelets a → MayDrive e r i.lanelets b → b.inv = false → a ≠ b → i.boxLL a b = true → i.overlapsLL a b = true →
      ¬ Joins e.w a b → ¬ Side e.w true a b → ¬ Side e.w false a b → (.inl b : Prim) ∈ g.conflictingOf (.inl a)) ∧
    (MayDrive e r i.lanelets a → MayDrive e r i.lanelets (invertL a) → a.inv = false → i.boxLL a a = true →
      (.inl (invertL a) : Prim) ∈ g.conflictingOf (.inl a)) := by
  subst hk
  have hbd := build_built i S.input S.costs g hg
  have hmem : ∀ a b : LH, (.inl b : Prim) ∈ g.conflictingOf (.inl a) ↔ ∃ c, (⟨c, 0, Conflicting⟩ : Graph.EdgeInfo (Dbl F)) ∈ edgesOf g (.inl a) (.inl b) := by
    intro a b
    rw [Graph.conflicting_exact hbd]
    simp only [hasEdge_iff_mem hbd]
  refine ⟨?_, ?_, ?_, ?_⟩
  · rw [hmem, hmem]
    have hs := conflicting_symm i S.input S.costs g hg a b
    have key : ∀ c, (⟨c, 0, Conflicting⟩ : Graph.EdgeInfo (Dbl F)) ∈ edgesOf g (.inl a) (.inl b) ↔
        (⟨c, 0, Conflicting⟩ : Graph.EdgeInfo (Dbl F)) ∈ edgesOf g (.inl b) (.inl a) := by
      intro c
      have h1 : (⟨c, 0, Conflicting⟩ : Graph.EdgeInfo (Dbl F)) ∈ (edgesOf g (.inl a) (.inl b)).filter (fun x => x.relation == Conflicting) ↔
          (⟨c, 0, Conflicting⟩ : Graph.EdgeInfo (Dbl F)) ∈ edgesOf g (.inl a) (.inl b) := by simp [List.mem_filter]
      have h2 : (⟨c, 0, Conflicting⟩ : Graph.EdgeInfo (Dbl F)) ∈ (edgesOf g (.inl b) (.inl a)).filter (fun x => x.relation == Conflicting) ↔
          (⟨c, 0, Conflicting⟩ : Graph.EdgeInfo (Dbl F)) ∈ edgesOf g (.inl b) (.inl a) := by simp [List.mem_filter]
      rw [← h1, hs, h2]
    simp only [key]
  · rw [hmem]
    rintro ⟨c, hc⟩
    obtain ⟨h1, h2, h3, -, h5, -⟩ := conflicting_sound i S.input S.costs g hg a b _ hc rfl
    exact ⟨(mayDrive_iff S _).mp h1, (mayDrive_iff S _).mp h2, h3, h5⟩
  · intro d1 d2 hinv hne hbox ho hj hl hr
    rw [hmem]
    have hc : i.costs ≠ [] := by intro hc; have := S.module; rw [hc] at this; simp at this
    have hk : 0 < i.costs.length := List.length_pos_of_ne_nil hc
    have := (conflicting_complete i S.input S.costs hc g hg a b ((mayDrive_iff S _).mpr d1) ((mayDrive_iff S _).mpr d2) hinv hne hbox ho).2 (by
      cases hf : follows i.w a b with
      | false => rfl
      | true => rw [S.world] at hf; exact absurd ((follows_spec e.w a b).1.mp hf) hj)
      (fun h => hl ((beside_iff S _ _ _).mp h)) (fun h => hr ((beside_iff S _ _ _).mp h)) 0 hk
    exact ⟨_, this.1⟩
  · intro d1 d2 hinv hbox
    rw [hmem]
    have hc : i.costs ≠ [] := by intro hc; have := S.module; rw [hc] at this; simp at this
    exact ⟨_, (conflicting_inverse i S.input S.costs hc g hg a ((mayDrive_iff S _).mpr d1) hinv ((mayDrive_iff S _).mpr d2) hbox 0
      (List.length_pos_of_ne_nil hc)).1⟩

/-- **C67.** possiblePaths and possiblePathsTowards with a limit of the cost: the paths are legal trips from (to) the lanelet. Without shorter paths all
reach the limit, and what is at first reached beyond the limit is the end of one; with shorter paths everything reached within the limit is on one. -/
theorem possiblePaths_trip (g : RGraph Prim (Dbl F)) (hg : build i = some g) {pick : Nat → (Nat → Dbl F) → List Nat → Nat} (hpick : PickMin pick)
    (lc : Bool) (κ : F) (hch : ChangesOk i m lc κ) (backw : Bool) (a : LH) (ha : MayDrive e r i.lanelets a) (limit : F) (shorter : Bool) :
    ∃ dss : List (List LH),
      g.possiblePaths pick backw (.inl a) ⟨some (.fin limit), none, shorter⟩ k lc false = .ok (some (dss.map fun ds => ds.map .inl)) ∧
      (∀ ds ∈ dss, (if backw then ds.getLast? else ds.head?) = some a ∧ ds.Nodup ∧
        ∃ x, Trip e r i.lanelets value lc κ ds x ∧ (shorter = false → limit ≤ x)) ∧
      (∀ ds x b, Trip e r i.lanelets value lc κ ds x → ds.head? = some (if backw then b else a) → ds.getLast? = some (if backw then a else b) →
        (∀ ds' x' b', ds'.length < ds.length → Trip e r i.lanelets value lc κ ds' x' → x' ≤ x → ds'.head? = some (if backw then b' else a) →
          ds'.getLast? = some (if backw then a else b') → x' < limit) →
        ((shorter = true → ∃ d ∈ dss, b ∈ d) ∧
        ((∀ ds' x', Trip e r i.lanelets value lc κ ds' x' → ds'.head? = some (if backw then b else a) →
          ds'.getLast? = some (if backw then a else b) → limit ≤ x') →
          ∃ d ∈ dss, (if backw then d.head? else d.getLast?) = some b))) := by
  have hbd := build_built i S.input S.costs g hg
  have ht : TestsOk i.tests := by rw [S.tests]; exact dblTests_ok
  have hs : (.inl a : Prim) ∈ g.vertices := (usable_iff i S.input S.costs g hg _).mpr ((mayDrive_iff S a).mpr ha)
  have hid := numCosts i S.input S.costs ht g hg hpick k m S.module false (fun h => by cases h)
  obtain ⟨trails, h1, h2, -, -, -, h6⟩ := Graph.routing_possiblePaths ht hbd hpick backw (.inl a) hs ⟨some (.fin limit), none, shorter⟩ (by simp) k hid lc false
  obtain ⟨trails', h1', -, c3, c4⟩ := Graph.routing_possiblePaths_cover ht hbd hpick backw (.inl a) hs (.fin limit) shorter k hid lc false
  have heq : trails' = trails := by
    rw [h1'] at h1
    simp only [Except.ok.injEq, Option.some.injEq] at h1
    refine List.map_injective_iff.2 ?_ h1
    intro x y hxy
    cases backw with
    | false => exact hxy
    | true => exact List.reverse_injective hxy
  subst heq
  -- all trails consist of lanelets
  have hall : ∃ ls : List (List LH), trails' = ls.map fun l => l.map .inl := by
    have : ∀ l ∈ trails', ∃ d : List LH, l = d.map .inl := by
      intro l hl
      obtain ⟨⟨c, hc⟩, hh, -⟩ := h2 l hl
      obtain ⟨ds, x, hd, -⟩ := trail_trip S g hg lc κ hch backw ha hc hh
      exact ⟨ds, hd⟩
    clear h1 h1' h2 c3 c4 h6
    induction trails' with
    | nil => exact ⟨[], rfl⟩
    | cons l ls ih =>
      obtain ⟨ds, rfl⟩ := ih (fun q hq => this q (by simp [hq]))
      obtain ⟨d, rfl⟩ := this l (by simp)
      exact ⟨d :: ds, rfl⟩
  obtain ⟨ls, rfl⟩ := hall
  have hinl : Function.Injective (fun x : LH => (.inl x : Prim)) := fun x y h => by cases h; rfl
  have hmem : ∀ l ∈ ls, (l.map (fun x : LH => (.inl x : Prim))) ∈ ls.map fun l => l.map (fun x : LH => (.inl x : Prim)) :=
    fun l hl => List.mem_map_of_mem hl
  refine ⟨ls.map fun l => if backw then l.reverse else l, ?_, ?_, ?_⟩
  · rw [h1, List.map_map, List.map_map]
    congr 2
    refine List.map_congr_left ?_
    intro l _
    cases backw <;> simp [List.map_reverse]
  · intro ds hds
    obtain ⟨l, hl, rfl⟩ := List.mem_map.1 hds
    obtain ⟨⟨c, hc⟩, hh, hn⟩ := h2 _ (hmem l hl)
    have hhead : l.head? = some a := by
      rw [List.head?_map] at hh
      obtain ⟨z, hz, hz'⟩ := Option.map_eq_some_iff.1 hh
      cases hz'; exact hz
    refine ⟨by cases backw <;> simp [hhead], ?_, ?_⟩
    · have : l.Nodup := List.Nodup.of_map _ hn
      cases backw with
      | false => exact this
      | true => exact List.nodup_reverse.2 this
    · cases shorter with
      | true =>
        obtain ⟨ds, x, hd, -, htr⟩ := trail_trip S g hg lc κ hch backw ha hc hh
        obtain rfl : l = ds := List.map_injective_iff.2 hinl hd
        exact ⟨x, htr, fun h => by cases h⟩
      | false =>
        obtain ⟨c', hc', hw⟩ := h6 rfl _ (hmem l hl)
        obtain ⟨ds, x, hd, rfl, htr⟩ := trail_trip S g hg lc κ hch backw ha hc' hh
        obtain rfl : l = ds := List.map_injective_iff.2 hinl hd
        refine ⟨x, htr, fun _ => ?_⟩
        by_contra hlt
        refine hw ⟨?_, by simp⟩
        intro c0 h0
        cases h0
        show ¬ (limit ≤ x)
        exact hlt
  · intro ds x b htr hh hl hbelow
    have hpos := step_nonneg S lc κ hch
    have hB : Reach g k backw (pathRelations lc false) (PBelow g k backw (pathRelations lc false) (.inl a) (.fin limit)) (.inl a) (.fin x) (.inl b) := by
      refine trip_reach S g hg lc κ hch backw a ds x b htr hh hl ?_ hpos
      intro ds' x' b' k1 k2 k3 k4 k5
      refine ⟨.fin x', trip_reach S g hg lc κ hch backw a ds' x' b' k2 k4 k5 (fun _ _ _ _ _ _ _ _ => trivial) hpos, ?_⟩
      show ¬ (limit ≤ x')
      exact not_le.2 (hbelow ds' x' b' k1 k2 k3 k4 k5)
    constructor
    · intro hsh
      obtain ⟨l, hl, hb⟩ := c4 hsh _ _ hB
      obtain ⟨d, hd, rfl⟩ := List.mem_map.1 hl
      refine ⟨_, List.mem_map_of_mem hd, ?_⟩
      obtain ⟨z, hz, hz'⟩ := List.mem_map.1 hb
      cases hz'
      cases backw with
      | false => exact hz
      | true => exact List.mem_reverse.2 hz
    · intro hmin
      obtain ⟨l, hl, hb⟩ := c3 _ _ hB (by
        intro c' hr
        obtain ⟨b2, ds2, x2, hb2, rfl, q1, q2, q3⟩ := reach_trip S g hg lc κ hch backw ha hr
        cases hb2
        exact hmin ds2 x2 q1 q2 q3)
      obtain ⟨d, hd, rfl⟩ := List.mem_map.1 hl
      refine ⟨_, List.mem_map_of_mem hd, ?_⟩
      have hlast : d.getLast? = some b := by
        rw [List.getLast?_map] at hb
        obtain ⟨z, hz, hz'⟩ := Option.map_eq_some_iff.1 hb
        cases hz'; exact hz
      cases backw <;> simp [hlast]

/-- **C67.** shortestPathVia: shortest legal trips from each lanelet to the next one, joined; nothing if one of them does not exist. -/
theorem shortestPathVia_trip (g : RGraph Prim (Dbl F)) (hg : build i = some g) {pick : Nat → (Nat → Dbl F) → List Nat → Nat} (hpick : PickMin pick)
    (lc : Bool) (κ : F) (hch : ChangesOk i m lc κ) (start target : LH) (via : List LH) :
    let pts := start :: via ++ [target]
    (g.shortestPathVia pick (.inl start) (via.map .inl) (.inl target) k lc false = .ok (some none) ∧
      ∃ (j : Nat) (a b : LH), pts[j]? = some a ∧ pts[j + 1]? = some b ∧
        ∀ ds x, Trip e r i.lanelets value lc κ ds x → ds.head? = some a → ds.getLast? ≠ some b) ∨
    ∃ legs : List (List LH), legs.length = via.length + 1 ∧
      (∀ (j : Nat) l, legs[j]? = some l → ∃ a b x, pts[j]? = some a ∧ pts[j + 1]? = some b ∧ Trip e r i.lanelets value lc κ l x ∧
        l.head? = some a ∧ l.getLast? = some b ∧
        ∀ ds' x', Trip e r i.lanelets value lc κ ds' x' → ds'.head? = some a → ds'.getLast? = some b → x ≤ x') ∧
      g.shortestPathVia pick (.inl start) (via.map .inl) (.inl target) k lc false = .ok (some (some ((joinLegs legs).map .inl))) := by
  intro pts
  have hbd := build_built i S.input S.costs g hg
  have ht : TestsOk i.tests := by rw [S.tests]; exact dblTests_ok
  have hid := numCosts i S.input S.costs ht g hg hpick k m S.module false (fun h => by cases h)
  have hpts : (.inl start : Prim) :: via.map .inl ++ [.inl target] = pts.map .inl := by simp [pts]
  have hmap : ∀ (ds : List LH) (d : LH), ((ds.map (Sum.inl : LH → Prim)).head? = some (.inl d) ↔ ds.head? = some d) ∧
      ((ds.map (Sum.inl : LH → Prim)).getLast? = some (.inl d) ↔ ds.getLast? = some d) := by
    intro ds d
    rw [List.head?_map, List.getLast?_map]
    constructor <;> simp
  have hget : ∀ (j : Nat) (p : Prim), (pts.map (Sum.inl : LH → Prim))[j]? = some p → ∃ a, p = .inl a ∧ pts[j]? = some a := by
    intro j p hp
    rw [List.getElem?_map] at hp
    obtain ⟨z, hz, hz'⟩ := Option.map_eq_some_iff.1 hp
    exact ⟨z, hz'.symm, hz⟩
  have hstep := edges_steps S g hg lc κ hch
  have hpath : ∀ (ds : List LH) (x : F), Trip e r i.lanelets value lc κ ds x →
      PPath g Cost.zero Cost.add k (pathRelations lc false) (ds.map .inl) (.fin x) :=
    fun ds x h => path_ppath (fun a b c h => (hstep a b c).mpr h) (trip_path S h)
  have hres := Graph.routing_shortestPathVia ht hbd hpick (.inl start) (.inl target) (via.map .inl) k hid lc false
  simp only [hpts] at hres
  rcases hres with ⟨h1, j, p, q, hp, hq, hn⟩ | ⟨legs, h1, h2, h3, -⟩
  · left
    obtain ⟨a, rfl, ha⟩ := hget j p hp
    obtain ⟨b, rfl, hb⟩ := hget (j + 1) q hq
    refine ⟨h1, j, a, b, ha, hb, ?_⟩
    intro ds x htr hh hl
    have hmay := trip_mayDrive S htr
    refine hn ⟨?_, ?_, ds.map .inl, .fin x, hpath ds x htr, (hmap ds a).1.mpr hh, (hmap ds b).2.mpr hl⟩
    · exact (usable_iff i S.input S.costs g hg _).mpr ((mayDrive_iff S a).mpr (hmay a (List.mem_of_head? hh)))
    · exact (usable_iff i S.input S.costs g hg _).mpr ((mayDrive_iff S b).mpr (hmay b (List.mem_of_getLast? hl)))
  · right
    have hleg : ∀ (j : Nat) l, legs[j]? = some l → ∃ ds a b x, l = ds.map .inl ∧ pts[j]? = some a ∧ pts[j + 1]? = some b ∧
        Trip e r i.lanelets value lc κ ds x ∧ ds.head? = some a ∧ ds.getLast? = some b ∧
        ∀ ds' x', Trip e r i.lanelets value lc κ ds' x' → ds'.head? = some a → ds'.getLast? = some b → x ≤ x' := by
      intro j l hl
      obtain ⟨p, q, hp, hq, ⟨hpv, -⟩, c, hc, hh, hla, hmin⟩ := h2 j l hl
      obtain ⟨a, rfl, ha⟩ := hget j p hp
      obtain ⟨b, rfl, hb⟩ := hget (j + 1) q hq
      have hda : MayDrive e r i.lanelets a := (mayDrive_iff S a).mp ((usable_iff i S.input S.costs g hg _).mp hpv)
      obtain ⟨ds, x, rfl, rfl, htr⟩ := path_trip S lc κ hda (ppath_path (fun a b c h => (hstep a b c).mp h) hc) hh
      refine ⟨ds, a, b, x, rfl, ha, hb, htr, (hmap ds a).1.mp hh, (hmap ds b).2.mp hla, ?_⟩
      intro ds' x' htr' hh' hl'
      exact hmin _ _ (hpath ds' x' htr') ((hmap ds' a).1.mpr hh') ((hmap ds' b).2.mpr hl')
    have hall : ∃ ls : List (List LH), legs = ls.map fun l => l.map .inl := by
      have : ∀ l ∈ legs, ∃ d : List LH, l = d.map .inl := by
        intro l hl
        obtain ⟨j, hj⟩ := List.getElem?_of_mem hl
        obtain ⟨ds, _, _, _, h, -⟩ := hleg j l hj
        exact ⟨ds, h⟩
      clear h1 h2 h3 hleg
      induction legs with
      | nil => exact ⟨[], rfl⟩
      | cons l ls ih =>
        obtain ⟨ds, rfl⟩ := ih (fun q hq => this q (by simp [hq]))
        obtain ⟨d, rfl⟩ := this l (by simp)
        exact ⟨d :: ds, rfl⟩
    obtain ⟨ls, rfl⟩ := hall
    have hinl : Function.Injective (fun x : LH => (.inl x : Prim)) := fun x y h => by cases h; rfl
    refine ⟨ls, by simpa using h1, ?_, ?_⟩
    · intro j l hl
      obtain ⟨ds, a, b, x, hd, rest⟩ := hleg j (l.map .inl) (by rw [List.getElem?_map, hl]; rfl)
      obtain rfl : l = ds := List.map_injective_iff.2 hinl hd
      exact ⟨a, b, x, rest⟩
    · rw [h3]
      congr 3
      cases ls with
      | nil => rfl
      | cons l ls =>
        simp only [joinLegs, List.map_cons, List.map_append, List.flatMap_map, List.map_flatMap, List.map_tail]

end

/-! ### cases -/

theorem exPlan_tidy : Tidy exPlan Rules.exEnv (Rules.exRules "vehicle:truck") := by
  intro isLeft a b ha hb hne hs
  have ha' := (exPlan_drive a).mp ha
  have hb' := (exPlan_drive b).mp hb
  have key : ∀ a ∈ [(⟨0, false⟩ : LH), ⟨1, false⟩, ⟨2, false⟩, ⟨0, true⟩], ∀ b ∈ [(⟨0, false⟩ : LH), ⟨1, false⟩, ⟨2, false⟩, ⟨0, true⟩],
      a ≠ b → ∀ isLeft, Beside exPlan isLeft a b → ¬ Beside exPlan (!isLeft) a b ∧ follows exPlan.w a b = false ∧ b ≠ invertL a ∧
        ∀ b' ∈ [(⟨0, false⟩ : LH), ⟨1, false⟩, ⟨2, false⟩, ⟨0, true⟩], b' ≠ a → Beside exPlan isLeft a b' → b' = b := by decide
  obtain ⟨h1, h2, h3, h4⟩ := key a ha' b hb' hne isLeft ((beside_iff exPlan_setup _ _ _).mpr hs)
  refine ⟨fun h => h1 ((beside_iff exPlan_setup _ _ _).mpr h), ?_, rfl, rfl, h3,
    fun b' hb' hn h => h4 b' ((exPlan_drive b').mp hb') hn ((beside_iff exPlan_setup _ _ _).mpr h)⟩
  intro hj
  have := (follows_spec exPlan.w a b).1.mpr hj
  rw [h2] at this
  cases this

/-- Case: on the map with the truck, lanelet 2 follows lanelet 0. Lanelet 1 is on the right of lanelet 0 and can be changed to; from there lanelet 0 is
the adjacent lanelet on the left, to which one cannot change. Nothing is on the left of lanelet 0. -/
example : ∃ g, build exPlan = some g ∧ (.inl ⟨2, false⟩ : Prim) ∈ g.following isLL (.inl ⟨0, false⟩) false ∧
    g.neighbour isLL 0 Graph.right (.inl ⟨0, false⟩) = some (.inl ⟨1, false⟩) ∧
    g.neighbour isLL 0 Graph.adjacentLeft (.inl ⟨1, false⟩) = some (.inl ⟨0, false⟩) ∧
    g.neighbour isLL 0 Graph.left (.inl ⟨1, false⟩) = none := by
  obtain ⟨g, hg, -⟩ := build_vertices exPlan exPlan_setup.input exPlan_setup.costs
  have d0 := (exPlan_drive ⟨0, false⟩).mpr (by decide)
  have d1 := (exPlan_drive ⟨1, false⟩).mpr (by decide)
  have d2 := (exPlan_drive ⟨2, false⟩).mpr (by decide)
  have hf : ∀ x y, ∃ κ, (distanceModule ⟨(7 : Rat), 0⟩ exLength).change x y = .fin κ := fun x y => ⟨7, (distance_module _ _).2 (le_refl _) x y⟩
  have hm : MayChange Rules.exEnv (Rules.exRules "vehicle:truck") ⟨0, false⟩ ⟨1, false⟩ :=
    ((canChangeLane_iff _ _ _ _ (exPlan_setup.tags _) (exPlan_setup.tags _)).mp (by decide)).2.2
  have hm' : ¬ MayChange Rules.exEnv (Rules.exRules "vehicle:truck") ⟨1, false⟩ ⟨0, false⟩ := by
    intro h
    have := (change_iff exPlan_setup ⟨1, false⟩ ⟨0, false⟩ d1 d0).mpr h
    revert this
    decide
  have hs : Side Rules.exEnv.w false ⟨0, false⟩ ⟨1, false⟩ := (beside_iff exPlan_setup _ _ _).mp (by decide)
  refine ⟨g, hg, ((following_trip exPlan_setup rfl g hg false 0 (fun h => by cases h) ⟨0, false⟩ _).1).mpr
    ⟨⟨2, false⟩, rfl, d0, d2, .inl ⟨1, 11, rfl, rfl, rfl, rfl⟩⟩,
    (neighbour_exact exPlan_setup g hg hf exPlan_tidy false false _ _).mpr ⟨d0, d1, by decide, hs, by simp [hm]⟩,
    (neighbour_exact exPlan_setup g hg hf exPlan_tidy true true _ _).mpr
      ⟨d1, d0, by decide, (side_symm exPlan_setup false _ _).mp hs, by simp [hm']⟩, ?_⟩
  cases hn : g.neighbour isLL 0 Graph.left (.inl ⟨1, false⟩) with
  | none => rfl
  | some q =>
    exfalso
    obtain ⟨b, rfl, -, hb, hne, hsb, hc⟩ := neighbour_sound exPlan_setup g hg hf true false ⟨1, false⟩ _ hn
    have hb' := (exPlan_drive b).mp hb
    have := (change_iff exPlan_setup ⟨1, false⟩ b d1 hb).mpr (hc.mpr rfl)
    have key : ∀ b ∈ [(⟨0, false⟩ : LH), ⟨1, false⟩, ⟨2, false⟩, ⟨0, true⟩], exPlan.rules.change ⟨1, false⟩ b = true →
      ¬ (⟨1, false⟩ ≠ b ∧ Beside exPlan true ⟨1, false⟩ b) := by decide
    exact key b hb' this ⟨hne, (beside_iff exPlan_setup _ _ _).mpr hsb⟩

/-- Case: a path of cost at least 20 leads to lanelet 2; and there is a path over lanelet 2 that stays there. -/
example : ∃ g, build exPlan = some g ∧
    (∃ dss : List (List LH), g.possiblePaths (fun _ cost l => leastOf cost l) false (.inl ⟨0, false⟩) ⟨some (.fin 20), none, false⟩ 0 false false =
      .ok (some (dss.map fun ds => ds.map .inl)) ∧ ∃ d ∈ dss, d.getLast? = some ⟨2, false⟩) ∧
    ∃ ds : List LH, g.shortestPathVia (fun _ cost l => leastOf cost l) (.inl ⟨0, false⟩) [.inl ⟨2, false⟩] (.inl ⟨2, false⟩) 0 false false =
      .ok (some (some (ds.map .inl))) := by
  obtain ⟨g, hg, -⟩ := build_vertices exPlan exPlan_setup.input exPlan_setup.costs
  have d0 := (exPlan_drive ⟨0, false⟩).mpr (by decide)
  have d2 := (exPlan_drive ⟨2, false⟩).mpr (by decide)
  have ht : Trip Rules.exEnv (Rules.exRules "vehicle:truck") exPlan.lanelets (fun l => exLength (.inl l)) false 0 [⟨0, false⟩, ⟨2, false⟩] _ :=
    .ahead ⟨2, false⟩ (.start ⟨0, false⟩ d0) rfl d2 ⟨1, 11, rfl, rfl, rfl, rfl⟩
  refine ⟨g, hg, ?_, ?_⟩
  · obtain ⟨dss, h1, -, h3⟩ := possiblePaths_trip exPlan_setup g hg leastOf_min false 0 (fun h => by cases h) false ⟨0, false⟩ d0 20 false
    refine ⟨dss, h1, (h3 _ _ ⟨2, false⟩ ht rfl rfl ?_).2 ?_⟩
    · intro ds' x' b' hlen htr _ _ _
      cases htr with
      | start => norm_num
      | ahead b h hl =>
        have := List.length_pos_of_ne_nil (trip_ne exPlan_setup h)
        rw [List.length_append] at hlen
        simp at hlen
        omega
      | change _ hlc => cases hlc
    · intro ds' x' htr hh hl
      cases htr with
      | start a => simp only [List.head?_cons, List.getLast?_singleton, Option.some.injEq] at hh hl; subst hh; simp at hl
      | ahead b h hl' hb hj =>
        rename_i ds c a
        obtain rfl : b = ⟨2, false⟩ := by simpa using hl
        have ha := (exPlan_drive a).mp (trip_mayDrive exPlan_setup h _ (List.mem_of_getLast? hl'))
        have hf := (follows_spec exPlan.w a ⟨2, false⟩).1.mpr hj
        have key : ∀ a ∈ [(⟨0, false⟩ : LH), ⟨1, false⟩, ⟨2, false⟩, ⟨0, true⟩], follows exPlan.w a ⟨2, false⟩ = true → a = ⟨0, false⟩ := by decide
        obtain rfl := key a ha hf
        have hc : 0 ≤ c := by
          have : ∀ (ds : List LH) (c : Rat), Trip Rules.exEnv (Rules.exRules "vehicle:truck") exPlan.lanelets (fun l => exLength (.inl l)) false 0 ds c → 0 ≤ c := by
            intro ds c h
            induction h with
            | start => exact le_refl _
            | ahead b _ _ _ _ ih => simp only [exLength] at ih ⊢; positivity
            | change _ hlc => cases hlc
          exact this ds c h
        have : exLength (.inl ⟨0, false⟩) = 10 ∧ exLength (.inl ⟨2, false⟩) = 30 := by norm_num [exLength]
        rw [this.1, this.2]
        linarith
      | change _ hlc => cases hlc
  · rcases shortestPathVia_trip exPlan_setup g hg leastOf_min false 0 (fun h => by cases h) ⟨0, false⟩ ⟨2, false⟩ [⟨2, false⟩] with
      ⟨-, j, a, b, ha, hb, hn⟩ | ⟨legs, -, -, h⟩
    · exfalso
      match j, ha, hb with
      | 0, ha, hb =>
        cases ha; cases hb
        exact hn _ _ ht rfl rfl
      | 1, ha, hb =>
        cases ha; cases hb
        exact hn _ _ (.start ⟨2, false⟩ d2) rfl rfl
      | j + 2, ha, hb => simp at hb
    · exact ⟨_, h⟩

end Verif.Plan
