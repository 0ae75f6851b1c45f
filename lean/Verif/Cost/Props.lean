import Mathlib.Algebra.Order.Ring.Rat
import Mathlib.Tactic.Linarith
import Mathlib.Tactic.NormNum
import Mathlib.Tactic.Ring
import Verif.Cost.Model
import Verif.Build.Props

/-!
C45: the approximated length of a lanelet. C52: routing costs.
-/
set_option linter.unusedSectionVars false

namespace Verif.Cost
open Verif.Lanelet (LH)
open Verif.Build (Prim CostModule Input edgesOf build InputOk CostsOk InGraph LaneChangeChain)
open Verif.Graph (RGraph EdgeInfo CostTests RelationType)
open Verif.Graph.RelationType

variable {P F : Type} [Field F] [LinearOrder F] [IsStrictOrderedRing F]

/-! ### C45 -/

/-- a distance: any metric (or pseudometric) -/
structure Metric (d : P → P → F) : Prop where
  self : ∀ x, d x x = 0
  nonneg : ∀ x y, 0 ≤ d x y
  triangle : ∀ x y z, d x z ≤ d x y + d y z

/-- length of a polyline -/
def polyLen (d : P → P → F) : List P → F
  | x :: y :: r => d x y + polyLen d (y :: r)
  | _ => 0

theorem polyLen_nonneg {d : P → P → F} (hd : Metric d) : ∀ l : List P, 0 ≤ polyLen d l
  | [] => le_refl _
  | [_] => le_refl _
  | x :: y :: r => add_nonneg (hd.nonneg x y) (polyLen_nonneg hd (y :: r))

theorem polyLen_detour {d : P → P → F} (hd : Metric d) (x a : P) (s : List P) :
    polyLen d (x :: s) ≤ d x a + polyLen d (a :: s) := by
  cases s with
  | nil => simpa [polyLen] using hd.nonneg x a
  | cons y r =>
    simp only [polyLen]
    linarith [hd.triangle x a y]

theorem polyLen_sublist {d : P → P → F} (hd : Metric d) {s l : List P} (h : s.Sublist l) :
    ∀ x, polyLen d (x :: s) ≤ polyLen d (x :: l) := by
  induction h with
  | slnil => intro x; exact le_refl _
  | cons a _ ih =>
    intro x
    refine (polyLen_detour hd x a _).trans ?_
    simp only [polyLen]
    linarith [ih a]
  | cons_cons a _ ih =>
    intro x
    simp only [polyLen]
    linarith [ih a]

theorem approxLoop_spec {d : P → P → F} (hd : Metric d) (line : List P) (step : Nat) (hs : 0 < step) (k : Nat) :
    ∀ i1 acc, line.length - i1 = k → i1 + step < line.length →
      ∃ s : List P, s.Sublist (line.drop i1) ∧ s.head? = (line.drop i1).head? ∧ s.getLast? = line.getLast? ∧
        approxLoop d line step i1 (i1 + step) acc = some (acc + polyLen d s) ∧ (step = 1 → s = line.drop i1) := by
  induction k using Nat.strongRecOn with
  | _ k ih =>
    intro i1 acc hk h
    have h1 : i1 < line.length := by omega
    have hdrop : line.drop i1 = line[i1] :: line.drop (i1 + 1) := List.drop_eq_getElem_cons h1
    have hsub : (line.drop (i1 + step)).Sublist (line.drop (i1 + 1)) := by
      have : line.drop (i1 + step) = (line.drop (i1 + 1)).drop (step - 1) := by rw [List.drop_drop]; congr 1; omega
      rw [this]; exact List.drop_sublist _ _
    have hlast : line[line.length - 1]? = line.getLast? := by rw [List.getLast?_eq_getElem?]
    have hlt : line.length - 1 < line.length := by omega
    rw [approxLoop, if_pos h]
    simp only [List.getElem?_eq_getElem h1, List.getElem?_eq_getElem h, List.getElem?_eq_getElem hlt,
      Option.bind_eq_bind, Option.bind_some, ge_iff_le, Option.pure_def]
    by_cases h2 : line.length ≤ i1 + step + step
    · rw [if_pos h2]
      rw [approxLoop, if_neg (by omega)]
      have hdrop2 : line.drop (i1 + step) = line[i1 + step] :: line.drop (i1 + step + 1) := List.drop_eq_getElem_cons h
      by_cases h3 : i1 + step = line.length - 1
      · refine ⟨[line[i1], line[i1 + step]], ?_, by rw [hdrop]; rfl, ?_, ?_, ?_⟩
        · rw [hdrop]
          refine List.Sublist.cons_cons _ (List.Sublist.trans ?_ hsub)
          rw [hdrop2]
          exact List.Sublist.cons_cons _ (List.nil_sublist _)
        · rw [← hlast, List.getElem?_eq_getElem hlt]
          simp [h3]
        · have e : line[i1 + step] = line[line.length - 1] := by congr 1
          simp only [polyLen, e, hd.self]
          congr 1; ring
        · intro hs1
          subst hs1
          rw [hdrop, hdrop2, List.drop_eq_nil_of_le (by omega)]
      · refine ⟨[line[i1], line[i1 + step], line[line.length - 1]], ?_, by rw [hdrop]; rfl, ?_, ?_, ?_⟩
        · rw [hdrop]
          refine List.Sublist.cons_cons _ (List.Sublist.trans ?_ hsub)
          rw [hdrop2]
          refine List.Sublist.cons_cons _ ?_
          rw [List.singleton_sublist]
          have : (line.drop (i1 + step + 1))[line.length - 1 - (i1 + step + 1)]? = some line[line.length - 1] := by
            rw [List.getElem?_drop, List.getElem?_eq_some_iff]
            refine ⟨by omega, ?_⟩
            congr 1; omega
          exact List.mem_of_getElem? this
        · rw [← hlast, List.getElem?_eq_getElem hlt]; rfl
        · simp only [polyLen]
          congr 1; ring
        · intro hs1; omega
    · rw [if_neg h2]
      obtain ⟨s, s1, s2, s3, s4, s5⟩ := ih (line.length - (i1 + step)) (by omega) (i1 + step) (acc + d line[i1] line[i1 + step])
        rfl (by omega)
      have hdrop2 : line.drop (i1 + step) = line[i1 + step] :: line.drop (i1 + step + 1) := List.drop_eq_getElem_cons h
      refine ⟨line[i1] :: s, ?_, by rw [hdrop]; rfl, ?_, ?_, ?_⟩
      · rw [hdrop]; exact List.Sublist.cons_cons _ (s1.trans hsub)
      · rw [← s3]
        cases s with
        | nil => rw [hdrop2] at s2; exact absurd s2.symm (by rw [List.head?_cons]; exact Option.some_ne_none _)
        | cons y r => rw [List.getLast?_cons_cons]
      · rw [s4]
        cases s with
        | nil => rw [hdrop2] at s2; exact absurd s2.symm (by rw [List.head?_cons]; exact Option.some_ne_none _)
        | cons y r =>
          rw [hdrop2] at s2
          simp only [List.head?_cons, Option.some.injEq] at s2
          subst s2
          simp only [polyLen]
          congr 1; ring
      · intro hs1
        rw [hdrop, s5 hs1, hs1]

/-- approximatedLength2d terminates, does not access points outside of the bound, and is the length of a polyline through
some of its points, beginning and ending with the end points. So it is never longer than the bound and never shorter than the
distance of its end points, and exact for bounds with less than 20 points. -/
theorem approximatedLength2d_spec {d : P → P → F} (hd : Metric d) (line : List P) :
    ∃ L, approximatedLength2d d line = some L ∧ 0 ≤ L ∧ L ≤ polyLen d line ∧
      (∀ x y, line.head? = some x → line.getLast? = some y → d x y ≤ L) ∧
      (∃ s : List P, s.Sublist line ∧ s.head? = line.head? ∧ s.getLast? = line.getLast? ∧ L = polyLen d s) ∧
      (line.length < 20 → L = polyLen d line) := by
  have key : ∃ s : List P, s.Sublist line ∧ s.head? = line.head? ∧ s.getLast? = line.getLast? ∧
      approximatedLength2d d line = some (polyLen d s) ∧ (line.length < 20 → s = line) := by
    unfold approximatedLength2d
    by_cases h : max 1 (line.length / 10) < line.length
    · obtain ⟨s, s1, s2, s3, s4, s5⟩ := approxLoop_spec hd line (max 1 (line.length / 10)) (by omega) _ 0 0 rfl (by omega)
      refine ⟨s, by simpa using s1, by simpa using s2, s3, ?_, ?_⟩
      · simpa using s4
      · intro hlt
        have := s5 (by omega)
        simpa using this
    · refine ⟨line, List.Sublist.refl _, rfl, rfl, ?_, fun _ => rfl⟩
      simp only
      rw [approxLoop, if_neg h]
      match line, h with
      | [], _ => rfl
      | [_], _ => rfl
      | _ :: _ :: r, h => exfalso; apply h; simp only [List.length_cons]; omega
  obtain ⟨s, s1, s2, s3, s4, s5⟩ := key
  refine ⟨polyLen d s, s4, polyLen_nonneg hd s, ?_, ?_, ⟨s, s1, s2, s3, rfl⟩, fun h => by rw [s5 h]⟩
  · cases s with
    | nil => simp only [polyLen]; exact polyLen_nonneg hd line
    | cons x s =>
      cases line with
      | nil => simp at s2
      | cons y l =>
        simp only [List.head?_cons, Option.some.injEq] at s2
        subst s2
        exact polyLen_sublist hd (List.cons_sublist_cons.mp s1) x
  · intro x y hx hy
    cases s with
    | nil => rw [hx] at s2; simp at s2
    | cons x' s =>
      rw [hx] at s2
      simp only [List.head?_cons, Option.some.injEq] at s2
      subst s2
      rw [hy] at s3
      cases s with
      | nil =>
        simp only [List.getLast?_singleton, Option.some.injEq] at s3
        subst s3
        rw [hd.self]; exact le_refl _
      | cons z r =>
        rw [List.getLast?_cons_cons] at s3
        have : [y].Sublist (z :: r) := List.singleton_sublist.mpr (List.mem_of_getLast? s3)
        have := polyLen_sublist hd this x'
        simpa [polyLen] using this

theorem ratMetric : Metric (fun a b : Rat => |a - b|) :=
  ⟨fun x => by simp, fun x y => abs_nonneg _, fun x y z => by
    have := abs_add_le (x - y) (y - z); simpa using this⟩

/-- a concrete case: a zigzag line with 20 points is approximated by every second point -/
example : approximatedLength2d (fun a b : Rat => |a - b|)
      ((List.range 20).map fun n : Nat => if n % 2 = 0 then (n : Rat) else (n : Rat) + 5) = some 24 ∧
    polyLen (fun a b : Rat => |a - b|) ((List.range 20).map fun n : Nat => if n % 2 = 0 then (n : Rat) else (n : Rat) + 5) = 96 := by
  constructor
  · unfold approximatedLength2d
    have e : max 1 (((List.range 20).map fun n : Nat => if n % 2 = 0 then (n : Rat) else (n : Rat) + 5).length / 10) = 2 := by
      simp
    simp only [e]
    iterate 10 (rw [approxLoop]; simp)
    norm_num
  · decide +kernel

/-! ### C52 -/

/-- the tests of the graph for doubles -/
def dblTests : CostTests (Dbl F) := ⟨Dbl.isFinite, Dbl.negative⟩

/-- A negative lane change cost is rejected by the constructor, others are stored. -/
theorem mkModule_iff (c m : F) (x : Module F) : mkModule c m = some x ↔ 0 ≤ c ∧ x = ⟨c, m⟩ := by
  unfold mkModule
  by_cases h : c < 0
  · simp [h, not_le.mpr h]
  · simp [h, not_lt.mp h, eq_comm]

/-- Distance costs: the mean of the two lengths, finite and not negative. -/
theorem distanceSucc_spec (length : Prim → F) (hl : ∀ p, 0 ≤ length p) (a b : Prim) :
    distanceSucc length a b = .fin ((length a + length b) / 2) ∧ (distanceSucc length a b).negative = false := by
  refine ⟨rfl, ?_⟩
  have := hl a
  have := hl b
  simp only [distanceSucc, Dbl.add, Dbl.half, Dbl.negative, decide_eq_false_iff_not, not_lt]
  linarith

theorem sum_nonneg' (l : List F) (h : ∀ x ∈ l, 0 ≤ x) : 0 ≤ l.sum := by
  induction l with
  | nil => simp
  | cons x l ih =>
    rw [List.sum_cons]
    exact add_nonneg (h x (by simp)) (ih fun y hy => h y (by simp [hy]))

theorem foldl_sum (length : Prim → F) (l : List LH) : ∀ acc,
    l.foldl (fun acc l => acc + length (.inl l)) acc = acc + (l.map fun x => length (.inl x)).sum := by
  induction l with
  | nil => intro acc; simp
  | cons x l ih => intro acc; rw [List.foldl_cons, ih]; simp only [List.map_cons, List.sum_cons]; ring

/-- Distance costs of a lane change: the lane change cost if the lanelets are together at least as long as the minimum,
infinity otherwise. -/
theorem distanceChange_iff (m : Module F) (length : Prim → F) (hl : ∀ p, 0 ≤ length p) (src dst : List LH) :
    (distanceChange m length src dst = .fin m.laneChangeCost ↔ m.minChange ≤ (src.map fun x => length (.inl x)).sum ∨
      m.minChange ≤ 0) ∧
    (distanceChange m length src dst = .pinf ↔ (src.map fun x => length (.inl x)).sum < m.minChange) := by
  have h0 : 0 ≤ (src.map fun x => length (.inl x)).sum := by
    apply sum_nonneg'
    intro x hx
    obtain ⟨y, -, rfl⟩ := List.mem_map.mp hx
    exact hl _
  unfold distanceChange
  simp only [foldl_sum, zero_add]
  by_cases h1 : m.minChange ≤ 0
  · simp only [if_pos h1]
    constructor
    · simp [h1]
    · simp only [reduceCtorEq, false_iff, not_lt]; linarith
  · rw [if_neg h1]
    by_cases h2 : m.minChange ≤ (src.map fun x => length (.inl x)).sum
    · rw [if_pos h2]
      constructor
      · simp [h2]
      · simp [h2]
    · rw [if_neg h2]
      constructor
      · simp [h1, h2]
      · simpa using h2

theorem div_nonneg' (x y : F) (hx : 0 ≤ x) (hy : 0 ≤ y) : (Dbl.div x y).negative = false := by
  unfold Dbl.div
  by_cases h : y = 0
  · rw [if_pos h]
    by_cases h' : x = 0
    · rw [if_pos h']; rfl
    · rw [if_neg h', if_pos (lt_of_le_of_ne hx (Ne.symm h'))]; rfl
  · rw [if_neg h]
    simpa [Dbl.negative] using div_nonneg hx hy

theorem add_nonneg' (a b : Dbl F) (ha : a.negative = false) (hb : b.negative = false) : (a.add b).negative = false := by
  cases a <;> cases b <;> simp_all [Dbl.add, Dbl.negative]
  linarith

theorem half_nonneg' (a : Dbl F) (ha : a.negative = false) : a.half.negative = false := by
  cases a <;> simp_all [Dbl.half, Dbl.negative]
  linarith

/-- Travel time costs with speed limits that are not negative: never negative; for positive limits finite, namely the mean of
length divided by speed. With a speed limit of 0 the cost is not finite, so the edge is not part of the graph (the code
replaces such limits by `max * Velocity()`, which is 0 again). -/
theorem timeSucc_spec (max : F) (length limit : Prim → F) (hl : ∀ p, 0 ≤ length p) (hv : ∀ p, 0 ≤ limit p) (a b : Prim) :
    ∃ c, timeSucc max length (fun p => some (limit p)) a b = some c ∧ c.negative = false ∧
      (limit a ≠ 0 → limit b ≠ 0 → c = .fin ((length a / limit a + length b / limit b) / 2)) ∧
      (limit a = 0 ∨ limit b = 0 → c.isFinite = false) := by
  have htt : ∀ p, travelTime max length (fun p => some (limit p)) p = some (Dbl.div (length p) (limit p)) := by
    intro p
    unfold travelTime speedLimit
    by_cases h : limit p = 0 <;> simp [h]
  refine ⟨((Dbl.div (length a) (limit a)).add (Dbl.div (length b) (limit b))).half, by simp [timeSucc, htt],
    half_nonneg' _ (add_nonneg' _ _ (div_nonneg' _ _ (hl a) (hv a)) (div_nonneg' _ _ (hl b) (hv b))), ?_, ?_⟩
  · intro h1 h2
    simp [Dbl.div, h1, h2, Dbl.add, Dbl.half]
  · intro h
    have key : ∀ p, limit p = 0 → ∀ x, Dbl.div (length p) (limit p) ≠ .fin x := by
      intro p hp x
      unfold Dbl.div
      rw [if_pos hp]
      split
      · simp
      · split <;> simp
    rcases h with h | h
    · have := key a h
      cases h1 : Dbl.div (length a) (limit a) <;> cases h2 : Dbl.div (length b) (limit b) <;>
        simp_all [Dbl.add, Dbl.half, Dbl.isFinite]
    · have := key b h
      cases h1 : Dbl.div (length a) (limit a) <;> cases h2 : Dbl.div (length b) (limit b) <;>
        simp_all [Dbl.add, Dbl.half, Dbl.isFinite]

/-- The intention of the code, to treat a speed limit of 0 as no limit, is not met: with any largest number, a lanelet of
length 1 with limit 0 has infinite travel time. -/
theorem zero_speed_counterexample :
    travelTime (1000 : Rat) (fun _ => 1) (fun _ => some 0) (.inl ⟨0, false⟩) = some .pinf := by decide +kernel

theorem time_fold (max : F) (length limit : Prim → F) (l : List LH) (hv : ∀ x ∈ l, limit (.inl x) ≠ 0) : ∀ acc,
    l.foldlM (fun acc l => do return Dbl.add acc (← travelTime max length (fun p => some (limit p)) (.inl l))) (.fin acc) =
      some (.fin (acc + (l.map fun x => length (.inl x) / limit (.inl x)).sum)) := by
  induction l with
  | nil => intro acc; simp
  | cons x l ih =>
    intro acc
    have hx := hv x (by simp)
    rw [List.foldlM_cons]
    have h1 : travelTime max length (fun p => some (limit p)) (.inl x) =
        some (.fin (length (.inl x) / limit (.inl x))) := by
      simp [travelTime, speedLimit, hx, Dbl.div]
    rw [h1]
    simp only [Option.bind_eq_bind, Option.bind_some, Option.pure_def]
    have hadd : ∀ x y : F, Dbl.add (.fin x) (.fin y) = .fin (x + y) := fun _ _ => rfl
    rw [hadd]
    have := ih (fun y hy => hv y (by simp [hy])) (acc + length (.inl x) / limit (.inl x))
    simp only [Option.bind_eq_bind, Option.pure_def] at this
    rw [this]
    simp only [List.map_cons, List.sum_cons]
    congr 2; ring

/-- Travel time costs of a lane change: the lane change cost if there is enough time, infinity otherwise. -/
theorem timeChange_iff (m : Module F) (max : F) (length limit : Prim → F) (hl : ∀ p, 0 ≤ length p)
    (hv : ∀ p, 0 < limit p) (src dst : List LH) :
    let time := (src.map fun x => length (.inl x) / limit (.inl x)).sum
    (timeChange m max length (fun p => some (limit p)) src dst = some (.fin m.laneChangeCost) ↔
      m.minChange ≤ time ∨ m.minChange ≤ 0) ∧
    (timeChange m max length (fun p => some (limit p)) src dst = some .pinf ↔ time < m.minChange) := by
  intro time
  have h0 : 0 ≤ time := by
    apply sum_nonneg'
    intro x hx
    obtain ⟨y, -, rfl⟩ := List.mem_map.mp hx
    exact div_nonneg (hl _) (hv _).le
  unfold timeChange
  by_cases h1 : m.minChange ≤ 0
  · rw [if_pos h1]
    constructor
    · simp [h1]
    · simp only [Option.some.injEq, reduceCtorEq, false_iff, not_lt]; linarith
  · rw [if_neg h1, time_fold max length limit src (fun x _ => (hv _).ne') 0]
    simp only [Option.bind_eq_bind, Option.bind_some, Option.pure_def, zero_add, Dbl.ge, decide_eq_true_eq]
    change ((some (if m.minChange ≤ time then Dbl.fin m.laneChangeCost else .pinf) = some (.fin m.laneChangeCost)) ↔ _) ∧ _
    by_cases h2 : m.minChange ≤ time
    · constructor
      · simp [h2]
      · change some (if m.minChange ≤ time then Dbl.fin m.laneChangeCost else .pinf) = some .pinf ↔ _
        simp [h2]
    · constructor
      · simp [h1, h2]
      · change some (if m.minChange ≤ time then Dbl.fin m.laneChangeCost else .pinf) = some .pinf ↔ _
        simp [h2, not_le.mp h2]

theorem travelTime_cases (max : F) (length limit : Prim → F) (p : Prim) : travelTime max length (fun p => some (limit p)) p =
    some (if limit p = 0 then (if length p = 0 then .nan else if 0 < length p then .pinf else .ninf) else .fin (length p / limit p)) := by
  by_cases h : limit p = 0 <;> simp [travelTime, speedLimit, Dbl.div, h]

theorem time_fold_pinf (max : F) (length limit : Prim → F) (l : List LH) (hl : ∀ x ∈ l, 0 < length (.inl x)) :
    l.foldlM (fun acc l => do return Dbl.add acc (← travelTime max length (fun p => some (limit p)) (.inl l))) Dbl.pinf = some .pinf := by
  induction l with
  | nil => rfl
  | cons x l ih =>
    have hx := hl x (by simp)
    have ih := ih fun y hy => hl y (by simp [hy])
    rw [List.foldlM_cons, travelTime_cases]
    by_cases h : limit (.inl x) = 0
    · simp only [h, if_true, hx.ne', if_false, hx]
      exact ih
    · simp only [h, if_false]
      exact ih

theorem time_fold_nan (max : F) (length limit : Prim → F) (l : List LH) :
    l.foldlM (fun acc l => do return Dbl.add acc (← travelTime max length (fun p => some (limit p)) (.inl l))) Dbl.nan = some .nan := by
  induction l with
  | nil => rfl
  | cons x l ih =>
    rw [List.foldlM_cons, travelTime_cases]
    have h : ∀ y : Dbl F, Dbl.add .nan y = .nan := fun y => by cases y <;> rfl
    simp only [Option.bind_eq_bind, Option.bind_some, Option.pure_def, h]
    simpa only [Option.bind_eq_bind, Option.pure_def] using ih

/-- A lanelet with speed limit 0 takes forever, so that there is always enough time to change lanes. -/
theorem timeChange_stopped (m : Module F) (max : F) (length limit : Prim → F) (src dst : List LH)
    (hl : ∀ x ∈ src, 0 < length (.inl x)) (h0 : ∃ x ∈ src, limit (.inl x) = 0) :
    timeChange m max length (fun p => some (limit p)) src dst = some (.fin m.laneChangeCost) := by
  unfold timeChange
  by_cases h1 : m.minChange ≤ 0
  · rw [if_pos h1]
  · rw [if_neg h1]
    have key : ∀ (l : List LH) (acc : F), (∀ x ∈ l, 0 < length (.inl x)) → (∃ x ∈ l, limit (.inl x) = 0) →
        l.foldlM (fun acc l => do return Dbl.add acc (← travelTime max length (fun p => some (limit p)) (.inl l))) (Dbl.fin acc) =
          some .pinf := by
      intro l
      induction l with
      | nil => rintro acc - ⟨x, hx, -⟩; simp at hx
      | cons x l ih =>
        intro acc hl h0
        have hx := hl x (by simp)
        have hl' : ∀ y ∈ l, 0 < length (.inl y) := fun y hy => hl y (by simp [hy])
        rw [List.foldlM_cons, travelTime_cases]
        by_cases h : limit (.inl x) = 0
        · simp only [h, if_true, hx.ne', if_false, hx]
          exact time_fold_pinf max length limit l hl'
        · simp only [h, if_false]
          refine ih _ hl' ?_
          obtain ⟨y, hy, h0⟩ := h0
          rcases List.mem_cons.mp hy with rfl | hy
          · exact absurd h0 h
          · exact ⟨y, hy, h0⟩
    rw [key src 0 hl h0]
    rfl

/-- A lanelet without length and with speed limit 0 makes the time undefined: lane changes that need time are then never possible. -/
theorem timeChange_undefined (m : Module F) (hm : 0 < m.minChange) (max : F) (length limit : Prim → F) (src dst : List LH) (x : LH)
    (hl : length (.inl x) = 0) (h0 : limit (.inl x) = 0) :
    timeChange m max length (fun p => some (limit p)) (x :: src) dst = some .pinf := by
  unfold timeChange
  rw [if_neg (not_le.mpr hm), List.foldlM_cons, travelTime_cases]
  simp only [hl, h0, if_true]
  have := time_fold_nan max length limit src
  simp only [Option.bind_eq_bind, Option.bind_some, Option.pure_def] at this ⊢
  have h2 : ∀ y : Dbl F, Dbl.add y .nan = .nan := fun y => by cases y <;> rfl
  rw [h2, this]
  rfl

theorem time_fold_none (max : F) (length : Prim → F) (limit : Prim → Option F) (l : List LH) : ∀ acc,
    l.foldlM (fun acc x => do return Dbl.add acc (← travelTime max length limit (.inl x))) acc = none ↔ ∃ x ∈ l, limit (.inl x) = none := by
  induction l with
  | nil => intro acc; simp
  | cons a l ih =>
    intro acc
    rw [List.foldlM_cons]
    cases e : limit (.inl a) with
    | none => simp [travelTime, speedLimit, e]
    | some v =>
      have : ∃ t, travelTime max length limit (.inl a) = some t := by
        unfold travelTime speedLimit
        rw [e]
        by_cases h : v = 0 <;> simp [h]
      obtain ⟨t, ht⟩ := this
      rw [ht]
      have h2 : (∃ x ∈ a :: l, limit (.inl x) = none) ↔ ∃ x ∈ l, limit (.inl x) = none := by simp [e]
      rw [h2]
      simp only [Option.bind_eq_bind, Option.bind_some, Option.pure_def] at ih ⊢
      exact ih _

/-- C52, disagreement. RoutingCostTravelTime::getCostLaneChange is noexcept: an infinite speed limit of one of the lanelets ends the program as
soon as a shortest time is set, whereas getCostSucceeding reports the same limit with an exception. -/
theorem infinite_speed_counterexample (m : Module F) (max : F) (length : Prim → F) (limit : Prim → Option F) :
    (∀ src dst, timeChange m max length limit src dst = none ↔ 0 < m.minChange ∧ ∃ l ∈ src, limit (.inl l) = none) ∧
    ∀ a b, timeSucc max length limit a b = none ↔ limit a = none ∨ limit b = none := by
  constructor
  · intro src dst
    unfold timeChange
    split
    · rename_i h; simp [not_lt.2 h]
    · rename_i h
      rw [← time_fold_none max length limit src (.fin 0)]
      simp only [Option.bind_eq_bind, Option.pure_def, Option.bind_eq_none_iff, reduceCtorEq, imp_false]
      constructor
      · intro k
        exact ⟨not_le.1 h, Option.eq_none_iff_forall_ne_some.2 k⟩
      · rintro ⟨-, k⟩ a e
        rw [k] at e; cases e
  · intro a b
    have key : ∀ p, travelTime max length limit p = none ↔ limit p = none := by
      intro p
      unfold travelTime speedLimit
      cases e : limit p with
      | none => simp
      | some v => by_cases h : v = 0 <;> simp [h]
    unfold timeSucc
    rw [← key a, ← key b]
    cases travelTime max length limit a <;> cases travelTime max length limit b <;> simp

theorem timeChange_nonneg (m : Module F) (hm : 0 ≤ m.laneChangeCost) (max : F) (length limit : Prim → F)
    (src dst : List LH) : ((timeChange m max length (fun p => some (limit p)) src dst).getD .nan).negative = false := by
  unfold timeChange
  by_cases h1 : m.minChange ≤ 0
  · rw [if_pos h1]; simpa [Dbl.negative] using hm
  · rw [if_neg h1]
    cases src.foldlM (fun acc l => do
      return Dbl.add acc (← travelTime max length (fun p => some (limit p)) (.inl l))) (Dbl.fin 0) with
    | none => rfl
    | some t =>
      simp only [Option.bind_eq_bind, Option.bind_some, Option.pure_def, Option.getD_some]
      split
      · simpa [Dbl.negative] using hm
      · rfl

/-- So the shipped modules meet what the graph construction and the search rely on. -/
theorem modules_ok (w : Verif.Build.Input P (Dbl F)) (md mt : Module F) (hd : 0 ≤ md.laneChangeCost)
    (ht : 0 ≤ mt.laneChangeCost) (max : F) (length limit : Prim → F) (hl : ∀ p, 0 ≤ length p) (hv : ∀ p, 0 ≤ limit p)
    (hw : w.tests = dblTests ∧ w.one = .fin 1 ∧ w.costs = [distanceModule md length, timeModule mt max length limit]) :
    CostsOk w := by
  obtain ⟨h1, h2, h3⟩ := hw
  refine ⟨by rw [h1, h2]; rfl, by rw [h1, h2]; simp [dblTests, Dbl.negative], ?_, ?_⟩
  · intro c hc a b
    rw [h1]
    rw [h3] at hc
    simp only [List.mem_cons, List.not_mem_nil, or_false] at hc
    rcases hc with rfl | rfl
    · exact (distanceSucc_spec length hl a b).2
    · obtain ⟨c, c1, c2, -⟩ := timeSucc_spec max length limit hl hv a b
      simpa [timeModule, c1, dblTests] using c2
  · intro c hc a b
    rw [h1]
    rw [h3] at hc
    simp only [List.mem_cons, List.not_mem_nil, or_false] at hc
    rcases hc with rfl | rfl
    · simp only [distanceModule, dblTests, distanceChange]
      split
      · simpa [Dbl.negative] using hd
      · split
        · simpa [Dbl.negative] using hd
        · rfl
    · exact timeChange_nonneg mt ht max length limit a b

/-- Left and Right edges of the distance cost exist only where the lane change is possible on a chain of lanelets that is
long enough. -/
theorem laneChange_min_length [DecidableEq P] (i : Input P (Dbl F)) (hi : InputOk i) (ok : CostsOk i)
    (g : RGraph Prim (Dbl F)) (hg : build i = some g) (k : Nat) (m : Module F) (length : Prim → F)
    (hl : ∀ p, 0 ≤ length p) (hk : i.costs[k]? = some (distanceModule m length)) (ht : i.tests = dblTests)
    (isLeft : Bool) (a b : LH) (x : EdgeInfo (Dbl F)) (hx : x ∈ edgesOf g (.inl a) (.inl b)) (hxk : x.costId = k)
    (hr : x.relation = if isLeft then Left else Right) :
    x.routingCost = .fin m.laneChangeCost ∧ ∃ c, c.head? = some (a, b) ∧ LaneChangeChain i g isLeft c ∧
      (m.minChange ≤ (c.map fun p => length (.inl p.1)).sum ∨ m.minChange ≤ 0) := by
  obtain ⟨la, lb, e1, e2, -, -, -, -, -, c, mm, c1, c2, c3, c4, c5⟩ :=
    Verif.Build.laneChange_sound i hi ok g hg isLeft _ _ x hx hr
  obtain rfl := Sum.inl.inj e1
  obtain rfl := Sum.inl.inj e2
  rw [hxk, hk] at c3
  obtain rfl := Option.some.inj c3
  have hfin : distanceChange m length (c.map (·.1)) (c.map (·.2)) = .fin m.laneChangeCost := by
    have h5 : (distanceChange m length (c.map (·.1)) (c.map (·.2))).isFinite = true := by
      rw [c4, ht] at c5; exact c5
    unfold distanceChange at h5 ⊢
    split
    · rfl
    · rename_i hm
      rw [if_neg hm] at h5
      simp only at h5 ⊢
      split
      · rfl
      · rename_i hm2
        rw [if_neg hm2] at h5
        simp [Dbl.isFinite] at h5
  refine ⟨by rw [c4]; exact hfin, c, c1, c2, ?_⟩
  have := (distanceChange_iff m length hl (c.map (·.1)) (c.map (·.2))).1.mp hfin
  simpa [List.map_map, Function.comp_def] using this

/-- A negative cost is rejected with an error and does not enter the graph. -/
theorem negative_rejected {V : Type} [DecidableEq V] {K : Type} (t : CostTests K) (g g' : RGraph V K) (a b : V) (x : EdgeInfo K)
    (hfin : t.isFinite x.routingCost = true) (hneg : t.negative x.routingCost = true) :
    g.addEdge t a b x = .ok g' → g' = g ∧ (g.getVertex a = none ∨ g.getVertex b = none) := by
  unfold RGraph.addEdge RGraph.addEdgeV
  intro h
  cases ha : g.getVertex a with
  | none => rw [ha] at h; simp at h; exact ⟨h.symm, .inl rfl⟩
  | some u =>
    cases hb : g.getVertex b with
    | none => rw [ha, hb] at h; simp at h; exact ⟨h.symm, .inr rfl⟩
    | some v => rw [ha, hb] at h; simp [hfin, hneg] at h

theorem foldlM_keeps {α β : Type} (J : β → Prop) (f : β → α → Option β) (l : List α)
    (h : ∀ b x b', J b → f b x = some b' → J b') : ∀ b b', J b → l.foldlM f b = some b' → J b' := by
  induction l with
  | nil => intro b b' hb e; simp only [List.foldlM_nil, Option.pure_def, Option.some.injEq] at e; exact e ▸ hb
  | cons x l ih =>
    intro b b' hb e
    rw [List.foldlM_cons] at e
    cases h1 : f b x with
    | none => rw [h1] at e; simp at e
    | some c => rw [h1] at e; exact ih c b' (h b x c hb h1) e

/-- what every inserted edge keeps holds for the built graph -/
theorem build_keeps [DecidableEq P] {K : Type} (i : Input P K) (I : RGraph Prim K → Prop)
    (h0 : ∀ n vs, I ⟨n, vs, []⟩)
    (hadd : ∀ g g' a b x, I g → g.addEdge i.tests a b x = .ok g' → I g')
    (g : RGraph Prim K) (hg : build i = some g) : I g := by
  have hopt : ∀ g g' a b x, I g → (g.addEdge i.tests a b x).toOption = some g' → I g' := by
    intro g g' a b x hI h
    cases h1 : g.addEdge i.tests a b x with
    | error e => rw [h1] at h; simp [Except.toOption] at h
    | ok y => rw [h1] at h; simp only [Except.toOption, Option.some.injEq] at h; subst h; exact hadd _ _ _ _ _ hI h1
  have hassign : ∀ g g' a b rel, I g → Verif.Build.assignCosts i g a b rel = some g' → I g' := by
    intro g g' a b rel hI h
    refine foldlM_keeps I _ _ ?_ g g' hI h
    intro g ci g' hI h
    split at h
    · exact hopt _ _ _ _ _ hI h
    · split at h
      · split at h
        · exact hopt _ _ _ _ _ hI h
        · simp at h
      · exact hopt _ _ _ _ _ hI h
  have hif : ∀ c g g' a b rel, I g → Verif.Build.assignIf i c g a b rel = some g' → I g' := by
    intro c g g' a b rel hI h
    unfold Verif.Build.assignIf at h
    split at h
    · exact hassign _ _ _ _ _ hI h
    · simp only [Option.some.injEq] at h; exact h ▸ hI
  have hfollow : ∀ s s' ll, I s.g → Verif.Build.addFollowingEdges i s ll = some s' → I s'.g := by
    intro s s' ll hI h
    simp only [Verif.Build.addFollowingEdges, Option.bind_eq_bind, Option.bind_eq_some_iff, Option.pure_def,
      Option.some.injEq] at h
    obtain ⟨_, _, _, _, g, h1, rfl⟩ := h
    exact foldlM_keeps I _ _ (fun g x g' hI h => hassign _ _ _ _ _ hI h) _ _ hI h1
  have hside : ∀ s m ll isL s' m', I s.g → Verif.Build.addSidewayEdge i s m ll isL = some (s', m') → I s'.g := by
    intro s m ll isL s' m' hI h
    simp only [Verif.Build.addSidewayEdge, Option.bind_eq_bind, Option.bind_eq_some_iff, Option.pure_def,
      Option.some.injEq, Prod.mk.injEq] at h
    obtain ⟨_, _, gm, h1, rfl, -⟩ := h
    refine foldlM_keeps (fun gm => I gm.1) _ _ ?_ (s.g, m) gm hI h1
    intro gm x gm' hI h
    repeat' split at h
    all_goals first
      | exact Option.some.inj h ▸ hI
      | (obtain ⟨g, hh, rfl⟩ := Option.map_eq_some_iff.mp h
         exact hassign _ _ _ _ _ hI hh)
  have hconf : ∀ s s' ll, I s.g → Verif.Build.addConflictingEdge i s ll = some s' → I s'.g := by
    intro s s' ll hI h
    simp only [Verif.Build.addConflictingEdge, Option.bind_eq_bind, Option.bind_eq_some_iff, Option.pure_def,
      Option.some.injEq] at h
    obtain ⟨g, h1, rfl⟩ := h
    refine foldlM_keeps I _ _ ?_ _ _ hI h1
    intro g x g' hI h
    split at h
    · obtain ⟨g1, h1, h2⟩ := Option.bind_eq_some_iff.mp h
      exact hassign _ _ _ _ _ (hassign _ _ _ _ _ hI h1) h2
    · split at h
      · simp only [Option.some.injEq] at h; subst h; exact hI
      · split at h
        · simp only [Option.some.injEq] at h; subst h; exact hI
        · split at h
          · obtain ⟨g1, h1, h2⟩ := Option.bind_eq_some_iff.mp h
            exact hassign _ _ _ _ _ (hassign _ _ _ _ _ hI h1) h2
          · simp only [Option.some.injEq] at h; subst h; exact hI
  have hlc : ∀ isL ch g g', I g → Verif.Build.assignLaneChangeCosts i isL ch g = some g' → I g' := by
    intro isL ch
    induction ch with
    | nil => intro g g' hI h; simp only [Verif.Build.assignLaneChangeCosts, Option.some.injEq] at h; exact h ▸ hI
    | cons p rest ih =>
      intro g g' hI h
      obtain ⟨f, t⟩ := p
      simp only [Verif.Build.assignLaneChangeCosts, Option.bind_eq_bind, Option.bind_eq_some_iff] at h
      obtain ⟨g1, h1, h2⟩ := h
      refine ih g1 g' (foldlM_keeps I _ _ ?_ _ _ hI h1) h2
      intro g ci g' hI h
      split at h
      · exact hopt _ _ _ _ _ hI h
      · exact hopt _ _ _ _ _ hI h
  have hloop : ∀ isL g m pos g', I g → Verif.Build.laneChangeLoop i isL g m pos = some g' → I g' := by
    intro isL g m pos g' hI h
    refine Verif.Build.laneChangeLoop.partial_correctness i isL (motive := fun g m pos g' => I g → I g') ?_ g m pos g' h hI
    intro loop ih g m pos g' h hI
    simp only [Option.bind_eq_bind, Option.bind_eq_some_iff, Option.pure_def] at h
    obtain ⟨r, -, h⟩ := h
    split at h
    · simp only [Option.some.injEq] at h; exact h ▸ hI
    · obtain ⟨g1, h1, h2⟩ := Option.bind_eq_some_iff.mp h
      exact ih _ _ _ _ h2 (hlc _ _ _ _ hI h1)
  have hstep : ∀ l ll l', I l.s.g → Verif.Build.laneletStep i l ll = some l' → I l'.s.g := by
    intro l ll l' hI h
    simp only [Verif.Build.laneletStep, Option.bind_eq_bind, Option.bind_eq_some_iff, Option.pure_def,
      Option.some.injEq] at h
    obtain ⟨s1, h1, ⟨s2, m2⟩, h2, ⟨s3, m3⟩, h3, s4, h4, rfl⟩ := h
    exact hconf _ _ _ (hside _ _ _ _ _ _ (hside _ _ _ _ _ _ (hfollow _ _ _ hI h1) h2) h3) h4
  simp only [build, Option.bind_eq_bind, Option.bind_eq_some_iff, Verif.Build.addLaneletEdges] at hg
  obtain ⟨s, hs, g2, ⟨l, hl, g1, hg1, hg2⟩, ha⟩ := hg
  have hI0 : I s.g := by
    simp only [Verif.Build.initial, Option.bind_eq_bind, Option.bind_eq_some_iff, Option.pure_def,
      Option.some.injEq] at hs
    obtain ⟨_, _, rfl⟩ := hs
    exact h0 _ _
  have hIl := foldlM_keeps (fun l : Verif.Build.Loop K => I l.s.g) _ _ (fun l x l' hI h => hstep l x l' hI h) _ _ hI0 hl
  have hI2 := hloop _ _ _ _ _ (hloop _ _ _ _ _ hIl hg1) hg2
  refine foldlM_keeps I _ _ ?_ _ _ hI2 ha
  intro g ar g' hI h
  obtain ⟨g1, h1, h2⟩ := Option.bind_eq_some_iff.mp h
  have hI1 : I g1 := by
    refine foldlM_keeps I _ _ ?_ _ _ hI h1
    intro g c g' hI h
    simp only [Option.bind_eq_bind, Option.bind_eq_some_iff] at h
    obtain ⟨g1, h1, g2, h2, g3, h3, g4, h4, h⟩ := h
    have hI4 := hif _ _ _ _ _ _ (hif _ _ _ _ _ _ (hif _ _ _ _ _ _ (hif _ _ _ _ _ _ hI h1) h2) h3) h4
    split at h
    · simp only [Option.some.injEq] at h; exact h ▸ hI4
    · exact hif _ _ _ _ _ _ hI4 h
  refine foldlM_keeps I _ _ ?_ _ _ hI1 h2
  intro g c g' hI h
  split at h
  · simp only [Option.some.injEq] at h; exact h ▸ hI
  · split at h
    · exact hassign _ _ _ _ _ hI h
    · split at h
      · exact hassign _ _ _ _ _ hI h
      · simp only [Option.some.injEq] at h; exact h ▸ hI

/-- All costs in a built graph are finite and not negative, for all maps, rules and cost modules, even misbehaving ones. -/
theorem built_costs [DecidableEq P] {K : Type} (i : Input P K) (g : RGraph Prim K)
    (hg : build i = some g) : ∀ e ∈ g.edges,
    i.tests.isFinite e.info.routingCost = true ∧ i.tests.negative e.info.routingCost = false := by
  refine build_keeps i (fun g => ∀ e ∈ g.edges,
    i.tests.isFinite e.info.routingCost = true ∧ i.tests.negative e.info.routingCost = false)
    (by intro n vs e he; simp at he) ?_ g hg
  intro g g' a b x hI h
  unfold RGraph.addEdge RGraph.addEdgeV at h
  split at h
  · split at h
    · simp only [Except.ok.injEq] at h; exact h ▸ hI
    · rename_i hf
      split at h
      · simp at h
      · rename_i hn
        simp only [Except.ok.injEq] at h
        subst h
        intro e he
        simp only [List.mem_append, List.mem_singleton] at he
        rcases he with he | rfl
        · exact hI e he
        · exact ⟨by simpa using hf, by simpa using hn⟩
  · simp only [Except.ok.injEq] at h; exact h ▸ hI

/-- a concrete case: lanelets of length 30, minimum 50 m: a chain of two lane changes is long enough, a single one is not -/
example : mkModule (2 : Rat) 50 = some ⟨2, 50⟩ ∧
    distanceChange (⟨2, 50⟩ : Module Rat) (fun _ => 30) [⟨0, false⟩, ⟨1, false⟩] [] = .fin 2 ∧
    distanceChange (⟨2, 50⟩ : Module Rat) (fun _ => 30) [⟨0, false⟩] [] = .pinf ∧
    timeSucc (1000 : Rat) (fun _ => 30) (fun _ => some 10) (.inl ⟨0, false⟩) (.inr 0) = some (.fin 3) ∧
    mkModule (-1 : Rat) 50 = none := by decide +kernel

-- an infinite speed limit
example : timeChange (⟨2, 5⟩ : Module Rat) 1000 (fun _ => 30) (fun p => if p = .inl ⟨1, false⟩ then none else some 10)
    [⟨0, false⟩, ⟨1, false⟩] [] = none := by decide +kernel

end Verif.Cost
