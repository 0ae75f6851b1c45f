import Verif.Route.Props
import Mathlib.Data.List.Chain

/-!
Properties C30 and C31: the queries of a route.
-/
set_option linter.unusedSectionVars false
namespace Verif.Route
open Verif.Graph Verif.Graph.RelationType
open Relation (ReflTransGen TransGen EqvGen)
variable {P K : Type} [DecidableEq P]

/-! ### lemmas: lanes by vertices -/

/-- the next vertex of the lane -/
def nextV (g : RGraph P K) (v : Nat) : Option Nat :=
  match g.outEdges 0 withoutLaneChanges v with
  | [e] => if (g.inEdges 0 withoutLaneChanges e.dst).length = 1 then some e.dst else none
  | _ => none

/-- the previous vertex of the lane -/
def prevV (g : RGraph P K) (v : Nat) : Option Nat :=
  match g.inEdges 0 withoutLaneChanges v with
  | [e] => if (g.outEdges 0 withoutLaneChanges e.src).length = 1 then some e.src else none
  | _ => none

theorem mem_out {g : RGraph P K} {v : Nat} {e : BaseEdge K} :
    e ∈ g.outEdges 0 withoutLaneChanges v ↔ e ∈ g.edges ∧ e.src = v ∧ passes 0 withoutLaneChanges e.info = true := by
  simp [RGraph.outEdges]

theorem mem_in {g : RGraph P K} {v : Nat} {e : BaseEdge K} :
    e ∈ g.inEdges 0 withoutLaneChanges v ↔ e ∈ g.edges ∧ e.dst = v ∧ passes 0 withoutLaneChanges e.info = true := by
  simp [RGraph.inEdges]

theorem nextV_iff {g : RGraph P K} {u v : Nat} :
    nextV g u = some v ↔ ∃ e, g.outEdges 0 withoutLaneChanges u = [e] ∧ g.inEdges 0 withoutLaneChanges v = [e] ∧ e.src = u ∧ e.dst = v := by
  unfold nextV
  constructor
  · intro h
    split at h
    · rename_i e he
      split at h
      · rename_i hl
        cases h
        have hm := mem_out.mp (show e ∈ g.outEdges 0 withoutLaneChanges u by rw [he]; simp)
        obtain ⟨a, ha⟩ := List.length_eq_one_iff.mp hl
        have : e ∈ [a] := by rw [← ha]; exact mem_in.mpr ⟨hm.1, rfl, hm.2.2⟩
        simp only [List.mem_singleton] at this
        exact ⟨e, he, by rw [ha, this], hm.2.1, rfl⟩
      · cases h
    · cases h
  · rintro ⟨e, h1, h2, h3, rfl⟩
    rw [h1]
    simp only
    rw [h2]
    rfl

theorem prevV_iff {g : RGraph P K} {u v : Nat} : prevV g v = some u ↔ nextV g u = some v := by
  rw [nextV_iff]
  unfold prevV
  constructor
  · intro h
    split at h
    · rename_i e he
      split at h
      · rename_i hl
        cases h
        have hm := mem_in.mp (show e ∈ g.inEdges 0 withoutLaneChanges v by rw [he]; simp)
        obtain ⟨a, ha⟩ := List.length_eq_one_iff.mp hl
        have : e ∈ [a] := by rw [← ha]; exact mem_out.mpr ⟨hm.1, rfl, hm.2.2⟩
        simp only [List.mem_singleton] at this
        exact ⟨e, by rw [ha, this], he, rfl, hm.2.1⟩
      · cases h
    · cases h
  · rintro ⟨e, h1, h2, rfl, h4⟩
    rw [h2]
    simp only
    rw [h1]
    rfl

theorem nextV_inj {g : RGraph P K} {a b v : Nat} (h1 : nextV g a = some v) (h2 : nextV g b = some v) : a = b := by
  rw [← prevV_iff] at h1 h2
  rw [h1] at h2
  exact Option.some.inj h2

theorem nextV_lt {t : CostTests K} {g : RGraph P K} (wf : WF t g) {u v : Nat} (h : nextV g u = some v) :
    u < g.vertices.length ∧ v < g.vertices.length := by
  obtain ⟨e, h1, h2, rfl, rfl⟩ := nextV_iff.mp h
  have := (mem_out.mp (show e ∈ g.outEdges 0 withoutLaneChanges e.src by rw [h1]; simp)).1
  exact ⟨wf.src e this, wf.dst e this⟩

theorem remainingLaneLoop_eq (g : RGraph P K) (start v : Nat) : remainingLaneLoop g start v =
    match nextV g v with
    | none => some [v]
    | some w => if w = start then some [v] else (remainingLaneLoop g start w).map (v :: ·) := by
  rw [remainingLaneLoop]
  unfold nextV
  rcases hx : g.outEdges 0 withoutLaneChanges v with _ | ⟨e, _ | ⟨e', l⟩⟩
  · rfl
  · simp only [ne_eq]
    by_cases hl : (g.inEdges 0 withoutLaneChanges e.dst).length = 1
    · simp only [hl, not_true, if_false, if_true]
      by_cases hs : e.dst = start
      · simp [hs]
      · simp only [hs, if_false]
        cases remainingLaneLoop g start e.dst <;> rfl
    · simp [hl]
  · rfl

theorem fullLaneLoop_eq (g : RGraph P K) (start v : Nat) : fullLaneLoop g start v =
    match prevV g v with
    | none => some v
    | some w => if w = start then some w else fullLaneLoop g start w := by
  rw [fullLaneLoop]
  unfold prevV
  rcases hx : g.inEdges 0 withoutLaneChanges v with _ | ⟨e, _ | ⟨e', l⟩⟩
  · rfl
  · simp only [ne_eq]
    by_cases hl : (g.outEdges 0 withoutLaneChanges e.src).length = 1
    · simp only [hl, not_true, if_false, if_true]
    · simp [hl]
  · rfl

theorem nodup_le {l : List Nat} {n : Nat} (h : l.Nodup) (hb : ∀ x ∈ l, x < n) : l.length ≤ n := by
  have := (List.subperm_of_subset h (l₂ := List.range n) fun x hx => List.mem_range.mpr (hb x hx)).length_le
  simpa using this

/-- the lane from a vertex on -/
theorem remainingLaneLoop_spec {t : CostTests K} {g : RGraph P K} (wf : WF t g) (start : Nat) : ∀ (k v : Nat) (pre : List Nat),
    g.vertices.length - pre.length ≤ k → (pre ++ [v]).IsChain (fun a b => nextV g a = some b) → (pre ++ [v]).head? = some start →
    (pre ++ [v]).Nodup → (∀ x ∈ pre ++ [v], x < g.vertices.length) →
    ∃ l, remainingLaneLoop g start v = some (v :: l) ∧ (pre ++ v :: l).Nodup ∧ (v :: l).IsChain (fun a b => nextV g a = some b) ∧
      (∀ x ∈ v :: l, x < g.vertices.length) ∧ ∀ a w, (v :: l).getLast? = some a → nextV g a = some w → w = start := by
  intro k
  induction k with
  | zero =>
    intro v pre hk _ _ hn hb
    have := nodup_le hn hb
    simp only [List.length_append, List.length_cons, List.length_nil] at this
    omega
  | succ k ih =>
    intro v pre hk hc hs hn hb
    rw [remainingLaneLoop_eq]
    cases hv : nextV g v with
    | none =>
      refine ⟨[], rfl, hn, by simp, fun x hx => hb x (by simp at hx; simp [hx]), ?_⟩
      intro a w ha hw
      simp only [List.getLast?_singleton, Option.some.injEq] at ha
      subst ha
      rw [hv] at hw
      cases hw
    | some w =>
      simp only
      by_cases hws : w = start
      · rw [if_pos hws]
        refine ⟨[], rfl, hn, by simp, fun x hx => hb x (by simp at hx; simp [hx]), ?_⟩
        intro a w' ha hw'
        simp only [List.getLast?_singleton, Option.some.injEq] at ha
        subst ha
        rw [hv] at hw'
        cases hw'
        exact hws
      · rw [if_neg hws]
        have hwn : w ∉ pre ++ [v] := by
          intro hw
          obtain ⟨j, hj, hjw⟩ := List.mem_iff_getElem.mp hw
          have hj0 : j ≠ 0 := by
            rintro rfl
            rw [List.head?_eq_getElem?, List.getElem?_eq_getElem hj] at hs
            exact hws (by rw [← hjw]; exact Option.some.inj hs)
          obtain ⟨i, rfl⟩ := Nat.exists_eq_succ_of_ne_zero hj0
          have h1 := List.isChain_iff_getElem.mp hc i hj
          rw [hjw] at h1
          have h2 := nextV_inj h1 hv
          have h3 : (pre ++ [v])[i] = (pre ++ [v])[pre.length]'(by simp) := by rw [h2]; simp
          have h4 := (List.Nodup.getElem_inj_iff hn).mp h3
          simp only [List.length_append, List.length_cons, List.length_nil] at hj
          omega
        obtain ⟨l, k1, k2, k3, k4, k5⟩ := ih w (pre ++ [v]) (by simp; omega) (by
            rw [List.isChain_append]
            refine ⟨hc, by simp, ?_⟩
            intro x hx y hy
            simp only [List.getLast?_append, List.getLast?_singleton, Option.some_or, Option.mem_def, Option.some.injEq] at hx
            simp only [List.head?_cons, Option.mem_def, Option.some.injEq] at hy
            subst hx hy
            exact hv) (by rw [List.head?_append, hs]; rfl) (by
            rw [List.nodup_append]
            refine ⟨hn, by simp, ?_⟩
            intro x hx y hy
            simp only [List.mem_singleton] at hy
            subst hy
            rintro rfl
            exact hwn hx) (by
            intro x hx
            rcases List.mem_append.mp hx with hx | hx
            · exact hb x hx
            · simp only [List.mem_singleton] at hx
              subst hx
              exact (nextV_lt wf hv).2)
        refine ⟨w :: l, by rw [k1]; rfl, by simpa using k2, ?_, ?_, ?_⟩
        · rw [List.isChain_cons_cons]; exact ⟨hv, k3⟩
        · intro x hx
          rcases List.mem_cons.mp hx with rfl | hx
          · exact hb _ (by simp)
          · exact k4 x hx
        · intro a w' ha hw'
          rw [List.getLast?_cons_cons] at ha
          exact k5 a w' ha hw'

/-- the beginning of the lane -/
theorem fullLaneLoop_spec {t : CostTests K} {g : RGraph P K} (wf : WF t g) (start : Nat) : ∀ (k v : Nat) (suf : List Nat),
    g.vertices.length - suf.length ≤ k → (v :: suf).IsChain (fun a b => nextV g a = some b) → (v :: suf).getLast? = some start →
    (v :: suf).Nodup → (∀ x ∈ v :: suf, x < g.vertices.length) →
    ∃ b, fullLaneLoop g start v = some b ∧ b < g.vertices.length ∧ ReflTransGen (fun a b => nextV g a = some b) b start ∧
      (prevV g b = none ∨ (b = start ∧ TransGen (fun a b => nextV g a = some b) start start)) := by
  intro k
  induction k with
  | zero =>
    intro v suf hk _ _ hn hb
    have := nodup_le hn hb
    simp only [List.length_cons] at this
    omega
  | succ k ih =>
    intro v suf hk hc hs hn hb
    have hreach : ReflTransGen (fun a b => nextV g a = some b) v start := by
      have hl : start = (v :: suf).getLast (by simp) := by
        rw [List.getLast?_eq_some_getLast (by simp)] at hs
        exact (Option.some.inj hs).symm
      rw [hl]
      exact List.relationReflTransGen_of_exists_isChain_cons suf hc rfl
    rw [fullLaneLoop_eq]
    cases hv : prevV g v with
    | none => exact ⟨v, rfl, hb v (by simp), hreach, .inl hv⟩
    | some w =>
      have hnx := prevV_iff.mp hv
      simp only
      by_cases hws : w = start
      · rw [if_pos hws]
        subst hws
        exact ⟨w, rfl, (nextV_lt wf hnx).1, .refl, .inr ⟨rfl, .head' hnx hreach⟩⟩
      · rw [if_neg hws]
        have hwn : w ∉ v :: suf := by
          intro hw
          obtain ⟨j, hj, hjw⟩ := List.mem_iff_getElem.mp hw
          by_cases hjl : j + 1 < (v :: suf).length
          · have h1 := List.isChain_iff_getElem.mp hc j hjl
            rw [hjw, hnx] at h1
            have h3 : (v :: suf)[0]'(by simp) = (v :: suf)[j+1] := Option.some.inj h1
            have h4 := (List.Nodup.getElem_inj_iff hn).mp h3
            omega
          · have : j = (v :: suf).length - 1 := by omega
            subst this
            rw [List.getLast?_eq_getElem?, List.getElem?_eq_getElem hj] at hs
            exact hws (by rw [← hjw]; exact Option.some.inj hs)
        exact ih w (v :: suf) (by simp; omega) (by rw [List.isChain_cons_cons]; exact ⟨hnx, hc⟩)
          (by rw [List.getLast?_cons_cons]; exact hs) (by rw [List.nodup_cons]; exact ⟨hwn, hn⟩) (by
            intro x hx
            rcases List.mem_cons.mp hx with rfl | hx
            · exact (nextV_lt wf hnx).1
            · exact hb x hx)

/-! ### lanes by lanelets -/

theorem laneGoesOn_iff {t : CostTests K} {r : Route P K} (wf : WF t r.graph.graph) {u v : Nat} {p q : P} (hp : r.graph.graph.vertices[u]? = some p)
    (hq : r.graph.graph.vertices[v]? = some q) : r.LaneGoesOn p q ↔ nextV r.graph.graph u = some v := by
  unfold Route.LaneGoesOn Route.following Route.previous RGraph.getAllEdges
  rw [(getVertex_iff wf.nodup).mpr hp, (getVertex_iff wf.nodup).mpr hq]
  simp only [if_true, Bool.false_eq_true, if_false]
  rw [elements_single wf.nodup (end_ := (·.dst)) (l := r.graph.graph.outEdges 0 withoutLaneChanges u)
      (fun e he => wf.dst e (List.mem_of_mem_filter he)) hq,
    elements_single wf.nodup (end_ := (·.src)) (l := r.graph.graph.inEdges 0 withoutLaneChanges v)
      (fun e he => wf.src e (List.mem_of_mem_filter he)) hp, nextV_iff]
  constructor
  · rintro ⟨⟨e, h1, h2⟩, ⟨e', h3, h4⟩⟩
    have hm := mem_out.mp (show e ∈ _ by rw [h1]; simp)
    have : e ∈ [e'] := by rw [← h3]; exact mem_in.mpr ⟨hm.1, h2, hm.2.2⟩
    simp only [List.mem_singleton] at this
    subst this
    exact ⟨e, h1, h3, h4, h2⟩
  · rintro ⟨e, h1, h2, h3, h4⟩
    exact ⟨⟨e, h1, h4⟩, ⟨e, h2, h3⟩⟩

theorem laneGoesOn_members {r : Route P K} {p q : P} (h : r.LaneGoesOn p q) :
    p ∈ r.members ∧ q ∈ r.members := by
  unfold Route.LaneGoesOn Route.following Route.previous RGraph.getAllEdges at h
  obtain ⟨h1, h2⟩ := h
  constructor
  · by_contra hp
    rw [getVertex_none hp] at h1
    cases h1
  · by_contra hq
    rw [getVertex_none hq] at h2
    cases h2

theorem lanelets_map {g : RGraph P K} : ∀ {l : List Nat}, (∀ x ∈ l, x < g.vertices.length) → (lanelets g l).map some = l.map (g.vertices[·]?) := by
  intro l
  induction l with
  | nil => intro _; rfl
  | cons a l ih =>
    intro h
    have ha : g.vertices[a]? = some (g.vertices[a]'(h a (by simp))) := List.getElem?_eq_getElem _
    have := ih fun x hx => h x (by simp [hx])
    unfold lanelets at this ⊢
    rw [List.filterMap_cons, ha]
    simp only [List.map_cons]
    rw [this, ha]

theorem lanelets_get {g : RGraph P K} {l : List Nat} (h : ∀ x ∈ l, x < g.vertices.length) (i : Nat) :
    (lanelets g l)[i]? = (l[i]?).bind (g.vertices[·]?) := by
  have := congrArg (fun l => l[i]?) (lanelets_map h)
  simp only [List.getElem?_map] at this
  cases hi : l[i]? with
  | none => rw [hi] at this; simpa using this
  | some x =>
    rw [hi] at this
    simp only [Option.map_some, Option.bind_some] at this ⊢
    cases hl : (lanelets g l)[i]? with
    | none => rw [hl] at this; cases this
    | some p => rw [hl] at this; exact Option.some.inj this

theorem lanelets_length {g : RGraph P K} {l : List Nat} (h : ∀ x ∈ l, x < g.vertices.length) : (lanelets g l).length = l.length := by
  have := congrArg List.length (lanelets_map h)
  simpa using this

theorem lanelets_nodup {g : RGraph P K} (hn : g.vertices.Nodup) {l : List Nat} (h : ∀ x ∈ l, x < g.vertices.length) (hl : l.Nodup) :
    (lanelets g l).Nodup := sees_nodup (g := g) (r := ⟨0, lanelets g l, []⟩) hn (lanelets_map h) hl

theorem lanelets_mem {g : RGraph P K} {l : List Nat} {p : P} (hp : p ∈ lanelets g l) : p ∈ g.vertices := by
  simp only [lanelets, List.mem_filterMap] at hp
  obtain ⟨v, -, hv⟩ := hp
  exact List.mem_of_getElem? hv

theorem lanelets_chain {t : CostTests K} {r : Route P K} (wf : WF t r.graph.graph) {l : List Nat}
    (h : ∀ x ∈ l, x < r.graph.graph.vertices.length) (hc : l.IsChain fun a b => nextV r.graph.graph a = some b) :
    (lanelets r.graph.graph l).IsChain r.LaneGoesOn := by
  rw [List.isChain_iff_getElem] at hc ⊢
  intro i hi
  have hl := lanelets_length h
  have h1 := lanelets_get h i
  have h2 := lanelets_get h (i + 1)
  rw [List.getElem?_eq_getElem (by omega), List.getElem?_eq_getElem (show i < l.length by omega)] at h1
  rw [List.getElem?_eq_getElem (by omega), List.getElem?_eq_getElem (show i + 1 < l.length by omega)] at h2
  exact (laneGoesOn_iff wf h1.symm h2.symm).mpr (hc i (by omega))

section
variable {t : CostTests K} {r : Route P K}

/-- C30: `remainingLane` starts with the lanelet, goes on from each lanelet to the only one that follows and that has no other predecessor, repeats
no lanelet, and ends only where the lane ends or where it would come back to the first lanelet. It always ends. -/
theorem remainingLane_spec (hb : Built t r.graph.graph) {p : P} (hp : p ∈ r.members) :
    ∃ l, r.remainingLane p = some (p :: l) ∧ (p :: l).Nodup ∧ (p :: l).IsChain r.LaneGoesOn ∧ (∀ x ∈ l, x ∈ r.members) ∧
      ∀ a q, (p :: l).getLast? = some a → r.LaneGoesOn a q → q = p := by
  have wf := built_wf hb
  obtain ⟨v, hv⟩ := getVertex_isSome (show p ∈ r.graph.graph.vertices from hp)
  obtain ⟨hv1, hv2⟩ := getVertex_spec hv
  obtain ⟨l, h1, h2, h3, h4, h5⟩ := remainingLaneLoop_spec wf v _ v [] (le_refl _) (by simp) rfl (by simp) (by simpa using hv1)
  have hcons : lanelets r.graph.graph (v :: l) = p :: lanelets r.graph.graph l := by
    unfold lanelets
    rw [List.filterMap_cons, hv2]
  refine ⟨lanelets r.graph.graph l, ?_, ?_, ?_, ?_, ?_⟩
  · unfold Route.remainingLane
    rw [hv]
    simp only
    rw [h1, Option.map_some, hcons]
  · rw [← hcons]
    exact lanelets_nodup wf.nodup h4 h2
  · rw [← hcons]
    exact lanelets_chain wf h4 h3
  · exact fun x hx => lanelets_mem hx
  · intro a q ha hq
    rw [← hcons, List.getLast?_eq_getElem?, lanelets_length h4, lanelets_get h4, ← List.getLast?_eq_getElem?] at ha
    obtain ⟨u, hu, hua⟩ := Option.bind_eq_some_iff.mp ha
    obtain ⟨w, hw⟩ := List.mem_iff_getElem?.mp (laneGoesOn_members hq).2
    have := h5 u w hu ((laneGoesOn_iff wf hua hw).mp hq)
    subst this
    unfold Route.members at hw
    rw [hv2] at hw
    exact (Option.some.inj hw).symm

/-- C30: `fullLane` contains the lanelet, repeats no lanelet, goes on from each lanelet to the only one that follows and that has no other
predecessor, and is complete: a lanelet where the lane goes on from or to a lanelet of the result is in the result. It always ends. If the lane is
a circle, the result starts with the lanelet that was asked for. -/
theorem fullLane_spec (hb : Built t r.graph.graph) {p : P} (hp : p ∈ r.members) :
    ∃ l, r.fullLane p = some l ∧ p ∈ l ∧ l.Nodup ∧ l.IsChain r.LaneGoesOn ∧ (∀ x ∈ l, x ∈ r.members) ∧
      (∀ a b, r.LaneGoesOn a b → (a ∈ l ↔ b ∈ l)) ∧
      ∀ a b, l.head? = some b → r.LaneGoesOn a b → b = p := by
  have wf := built_wf hb
  obtain ⟨v, hv⟩ := getVertex_isSome (show p ∈ r.graph.graph.vertices from hp)
  obtain ⟨hv1, hv2⟩ := getVertex_spec hv
  obtain ⟨b, f1, f2, f3, f4⟩ := fullLaneLoop_spec wf v _ v [] (le_refl _) (by simp) rfl (by simp) (by simpa using hv1)
  obtain ⟨l, h1, h2, h3, h4, h5⟩ := remainingLaneLoop_spec wf b _ b [] (le_refl _) (by simp) rfl (by simp) (by simpa using f2)
  simp only [List.nil_append] at h2
  -- the vertices of the lane are closed
  have hfwd : ∀ {x y}, nextV r.graph.graph x = some y → x ∈ b :: l → y ∈ b :: l := by
    intro x y hxy hx
    obtain ⟨i, hi, hix⟩ := List.mem_iff_getElem.mp hx
    by_cases hil : i + 1 < (b :: l).length
    · have := List.isChain_iff_getElem.mp h3 i hil
      rw [hix, hxy] at this
      rw [Option.some.inj this]
      exact List.getElem_mem hil
    · have hlast : (b :: l).getLast? = some x := by
        rw [List.getLast?_eq_getElem?, ← hix, List.getElem?_eq_some_iff]
        have : (b :: l).length - 1 = i := by omega
        exact ⟨by omega, by simp only [this]⟩
      rw [h5 x y hlast hxy]
      simp
  have hreach : ∀ {x y}, ReflTransGen (fun a b => nextV r.graph.graph a = some b) x y → x ∈ b :: l → y ∈ b :: l := by
    intro x y h
    induction h with
    | refl => exact id
    | tail _ h2 ih => exact fun hx => hfwd h2 (ih hx)
  have hbwd : ∀ {x y}, nextV r.graph.graph x = some y → y ∈ b :: l → x ∈ b :: l := by
    intro x y hxy hy
    obtain ⟨i, hi, hiy⟩ := List.mem_iff_getElem.mp hy
    cases i with
    | zero =>
      simp only [List.getElem_cons_zero] at hiy
      subst hiy
      rcases f4 with f4 | ⟨rfl, f4⟩
      · rw [prevV_iff.mpr hxy] at f4; cases f4
      · obtain ⟨w, hw1, hw2⟩ := TransGen.tail'_iff.mp f4
        rw [nextV_inj hxy hw2]
        exact hreach hw1 (by simp)
    | succ i =>
      have := List.isChain_iff_getElem.mp h3 i hi
      rw [hiy] at this
      rw [nextV_inj hxy this]
      exact List.getElem_mem _
  have hmem : ∀ {x : Nat} {q : P}, r.graph.graph.vertices[x]? = some q → (q ∈ lanelets r.graph.graph (b :: l) ↔ x ∈ b :: l) :=
    fun hx => mem_lanelets wf.nodup hx
  refine ⟨lanelets r.graph.graph (b :: l), ?_, ?_, lanelets_nodup wf.nodup h4 h2, lanelets_chain wf h4 h3, fun x hx => lanelets_mem hx, ?_, ?_⟩
  · unfold Route.fullLane
    rw [hv]
    simp only [f1, h1, bind, Option.bind_some]
    rfl
  · exact (hmem hv2).mpr (hreach f3 (by simp))
  · intro x y hxy
    obtain ⟨m1, m2⟩ := laneGoesOn_members hxy
    obtain ⟨i, hi⟩ := List.mem_iff_getElem?.mp m1
    obtain ⟨j, hj⟩ := List.mem_iff_getElem?.mp m2
    have hn := (laneGoesOn_iff wf hi hj).mp hxy
    rw [hmem hi, hmem hj]
    exact ⟨hfwd hn, hbwd hn⟩
  · intro x y hy hxy
    obtain ⟨m1, m2⟩ := laneGoesOn_members hxy
    obtain ⟨i, hi⟩ := List.mem_iff_getElem?.mp m1
    obtain ⟨j, hj⟩ := List.mem_iff_getElem?.mp m2
    have hn := (laneGoesOn_iff wf hi hj).mp hxy
    rw [List.head?_eq_getElem?, lanelets_get h4] at hy
    simp only [List.getElem?_cons_zero, Option.bind_some] at hy
    have := vertex_inj wf.nodup hy hj
    subst this
    rcases f4 with f4 | ⟨rfl, -⟩
    · rw [prevV_iff.mpr hn] at f4; cases f4
    · rw [hv2] at hy; exact (Option.some.inj hy).symm

/-- C30: lanelets that are not on the route have no lane, no followers and no predecessors. -/
theorem not_in_route {p : P} (hp : p ∉ r.members) :
    r.contains p = false ∧ r.remainingLane p = some [] ∧ r.fullLane p = some [] ∧ r.following p = [] ∧ r.previous p = [] ∧
      r.conflictingInRoute p = [] ∧ r.conflictingInMap p = [] := by
  have h := getVertex_none (g := r.graph.graph) (p := p) hp
  simp [Route.contains, Route.remainingLane, Route.fullLane, Route.following, Route.previous, Route.conflictingInRoute, Route.conflictingInMap,
    RGraph.getAllEdges, h]

/-- C56: `conflictingInRoute` are exactly the lanelets of the route that a lanelet of the route conflicts with in the routing graph. -/
theorem route_conflictingInRoute {g : RGraph P K} {path : List P} {lc : Bool} {costId : Nat} (hb : Built t g)
    (h : IsRoute t g path lc costId r) (p q : P) :
    q ∈ r.conflictingInRoute p ↔ p ∈ r.members ∧ q ∈ r.members ∧ ∃ c, HasEdge g p q costId Conflicting c := by
  unfold Route.conflictingInRoute
  rw [getAllEdges_iff (route_built hb h) (w := (Graph.conflicting, [Conflicting])) (by simp [views]) 0 p q true]
  have hmem : Conflicting ∈ routeRelations lc := by cases lc <;> decide
  constructor
  · rintro ⟨rel, hrel, c, hc⟩
    obtain ⟨-, h1, h2, -, h3⟩ := (route_relations hb h p q 0 rel c).mp hc
    have hrel : rel = Conflicting := by simpa using hrel
    subst hrel
    exact ⟨h1, h2, c, h3⟩
  · rintro ⟨h1, h2, c, hc⟩
    exact ⟨Conflicting, by simp, c, (route_relations hb h p q 0 Conflicting c).mpr ⟨rfl, h1, h2, hmem, hc⟩⟩

/-- C56: `followingRelations` are exactly the lanelets of the route that follow a lanelet in the routing graph, with the relation. -/
theorem route_followingRelations {g : RGraph P K} {path : List P} {lc : Bool} {costId : Nat} (hb : Built t g)
    (h : IsRoute t g path lc costId r) (p q : P) (rel : RelationType) :
    (q, rel) ∈ r.followingRelations p ↔ rel = Successor ∧ p ∈ r.members ∧ q ∈ r.members ∧ ∃ c, HasEdge g p q costId Successor c := by
  have hb' := route_built hb h
  have wf' := built_wf hb'
  unfold Route.followingRelations
  constructor
  · intro hm
    cases hv : r.graph.graph.getVertex p with
    | none => rw [hv] at hm; cases hm
    | some v =>
      rw [hv] at hm
      simp only [List.mem_filterMap, Option.map_eq_some_iff] at hm
      obtain ⟨e, he, q', hq, h1⟩ := hm
      obtain ⟨m1, m2, m3, m4⟩ := (view_exact hb' (w := (withoutLaneChanges, [Successor])) (by simp [views]) 0 v e).mp he
      cases h1
      have hs : e.info.relation = Successor := by simpa using m4
      obtain ⟨-, h1, h2, -, h3⟩ := (route_relations hb h p q 0 Successor _).mp
        ⟨e, m1, by rw [m2]; exact (getVertex_spec hv).2, hq, m3, hs, rfl⟩
      exact ⟨hs, h1, h2, _, h3⟩
  · rintro ⟨rfl, h1, h2, c, hc⟩
    obtain ⟨e, d1, d2, d3, d4, d5, -⟩ := (route_relations hb h p q 0 Successor c).mpr ⟨rfl, h1, h2, by cases lc <;> decide, hc⟩
    rw [(getVertex_iff wf'.nodup).mpr d2]
    simp only [List.mem_filterMap, Option.map_eq_some_iff]
    exact ⟨e, (view_exact hb' (w := (withoutLaneChanges, [Successor])) (by simp [views]) 0 e.src e).mpr ⟨d1, rfl, d4, by simp [d5]⟩, q, d3, by rw [d5]⟩

/-- C56: `previousRelations` are exactly the lanelets of the route that precede a lanelet in the routing graph, with the relation. -/
theorem route_previousRelations {g : RGraph P K} {path : List P} {lc : Bool} {costId : Nat} (hb : Built t g)
    (h : IsRoute t g path lc costId r) (p q : P) (rel : RelationType) :
    (q, rel) ∈ r.previousRelations p ↔ rel = Successor ∧ p ∈ r.members ∧ q ∈ r.members ∧ ∃ c, HasEdge g q p costId Successor c := by
  have hb' := route_built hb h
  have wf' := built_wf hb'
  unfold Route.previousRelations
  constructor
  · intro hm
    cases hv : r.graph.graph.getVertex p with
    | none => rw [hv] at hm; cases hm
    | some v =>
      rw [hv] at hm
      simp only [List.mem_filterMap, Option.map_eq_some_iff] at hm
      obtain ⟨e, he, q', hq, h1⟩ := hm
      obtain ⟨m1, m2, m3, m4⟩ := (view_exact_in hb' (w := (withoutLaneChanges, [Successor])) (by simp [views]) 0 v e).mp he
      cases h1
      have hs : e.info.relation = Successor := by simpa using m4
      obtain ⟨-, h1, h2, -, h3⟩ := (route_relations hb h q p 0 Successor _).mp
        ⟨e, m1, hq, by rw [m2]; exact (getVertex_spec hv).2, m3, hs, rfl⟩
      exact ⟨hs, h2, h1, _, h3⟩
  · rintro ⟨rfl, h1, h2, c, hc⟩
    obtain ⟨e, d1, d2, d3, d4, d5, -⟩ := (route_relations hb h q p 0 Successor c).mpr ⟨rfl, h2, h1, by cases lc <;> decide, hc⟩
    rw [(getVertex_iff wf'.nodup).mpr d3]
    simp only [List.mem_filterMap, Option.map_eq_some_iff]
    exact ⟨e, (view_exact_in hb' (w := (withoutLaneChanges, [Successor])) (by simp [views]) 0 e.dst e).mpr ⟨d1, rfl, d4, by simp [d5]⟩, q, d2, by rw [d5]⟩

/-- C57: `numLanes` is the number of different lane ids of the lanelets of the route. -/
theorem route_numLanes (hb : Built t r.graph.graph) : ∃ ids : List Nat, ids.Nodup ∧ (∀ i, i ∈ ids ↔ ∃ p ∈ r.members, r.laneOf p = some i) ∧
    r.numLanes = ids.length := by
  have wf := built_wf hb
  refine ⟨_, List.nodup_dedup _, ?_, rfl⟩
  intro i
  simp only [List.mem_dedup, List.mem_map, List.mem_range, Route.laneOf, Option.map_eq_some_iff]
  constructor
  · rintro ⟨v, hv, rfl⟩
    exact ⟨r.graph.graph.vertices[v], List.getElem_mem hv, v, (getVertex_iff wf.nodup).mpr (List.getElem?_eq_getElem hv), rfl⟩
  · rintro ⟨p, -, v, hv, rfl⟩
    exact ⟨v, (getVertex_spec hv).1, rfl⟩

/-! ### the shortest path -/

/-- C30: on a path that is no circle, `remainingShortestPath` is the rest of the path that begins with the first occurrence of the lanelet; it is
empty for lanelets that are not on the path. -/
theorem remainingShortestPath_suffix (hne : r.shortestPath.head? ≠ r.shortestPath.getLast?) (p : P) :
    (p ∉ r.shortestPath → r.remainingShortestPath p = []) ∧
    ∀ a b, r.shortestPath = a ++ p :: b → p ∉ a → r.remainingShortestPath p = p :: b := by
  constructor
  · intro hp
    unfold Route.remainingShortestPath
    rw [List.findIdx?_eq_none_iff.mpr (by intro x hx; simp only [decide_eq_false_iff_not]; rintro rfl; exact hp hx)]
  · intro a b hab ha
    have hidx : r.shortestPath.findIdx? (fun x => decide (x = p)) = some a.length := by
      rw [hab, List.findIdx?_append, List.findIdx?_eq_none_iff.mpr (by
        intro x hx; simp only [decide_eq_false_iff_not]; rintro rfl; exact ha hx)]
      simp [List.findIdx?_cons]
    unfold Route.remainingShortestPath
    rw [hidx]
    simp only
    rw [if_neg hne, hab]
    simp

/-- C30: on a circular path (the first lanelet is also the last one), `remainingShortestPath` goes once around: all lanelets of the circle in their
order, beginning with the first occurrence of the lanelet. -/
theorem remainingShortestPath_circle {x : P} {m : List P} (hc : r.shortestPath = x :: m ++ [x]) (p : P) :
    (p ∉ r.shortestPath → r.remainingShortestPath p = []) ∧
    ∀ a b, x :: m = a ++ p :: b → p ∉ a → r.remainingShortestPath p = p :: b ++ a := by
  constructor
  · intro hp
    unfold Route.remainingShortestPath
    rw [List.findIdx?_eq_none_iff.mpr (by intro x hx; simp only [decide_eq_false_iff_not]; rintro rfl; exact hp hx)]
  · intro a b hab ha
    have hidx : r.shortestPath.findIdx? (fun x => decide (x = p)) = some a.length := by
      rw [hc, hab, List.append_assoc, List.findIdx?_append, List.findIdx?_eq_none_iff.mpr (by
        intro x hx; simp only [decide_eq_false_iff_not]; rintro rfl; exact ha hx)]
      simp [List.findIdx?_cons]
    unfold Route.remainingShortestPath
    rw [hidx]
    simp only
    rw [if_pos (by rw [hc, List.getLast?_concat]; rfl), hc, List.dropLast_concat, hab, List.rotate_eq_drop_append_take (by simp)]
    simp

/-- C30 is violated for a route with a single lanelet: it counts as a circle, and the remaining path of its lanelet is empty. -/
theorem single_lanelet_counterexample (p : P) (gr : RouteGraph P K) : (⟨gr, [p]⟩ : Route P K).remainingShortestPath p = [] := by
  simp [Route.remainingShortestPath, List.findIdx?_cons]

/-! ### relations to the sides -/

/-- C30: `leftRelation` and `rightRelation` report a lanelet of the route with the relation to it, and report none only if there is no such
relation. -/
theorem sideRelation_spec (hb : Built t r.graph.graph) {w : RelationType × List RelationType} (hw : w ∈ views) (p : P) :
    (∀ q rel, r.sideRelation w.1 p = some (q, rel) → q ∈ r.members ∧ rel ∈ w.2 ∧ ∃ c, HasEdge r.graph.graph p q 0 rel c) ∧
    (r.sideRelation w.1 p = none → ∀ q rel c, rel ∈ w.2 → ¬ HasEdge r.graph.graph p q 0 rel c) := by
  have wf := built_wf hb
  unfold Route.sideRelation nextRelation
  constructor
  · intro q rel h
    simp only [bind, Option.bind_eq_some_iff, pure, Option.some.injEq, Prod.mk.injEq] at h
    obtain ⟨v, hv, ⟨a, b⟩, h1, x, h2, rfl, rfl⟩ := h
    obtain ⟨e, he, h3⟩ := Option.map_eq_some_iff.mp h1
    cases h3
    have hm := (view_exact hb hw 0 v e).mp (List.mem_of_head? he)
    exact ⟨List.mem_of_getElem? h2, hm.2.2.2, _, e, hm.1, by rw [hm.2.1]; exact (getVertex_spec hv).2, h2, hm.2.2.1, rfl, rfl⟩
  · rintro h q rel c hrel ⟨e, h1, h2, h3, h4, h5, -⟩
    have hv := (getVertex_iff wf.nodup).mpr h2
    rw [hv] at h
    have hm := (view_exact hb hw 0 e.src e).mpr ⟨h1, rfl, h4, by rw [h5]; exact hrel⟩
    simp only [bind, Option.bind_some, pure] at h
    cases hl : r.graph.graph.outEdges 0 w.1 e.src with
    | nil => rw [hl] at hm; cases hm
    | cons a l =>
      rw [hl] at h
      simp only [List.head?_cons, Option.map_some, Option.bind_some] at h
      have ha := (view_exact hb hw 0 e.src a).mp (by rw [hl]; simp)
      rw [List.getElem?_eq_getElem (wf.dst a ha.1)] at h
      cases h

/-- the lanelets that are found by going to the side again and again -/
inductive Sidewards (r : Route P K) (view : RelationType) : P → List (P × RelationType) → Prop where
  | nil {p : P} : r.sideRelation view p = none → Sidewards r view p []
  | cons {p : P} {x : P × RelationType} {l : List (P × RelationType)} : r.sideRelation view p = some x → Sidewards r view x.1 l →
      Sidewards r view p (x :: l)

/-- C30: for a lanelet of the route, `leftRelations` and `rightRelations` are the relations that `leftRelation` and `rightRelation` report one
after the other, until there is none. -/
theorem sideRelations_iff (hb : Built t r.graph.graph) (view : RelationType) {p : P} (hp : p ∈ r.members)
    (l : List (P × RelationType)) : r.sideRelations view p = some (.ok l) ↔ Sidewards r view p l := by
  have wf := built_wf hb
  obtain ⟨v, hv⟩ := getVertex_isSome (show p ∈ r.graph.graph.vertices from hp)
  have hstep : ∀ {v : Nat} {p : P}, r.graph.graph.getVertex p = some v → r.sideRelation view p =
      (nextRelation r.graph.graph view v).bind fun x => (r.graph.graph.vertices[x.1]?).map (·, x.2) := by
    intro v p hv
    unfold Route.sideRelation
    rw [hv]
    simp only [bind, Option.bind_some, pure]
    cases nextRelation r.graph.graph view v with
    | none => rfl
    | some x => simp only [Option.bind_some]; cases r.graph.graph.vertices[x.1]? <;> rfl
  have hlt : ∀ {v : Nat} {x : Nat × RelationType}, nextRelation r.graph.graph view v = some x → x.1 < r.graph.graph.vertices.length := by
    intro v x hx
    obtain ⟨e, he, rfl⟩ := Option.map_eq_some_iff.mp hx
    exact wf.dst e (List.mem_of_mem_filter (List.mem_of_head? he))
  have hrun : r.sideRelations view p = (sideLoopRel r.graph.graph view v).map fun l =>
      .ok (l.filterMap fun x => (r.graph.graph.vertices[x.1]?).map (·, x.2)) := by
    unfold Route.sideRelations
    rw [hv]
    simp only [bind, pure]
    cases sideLoopRel r.graph.graph view v <;> rfl
  rw [hrun]
  constructor
  · intro h
    obtain ⟨l', h1, h2⟩ := Option.map_eq_some_iff.mp h
    have h2 := Except.ok.inj h2
    have key := sideLoopRel.partial_correctness r.graph.graph view
      (fun v l' => ∀ p, r.graph.graph.getVertex p = some v →
        Sidewards r view p (l'.filterMap fun x => (r.graph.graph.vertices[x.1]?).map (·, x.2))) (by
        intro rec ih v l' h p hv
        have hs := hstep hv
        split at h
        · rename_i hx
          rw [hx] at hs
          cases h
          exact .nil hs
        · rename_i x hx
          simp only [bind, Option.bind_eq_some_iff, pure, Option.some.injEq] at h
          obtain ⟨l1, hl1, rfl⟩ := h
          have hq : r.graph.graph.vertices[x.1]? = some (r.graph.graph.vertices[x.1]'(hlt hx)) := List.getElem?_eq_getElem _
          rw [hx] at hs
          simp only [Option.bind_some, hq, Option.map_some] at hs
          rw [List.filterMap_cons, hq]
          exact .cons hs (ih x.1 l1 hl1 _ ((getVertex_iff wf.nodup).mpr hq))) v l' h1
    rw [← h2]
    exact key p hv
  · intro h
    have key : ∀ {p : P} {l : List (P × RelationType)}, Sidewards r view p l → ∀ v, r.graph.graph.getVertex p = some v →
        (sideLoopRel r.graph.graph view v).map (fun l => l.filterMap fun x => (r.graph.graph.vertices[x.1]?).map (·, x.2)) = some l := by
      intro p l h
      induction h with
      | nil hs =>
        intro v hv
        rw [hstep hv] at hs
        rw [sideLoopRel]
        cases hx : nextRelation r.graph.graph view v with
        | none => rfl
        | some x =>
          rw [hx] at hs
          simp only [Option.bind_some] at hs
          rw [List.getElem?_eq_getElem (hlt hx)] at hs
          cases hs
      | @cons p y l hs _ ih =>
        intro v hv
        rw [hstep hv] at hs
        rw [sideLoopRel]
        cases hx : nextRelation r.graph.graph view v with
        | none => rw [hx] at hs; cases hs
        | some x =>
          rw [hx] at hs
          have hq : r.graph.graph.vertices[x.1]? = some (r.graph.graph.vertices[x.1]'(hlt hx)) := List.getElem?_eq_getElem _
          simp only [Option.bind_some, hq, Option.map_some, Option.some.injEq] at hs
          have := ih x.1 (by rw [← hs]; exact (getVertex_iff wf.nodup).mpr hq)
          obtain ⟨l1, h1, h2⟩ := Option.map_eq_some_iff.mp this
          simp only [bind, pure, h1, Option.bind_some, Option.map_some, Option.some.injEq]
          rw [List.filterMap_cons, hq]
          simp only [Option.map_some]
          rw [hs, h2]
    have := key h v hv
    obtain ⟨l', h1, h2⟩ := Option.map_eq_some_iff.mp this
    rw [h1, Option.map_some, h2]

/-- C30 is violated for lanelets that are not on the route: `leftRelations` and `rightRelations` dereference an empty optional. -/
theorem sideRelations_counterexample (view : RelationType) {p : P} (hp : p ∉ r.members) : r.sideRelations view p = some (.error .ub) := by
  unfold Route.sideRelations
  rw [getVertex_none hp]

/-! ### checkValidity -/

/-- the relations that a relation has to be mirrored by -/
def mirrors (rel : RelationType) : List RelationType :=
  if rel = Conflicting then [Conflicting]
  else if rel = Left ∨ rel = AdjacentLeft then [Right, AdjacentRight]
  else if rel = Right ∨ rel = AdjacentRight then [Left, AdjacentLeft]
  else []

/-- the relation from `q` to `p` that is looked at: that of the first edge -/
def Route.relation (r : Route P K) (q p : P) : Option RelationType := (r.graph.graph.getEdgeInfo q p).map (·.relation)

theorem relation_eq (wf : WF t r.graph.graph) {u v : Nat} {p q : P} (hp : r.graph.graph.vertices[u]? = some p)
    (hq : r.graph.graph.vertices[v]? = some q) : r.relation q p = (r.graph.graph.firstEdge v u).map (·.info.relation) := by
  unfold Route.relation RGraph.getEdgeInfo
  rw [(getVertex_iff wf.nodup).mpr hp, (getVertex_iff wf.nodup).mpr hq]
  simp only [Option.map_map]
  rfl

theorem expect_table : ∀ rel ∈ [Conflicting, Left, AdjacentLeft, Right, AdjacentRight], ∀ back ∈ edgeRelations,
    ((if rel = Conflicting then Conflicting else if rel = Left ∨ rel = AdjacentLeft then Right ||| AdjacentRight else Left ||| AdjacentLeft) &&& back ≠ 0 ↔
      back ∈ mirrors rel) := by
  decide

/-- C31, what `checkValidity` does: it reports no error iff the shortest path is on the route, every relation other than Successor has some relation
back, and none of the conflicting, left and right relations is mirrored by the relation back. -/
theorem checkValidity_iff (hb : Built t r.graph.graph) (hrel : ∀ e ∈ r.graph.graph.edges, e.info.costId = 0 ∧ e.info.relation ≠ Area)
    {edges : List (BaseEdge K)} (hperm : edges.Perm r.graph.graph.edges) :
    r.checkValidity edges = [] ↔
      (∀ p ∈ r.shortestPath, p ∈ r.members) ∧
      ∀ p q rel c, HasEdge r.graph.graph p q 0 rel c → rel ≠ Successor → ∃ back, r.relation q p = some back ∧ back ∉ mirrors rel := by
  have wf := built_wf hb
  have hcheck : ∀ e ∈ r.graph.graph.edges, (checkEdge r.graph.graph e = [] ↔
      (e.info.relation ≠ Successor → ∃ back, (r.graph.graph.firstEdge e.dst e.src).map (·.info.relation) = some back ∧
        back ∉ mirrors e.info.relation)) := by
    intro e he
    unfold checkEdge
    rw [List.getElem?_eq_getElem (wf.src e he), List.getElem?_eq_getElem (wf.dst e he)]
    simp only
    cases hf : r.graph.graph.firstEdge e.dst e.src with
    | none =>
      simp only [Option.map_none]
      by_cases hs : e.info.relation = Successor
      · simp [hs]
      · simp [hs]
    | some b =>
      simp only [Option.map_some, Option.some.injEq, exists_eq_left']
      have hbm : b ∈ r.graph.graph.edges := by
        unfold RGraph.firstEdge at hf
        exact List.mem_of_find?_eq_some hf
      have hbr := wf.rel b hbm
      have her := wf.rel e he
      have hea := (hrel e he).2
      have key : ∀ rel ∈ edgeRelations, rel ≠ Area → ∀ back ∈ edgeRelations, ∀ p q : P,
          ((if rel = Conflicting then checkRelationIs Conflicting p q rel back
            else if rel = Left ∨ rel = AdjacentLeft then checkRelationIs (Right ||| AdjacentRight) p q rel back
            else if rel = Right ∨ rel = AdjacentRight then checkRelationIs (Left ||| AdjacentLeft) p q rel back
            else if rel = Successor then []
            else [RErr.unsupported p back]) = [] ↔ (rel ≠ Successor → back ∉ mirrors rel)) := by
        intro rel hr hna back hbk p q
        have hcases : rel = Successor ∨ rel ∈ [Conflicting, Left, AdjacentLeft, Right, AdjacentRight] := by
          have : ∀ rel ∈ edgeRelations, rel ≠ Area → rel = Successor ∨ rel ∈ [Conflicting, Left, AdjacentLeft, Right, AdjacentRight] := by decide
          exact this rel hr hna
        rcases hcases with rfl | hc
        · have h1 : ¬ (Successor = Conflicting) := by decide
          have h2 : ¬ (Successor = Left ∨ Successor = AdjacentLeft) := by decide
          have h3 : ¬ (Successor = Right ∨ Successor = AdjacentRight) := by decide
          simp [h1, h2, h3]
        · have ht := expect_table rel hc back hbk
          have hns : rel ≠ Successor := by
            have : ∀ rel ∈ [Conflicting, Left, AdjacentLeft, Right, AdjacentRight], rel ≠ Successor := by decide
            exact this rel hc
          simp only [hns, ne_eq, not_false_eq_true, true_implies]
          rw [← ht]
          unfold checkRelationIs
          by_cases h1 : rel = Conflicting
          · simp only [if_pos h1]; split <;> simp_all
          · simp only [if_neg h1]
            by_cases h2 : rel = Left ∨ rel = AdjacentLeft
            · simp only [if_pos h2]; split <;> simp_all
            · simp only [if_neg h2]
              have h3 : rel = Right ∨ rel = AdjacentRight := by
                simp only [List.mem_cons, List.not_mem_nil, or_false] at hc
                rcases hc with h | h | h | h | h
                · exact absurd h h1
                · exact absurd (.inl h) h2
                · exact absurd (.inr h) h2
                · exact .inl h
                · exact .inr h
              simp only [if_pos h3]; split <;> simp_all
      exact key _ her hea _ hbr _ _
  unfold Route.checkValidity
  rw [List.append_eq_nil_iff, List.map_eq_nil_iff, List.filter_eq_nil_iff, List.flatMap_eq_nil_iff]
  apply and_congr
  · apply forall_congr'
    intro p
    apply imp_congr Iff.rfl
    unfold Route.contains Route.members
    simp only [Bool.not_eq_true, Bool.not_eq_true']
    constructor
    · intro h
      by_contra hp
      rw [getVertex_none hp] at h
      simp at h
    · intro h
      obtain ⟨v, hv⟩ := getVertex_isSome h
      rw [hv]
      simp
  · constructor
    · rintro h p q rel c ⟨e, h1, h2, h3, h4, h5, -⟩ hs
      have := (hcheck e h1).mp (h e (hperm.mem_iff.mpr h1)) (by rw [h5]; exact hs)
      rw [relation_eq wf h2 h3, ← h5]
      exact this
    · intro h e he
      have he' := hperm.mem_iff.mp he
      rw [hcheck e he']
      intro hs
      have h2 := List.getElem?_eq_getElem (wf.src e he')
      have h3 := List.getElem?_eq_getElem (wf.dst e he')
      have := h _ _ _ _ ⟨e, he', h2, h3, (hrel e he').1, rfl, rfl⟩ hs
      rw [relation_eq wf h2 h3] at this
      exact this

/-- C31, the part that holds: a lanelet of the shortest path outside of the route and a left, right or conflicting relation without any relation
back are reported. Missing: that relations back of the wrong kind are reported and that mirrored ones are not, see `checkValidity_mirrored_counterexample`
and `checkValidity_unmirrored_counterexample`. -/
theorem checkValidity_partial (hb : Built t r.graph.graph) (hrel : ∀ e ∈ r.graph.graph.edges, e.info.costId = 0 ∧ e.info.relation ≠ Area)
    {edges : List (BaseEdge K)} (hperm : edges.Perm r.graph.graph.edges) :
    (∀ p ∈ r.shortestPath, p ∉ r.members → r.checkValidity edges ≠ []) ∧
    ∀ p q rel c, HasEdge r.graph.graph p q 0 rel c → rel ≠ Successor → r.relation q p = none → r.checkValidity edges ≠ [] := by
  constructor
  · intro p hp hm h
    exact hm (((checkValidity_iff hb hrel hperm).mp h).1 p hp)
  · intro p q rel c he hs hn h
    obtain ⟨back, h1, -⟩ := ((checkValidity_iff hb hrel hperm).mp h).2 p q rel c he hs
    rw [hn] at h1
    cases h1

/-- C31 is violated: whenever some left, right or conflicting relation of a route is properly mirrored, an error is reported. -/
theorem checkValidity_mirrored_counterexample (hb : Built t r.graph.graph)
    (hrel : ∀ e ∈ r.graph.graph.edges, e.info.costId = 0 ∧ e.info.relation ≠ Area) {edges : List (BaseEdge K)}
    (hperm : edges.Perm r.graph.graph.edges) {p q : P} {rel back : RelationType} {c : K} (he : HasEdge r.graph.graph p q 0 rel c)
    (hs : rel ≠ Successor) (hback : r.relation q p = some back) (hm : back ∈ mirrors rel) : r.checkValidity edges ≠ [] := by
  intro h
  obtain ⟨b, h1, h2⟩ := ((checkValidity_iff hb hrel hperm).mp h).2 p q rel c he hs
  rw [hback] at h1
  cases h1
  exact h2 hm

/-- two lanelets, each to the right of the other one -/
def exUnmirrored : Route Nat Nat :=
  ⟨{ graph := ⟨1, [10, 20], [⟨0, 1, ⟨1, 0, Right⟩⟩, ⟨1, 0, ⟨1, 0, Right⟩⟩]⟩ }, [10]⟩

/-- C31 is violated: two lanelets that are both to the right of the other one are not reported. -/
theorem checkValidity_unmirrored_counterexample : exUnmirrored.checkValidity exUnmirrored.graph.graph.edges = [] := by decide

/-- two lanelets that are properly next to each other -/
def exMirrored : Route Nat Nat :=
  ⟨{ graph := ⟨1, [10, 20], [⟨0, 1, ⟨1, 0, Right⟩⟩, ⟨1, 0, ⟨1, 0, Left⟩⟩]⟩ }, [10]⟩

example : exMirrored.checkValidity exMirrored.graph.graph.edges = [.wrongRelation 10 20 Right Left, .wrongRelation 20 10 Left Right] := by decide

end
end Verif.Route
