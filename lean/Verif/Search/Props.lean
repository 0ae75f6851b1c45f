import Verif.Search.Lemmas3

/-!
Properties C21 - C25: the graph queries of the routing graph.

`g` is the graph seen by the query, i.e. the edges of the permitted relations and the selected cost module
(see Verif/Graph for the filters). Vertices are numbers below `n`. All theorems hold for every way to break
ties in the queue (`pick`).
-/
namespace Verif.Search
variable {σ K : Type} [Cost K]

/-! ### concrete graph used in the examples
0 → 1 (2), 0 → 2 (1), 2 → 1 (1), 1 → 3 (0), 3 → 0 (5), 1 → 3 (7, parallel), 4 → 0 (1); 5 is isolated -/

/-- example graph -/
def exG : Graph Nat
  | 0 => [⟨1, 2, .successor⟩, ⟨2, 1, .left⟩]
  | 1 => [⟨3, 7, .successor⟩, ⟨3, 0, .successor⟩]
  | 2 => [⟨1, 1, .right⟩]
  | 3 => [⟨0, 5, .successor⟩]
  | 4 => [⟨0, 1, .successor⟩]
  | _ => []

/-- the first minimal element -/
def pickMinOf (cost : Nat → Nat) : List Nat → Nat
  | [] => 0
  | [a] => a
  | a :: b :: l => let m := pickMinOf cost (b :: l); if cost a ≤ cost m then a else m

/-- an implementation of the queue -/
def exPick (_ : Nat) (cost : Nat → Nat) (l : List Nat) : Nat := pickMinOf cost l

theorem exPick_min : PickMin exPick := by
  intro i cost q hq
  unfold exPick
  induction q with
  | nil => exact absurd rfl hq
  | cons a l ih =>
    cases l with
    | nil =>
      refine ⟨by simp [pickMinOf], ?_⟩
      intro u hu
      simp only [List.mem_singleton] at hu
      subst hu
      exact Nat.le_refl _
    | cons b l =>
      obtain ⟨h1, h2⟩ := ih (by simp)
      simp only [pickMinOf]
      split
      · rename_i h
        refine ⟨by simp, ?_⟩
        intro u hu
        rcases List.mem_cons.mp hu with rfl | hu
        · exact Nat.le_refl _
        · exact Nat.le_trans h (h2 u hu)
      · rename_i h
        refine ⟨List.mem_cons_of_mem _ h1, ?_⟩
        intro u hu
        rcases List.mem_cons.mp hu with rfl | hu
        · exact Nat.le_of_not_le h
        · exact h2 u hu

theorem exG_ok : GraphOk exG 6 := by
  constructor
  · decide
  · intro v e he; exact Nat.zero_le _

/-! ### C23 forEachSuccessor -/

/-- What a caller of `forEachSuccessor` may rely on about the sequence of calls. -/
structure VisitSpec (g : Graph K) (start : Nat) (cb : Callback σ K) (user : σ) (completed : Bool)
    (trace : List (VisitInfo K × Option Bool)) : Prop where
  /-- the recorded results are the ones the (stateful) callback gave -/
  replays : Replays cb user trace
  /-- no vertex is visited twice -/
  once : (trace.map (·.1.vertex)).Nodup
  /-- costs never decrease -/
  sorted : trace.Pairwise fun i j => Cost.le i.1.cost j.1.cost
  /-- the first visit is the start; every other visit comes from a vertex that was visited before and
  accepted, over an edge of the graph that explains cost, length and number of lane changes -/
  steps : ∀ pre i post, trace = pre ++ i :: post →
    (pre = [] ∧ i.1.vertex = start ∧ i.1.predecessor = start ∧ i.1.cost = Cost.zero ∧ i.1.length = 1 ∧
      i.1.numLaneChanges = 0) ∨
    (∃ j ∈ pre, ∃ e ∈ g j.1.vertex, j.2 = some true ∧ i.1.predecessor = j.1.vertex ∧
      i.1.vertex = e.dst ∧ i.1.cost = Cost.add j.1.cost e.cost ∧ i.1.length = j.1.length + 1 ∧
      i.1.numLaneChanges = j.1.numLaneChanges + (if e.rel = .successor then 0 else 1))
  /-- the reported cost is minimal among all walks whose inner vertices were accepted -/
  minimal : ∀ i ∈ trace, Walk g (Accepted trace) start i.1.cost i.1.vertex ∧
    ∀ c, Walk g (Accepted trace) start c i.1.vertex → Cost.le i.1.cost c
  /-- unless the callback throws, every vertex with such a walk is visited -/
  complete : completed = true → ∀ c v, Walk g (Accepted trace) start c v →
    ∃ i ∈ trace, i.1.vertex = v
  /-- the callback throws at most in the last call -/
  throws : ∀ pre i post, trace = pre ++ i :: post → i.2 = none → post = [] ∧ completed = false
  /-- the search is given up only because the callback threw -/
  stops : completed = false → ∃ i, trace.getLast? = some i ∧ i.2 = none

theorem replays_prefix {cb : Callback σ K} {u : σ} {a b : List (VisitInfo K × Option Bool)}
    (h : Replays cb u (a ++ b)) : Replays cb u a := by
  induction a generalizing u with
  | nil => trivial
  | cons x a ih => exact ⟨h.1, ih h.2⟩

/-- steps of the trace from the invariant -/
theorem Inv.steps {g E : Graph K} {start : Nat} {s : State σ K} (h : Inv g E start s) :
    ∀ pre i post, s.visits = pre ++ i :: post →
    (pre = [] ∧ i.1.vertex = start ∧ i.1.predecessor = start ∧ i.1.cost = Cost.zero ∧ i.1.length = 1 ∧
      i.1.numLaneChanges = 0) ∨
    (∃ j ∈ pre, ∃ e ∈ g j.1.vertex, j.2 = some true ∧ i.1.predecessor = j.1.vertex ∧
      i.1.vertex = e.dst ∧ i.1.cost = Cost.add j.1.cost e.cost ∧ i.1.length = j.1.length + 1 ∧
      i.1.numLaneChanges = j.1.numLaneChanges + (if e.rel = .successor then 0 else 1)) := by
  intro pre i post heq
  obtain ⟨st, q1, q2, q3, q4, q5, -⟩ := h.vis i (by rw [heq]; simp)
  rcases h.predBefore pre i post heq with ⟨p1, p2, p3⟩ | ⟨p1, j, hj, p2, p3⟩
  · left
    rcases h.tree _ _ q1 with ⟨-, -, t3, t4, t5⟩ | ⟨t1, -⟩
    · exact ⟨p3, p1, p2, by rw [← q3, t3], by rw [← q4, t4], by rw [← q5, t5]⟩
    · exact absurd p1 t1
  · right
    rcases h.tree _ _ q1 with ⟨t1, -⟩ | ⟨-, -, -, su, e, t1, t2, t3, t4, t5, t6, t7⟩
    · exact absurd t1 p1
    · obtain ⟨sj, r1, -, r3, r4, r5, -⟩ := h.vis j (by rw [heq]; simp [hj])
      rw [q2, ← p2, r1] at t1
      have := Option.some.inj t1
      subst this
      refine ⟨j, hj, e, by rw [p2, ← q2]; exact t3, p3, p2.symm, t4.symm, ?_, ?_, ?_⟩
      · rw [← q3, t5, r3]
      · rw [← q4, t6, r4]
      · rw [← q5, t7, r5]
        by_cases he : e.rel = .successor <;> simp [he]

/-- C23: every search terminates with a trace that satisfies `VisitSpec`, for every stateful, possibly
throwing, callback. -/
theorem forEachSuccessor_spec {g : Graph K} {n start : Nat} (hg : GraphOk g n) (hs : start < n)
    {pick : Nat → (Nat → K) → List Nat → Nat} (hpick : PickMin pick) (cb : Callback σ K) (user : σ) :
    ∃ o s, query g pick cb start user = some (o, s) ∧
      VisitSpec g start cb user (decide (o = .done)) s.visits := by
  obtain ⟨o, s, h1, h2, -⟩ := query_spec hg hs hpick cb user
  refine ⟨o, s, h1, ?_⟩
  cases o with
  | done =>
    obtain ⟨h, hq, hr⟩ := h2
    refine ⟨hr, ?_, h.sorted, h.steps, ?_, ?_, ?_, by simp⟩
    · have := h.nodup; rw [hq, List.append_nil] at this; exact this
    · intro i hi
      obtain ⟨st, q1, -, q3, -⟩ := h.vis i hi
      rw [← q3]
      refine ⟨h.exists_walk _ q1 rfl, ?_⟩
      intro c hw
      obtain ⟨sv, r1, r2⟩ := h.walk_le hq hw
      rw [q1] at r1
      have := Option.some.inj r1
      subst this
      exact r2
    · intro _ c v hw
      obtain ⟨sv, r1, -⟩ := h.walk_le hq hw
      exact ⟨_, h.visit_of_map hq r1, rfl⟩
    · intro pre i post heq hi
      obtain ⟨st, -, -, -, -, -, q6⟩ := h.vis i (by rw [heq]; simp)
      rw [hi] at q6; simp at q6
  | stopped =>
    obtain ⟨s0, v, sv, hp, hv, hm, hvis, hr⟩ := h2
    have h := hp.inv
    have hvn : v ∉ seen s0 := by
      intro hv'
      have := (List.nodup_append.mp h.nodup).2.2 v hv' v hp.mem
      exact this rfl
    have hacc : ∀ u, Accepted s.visits u ↔ Accepted s0.visits u := by
      intro u; constructor
      · rintro ⟨i, hi, hiu⟩
        rw [hvis] at hi
        simp only [List.mem_append, List.mem_singleton, Prod.mk.injEq, reduceCtorEq, and_false,
          or_false] at hi
        exact ⟨i, hi, hiu⟩
      · rintro ⟨i, hi, hiu⟩
        exact ⟨i, by rw [hvis]; exact List.mem_append_left _ hi, hiu⟩
    have hAe : Accepted s.visits = Accepted s0.visits := by
      funext u; exact propext (hacc u)
    have htv : (v = start ∧ sv.predecessor = start ∧ s0.visits = []) ∨
        (v ≠ start ∧ start ∈ seen s0) := by
      rcases hp.start_first with ⟨a, b, c⟩ | ⟨a, b⟩
      · left
        subst a
        rcases h.tree _ _ hv with ⟨-, t2, -⟩ | ⟨t1, -⟩
        · exact ⟨rfl, t2, by assumption⟩
        · exact absurd rfl t1
      · right; exact ⟨a, b⟩
    refine ⟨hr, ?_, ?_, ?_, ?_, ?_, ?_, fun _ => ⟨_, by rw [hvis]; exact List.getLast?_concat, rfl⟩⟩
    · rw [hvis, List.map_append]
      rw [List.nodup_append]
      refine ⟨(List.nodup_append.mp h.nodup).1, by simp, ?_⟩
      intro a ha b hb hab
      simp only [List.map_cons, List.map_nil, List.mem_singleton] at hb
      subst hb; subst hab
      exact hvn ha
    · rw [hvis, List.pairwise_append]
      refine ⟨h.sorted, by simp, ?_⟩
      intro i hi j hj
      simp only [List.mem_singleton] at hj
      subst hj
      obtain ⟨st, q1, -, q3, -⟩ := h.vis i hi
      simp only
      rw [← q3]
      exact h.front _ (mem_seen.mpr ⟨i, hi, rfl⟩) v hp.mem st sv q1 hv
    · intro pre i post heq
      rw [hvis] at heq
      rcases List.eq_nil_or_concat post with rfl | ⟨post', l, rfl⟩
      · have := List.append_inj' heq (by simp)
        obtain ⟨hpre, hi⟩ := this
        simp only [List.cons.injEq, and_true] at hi
        subst hi
        subst hpre
        rcases h.tree _ _ hv with ⟨t1, t2, t3, t4, t5⟩ | ⟨t0, -, tp, su, e, t1, t2, t3, t4, t5, t6, t7⟩
        · left
          rcases htv with ⟨-, -, c⟩ | ⟨c, -⟩
          · exact ⟨c, t1, t2, t3, t4, t5⟩
          · exact absurd t1 c
        · right
          obtain ⟨j, hj, hjv⟩ := mem_seen.mp tp
          obtain ⟨sj, r1, -, r3, r4, r5, r6⟩ := h.vis j hj
          rw [hjv, t1] at r1
          have := Option.some.inj r1
          subst this
          refine ⟨j, hj, e, by rw [hjv]; exact t3, by rw [r6, t2], hjv.symm, t4.symm, ?_, ?_, ?_⟩
          · rw [t5, r3]
          · rw [t6, r4]
          · rw [t7, r5]
            by_cases he : e.rel = .successor <;> simp [he]
      · rw [List.concat_eq_append, ← List.cons_append, ← List.append_assoc] at heq
        have := List.append_inj' heq (by simp)
        exact h.steps pre i post' this.1
    · intro i hi
      rw [hAe]
      rw [hvis] at hi
      simp only [List.mem_append, List.mem_singleton] at hi
      rcases hi with hi | rfl
      · obtain ⟨st, q1, -, q3, -⟩ := h.vis i hi
        rw [← q3]
        refine ⟨h.exists_walk _ q1 rfl, ?_⟩
        intro c hw
        rcases hp.walk_le hv hg.cost (fun u hu _ => hu) hw with ⟨-, sw, r1, r2⟩ | hle
        · rw [q1] at r1
          have := Option.some.inj r1
          subst this
          exact r2
        · exact Cost.le_trans (h.front _ (mem_seen.mpr ⟨i, hi, rfl⟩) v hp.mem st sv q1 hv) hle
      · refine ⟨h.exists_walk _ hv rfl, ?_⟩
        intro c hw
        rcases hp.walk_le hv hg.cost (fun u hu _ => hu) hw with ⟨hsv, -⟩ | hle
        · exact absurd hsv hvn
        · exact hle
    · intro hc; simp at hc
    · intro pre i post heq hi
      refine ⟨?_, by simp⟩
      rw [hvis] at heq
      rcases List.eq_nil_or_concat post with rfl | ⟨post', l, rfl⟩
      · rfl
      · rw [List.concat_eq_append, ← List.cons_append, ← List.append_assoc] at heq
        have := List.append_inj' heq (by simp)
        obtain ⟨st, -, -, -, -, -, q6⟩ := h.vis i (by rw [this.1]; simp)
        rw [hi] at q6; simp at q6

/-- a callback with state (it counts its calls) that refuses vertex 2 and throws in the fourth call -/
def exCb : Callback Nat Nat := fun k i => (k + 1, if k ≥ 3 then none else some (i.vertex != 2))

/-- Case: that callback on the example graph. -/
example : ∃ o s, query exG exPick exCb 0 0 = some (o, s) ∧
    VisitSpec exG 0 exCb 0 (decide (o = .done)) s.visits :=
  forEachSuccessor_spec exG_ok (by decide) exPick_min _ _

/-! ### C21 shortestPath -/

/-- C21: the search for the shortest path always ends. It returns nothing exactly if there is no walk to
the target. Otherwise it returns a path of the graph from start to target without repeated vertices whose
cost is minimal among all walks. -/
theorem shortestPath_spec {g : Graph K} {n start target : Nat} (hg : GraphOk g n) (hs : start < n)
    {pick : Nat → (Nat → K) → List Nat → Nat} (hpick : PickMin pick) :
    (shortestPathImpl g pick start target = some none ∧ ∀ c, ¬ AnyWalk g start c target) ∨
    (∃ p c, shortestPathImpl g pick start target = some (some (p.map some)) ∧ PathCost g p c ∧
      p.head? = some start ∧ p.getLast? = some target ∧ p.Nodup ∧
      ∀ c', AnyWalk g start c' target → Cost.le c c') := by
  obtain ⟨o, s, h1, h2, -⟩ := query_spec hg hs hpick (fun (_ : Unit) (i : VisitInfo K) =>
      ((), if i.vertex = target then none else some true)) ()
  -- results of the callback
  have hres : ∀ {t : List (VisitInfo K × Option Bool)} {u : Unit}, Replays (fun (_ : Unit)
      (i : VisitInfo K) => ((), if i.vertex = target then none else some true)) u t →
      ∀ i ∈ t, i.2 = if i.1.vertex = target then none else some true := by
    intro t
    induction t with
    | nil => simp
    | cons x t ih =>
      intro u h i hi
      rcases List.mem_cons.mp hi with rfl | hi
      · exact h.1.symm
      · exact ih h.2 i hi
  cases o with
  | done =>
    left
    obtain ⟨h, hq, hr⟩ := h2
    refine ⟨by simp [shortestPathImpl, h1], ?_⟩
    intro c hw
    have hall : ∀ v sv, s.map v = some sv → v ≠ target ∧ sv.predicate = true := by
      intro v sv hv
      have := hres hr _ (h.visit_of_map hq hv)
      simp only at this
      by_cases hvt : v = target
      · rw [if_pos hvt] at this; simp at this
      · rw [if_neg hvt] at this; simp at this; exact ⟨hvt, this⟩
    have hw' : ∃ sv, s.map target = some sv := by
      suffices ∀ c v, AnyWalk g start c v → ∃ sv, s.map v = some sv from this c target hw
      intro c v hw
      induction hw with
      | nil => obtain ⟨st, h, -⟩ := h.start_state; exact ⟨st, h⟩
      | snoc hw ha he ih =>
        obtain ⟨su, hu⟩ := ih
        obtain ⟨sv, hv, -⟩ := h.edge _ (mem_seen.mpr ⟨_, h.visit_of_map hq hu, rfl⟩) su hu
          (hall _ su hu).2 _ he
        exact ⟨sv, hv⟩
    obtain ⟨sv, hv⟩ := hw'
    exact (hall _ sv hv).1 rfl
  | stopped =>
    right
    obtain ⟨s0, v, sv, hp, hv, hm, hvis, hr⟩ := h2
    have h := hp.inv
    have hvt : v = target := by
      have := hres hr _ (by rw [hvis]; exact List.mem_append_right _ (List.mem_singleton.mpr rfl))
      by_cases hvt : v = target
      · exact hvt
      · simp only [if_neg hvt] at this; simp at this
    subst hvt
    obtain ⟨p, k1, k2, k3⟩ := h.treePath _ hv rfl
    refine ⟨p, sv.cost, ?_, k2, k3, k1.last, k1.bound.1, ?_⟩
    · rw [← hm] at k1
      simp [shortestPathImpl, h1, buildPath_eq k1]
    · intro c' hw
      have hvn : v ∉ seen s0 := by
        intro hv'
        exact (List.nodup_append.mp h.nodup).2.2 v hv' v hp.mem rfl
      have hA : ∀ u, (fun _ => True) u → u ∈ seen s0 → Accepted s0.visits u := by
        intro u _ hu
        obtain ⟨i, hi, hiu⟩ := mem_seen.mp hu
        have := hres hr i (by rw [hvis]; exact List.mem_append_left _ hi)
        have hne : i.1.vertex ≠ v := by
          intro he
          exact hvn (mem_seen.mpr ⟨i, hi, he⟩)
        rw [if_neg hne] at this
        exact ⟨i.1, by rw [← this]; exact hi, hiu⟩
      rcases hp.walk_le hv hg.cost (A := fun _ => True) hA hw with ⟨hsv, -⟩ | hle
      · exact absurd hsv hvn
      · exact hle

/-- paths and walks: the cost of a path is the cost of a walk to its end -/
theorem PathCost.walk {g : Graph K} {p : List Nat} {c : K} (h : PathCost g p c) {start v : Nat}
    (h1 : p.head? = some start) (h2 : p.getLast? = some v) : AnyWalk g start c v := by
  induction h generalizing v with
  | single u =>
    simp only [List.head?_cons, Option.some.injEq, List.getLast?_singleton] at h1 h2
    subst h1; subst h2
    exact .nil
  | snoc hp hl he ih =>
    rename_i p c u e
    simp only [List.getLast?_append, List.getLast?_singleton, Option.some_or, Option.some.injEq] at h2
    subst h2
    refine .snoc (ih ?_ hl) trivial he
    cases p with
    | nil => simp at hl
    | cons a p => simpa using h1

/-- and every walk is the walk of a path -/
theorem Walk.path {g : Graph K} {A : Nat → Prop} {start v : Nat} {c : K} (h : Walk g A start c v) :
    ∃ p, PathCost g p c ∧ p.head? = some start ∧ p.getLast? = some v := by
  induction h with
  | nil => exact ⟨[start], .single _, by simp, by simp⟩
  | snoc h ha he ih =>
    rename_i c u e
    obtain ⟨p, h1, h2, h3⟩ := ih
    refine ⟨p ++ [e.dst], .snoc h1 h3 he, ?_, by simp⟩
    cases p with
    | nil => simp at h2
    | cons a p => simpa using h2

/-- C21 stated with paths only: the returned path is at most as expensive as any other path. -/
theorem shortestPath_optimal {g : Graph K} {n start target : Nat} (hg : GraphOk g n) (hs : start < n)
    {pick : Nat → (Nat → K) → List Nat → Nat} (hpick : PickMin pick) {q : List Nat} {c : K}
    (hq : PathCost g q c) (hq1 : q.head? = some start) (hq2 : q.getLast? = some target) :
    ∃ p c', shortestPathImpl g pick start target = some (some (p.map some)) ∧ PathCost g p c' ∧
      p.head? = some start ∧ p.getLast? = some target ∧ Cost.le c' c := by
  rcases shortestPath_spec (target := target) hg hs hpick with ⟨-, h⟩ | ⟨p, c', h1, h2, h3, h4, -, h5⟩
  · exact absurd (hq.walk hq1 hq2) (h c)
  · exact ⟨p, c', h1, h2, h3, h4, h5 c (hq.walk hq1 hq2)⟩

/-- The path from a vertex to itself is that vertex. -/
theorem shortestPath_self {g : Graph K} {n start : Nat} (hg : GraphOk g n) (hs : start < n)
    {pick : Nat → (Nat → K) → List Nat → Nat} (hpick : PickMin pick) :
    shortestPathImpl g pick start start = some (some [some start]) := by
  rcases shortestPath_spec (target := start) hg hs hpick with ⟨-, h⟩ | ⟨p, c, h1, -, h3, h4, h5, -⟩
  · exact absurd .nil (h Cost.zero)
  · rw [h1]
    cases p with
    | nil => simp at h3
    | cons a p =>
      simp only [List.head?_cons, Option.some.injEq] at h3
      subst h3
      cases p with
      | nil => rfl
      | cons b p =>
        have : a ∈ b :: p := by
          rw [List.getLast?_cons_cons] at h4
          exact List.mem_of_getLast? h4
        simp only [List.nodup_cons] at h5
        exact absurd this h5.1

/-- Case: the walk 0 → 1 → 3 over the parallel edge of cost 7 exists, so a path of cost at most 9 is found. -/
example : ∃ p c', shortestPathImpl exG exPick 0 3 = some (some (p.map some)) ∧ PathCost exG p c' ∧
    p.head? = some 0 ∧ p.getLast? = some 3 ∧ Cost.le c' 9 :=
  shortestPath_optimal (q := [0, 1, 3]) exG_ok (by decide) exPick_min
    (.snoc (p := [0, 1]) (u := 1) (e := ⟨3, 7, .successor⟩)
      (.snoc (p := [0]) (u := 0) (e := ⟨1, 2, .successor⟩) (.single 0) rfl (by simp [exG]))
      rfl (by simp [exG])) rfl rfl

/-! ### C22 reachableSet -/

/-- C22: `reachableSet` lists each vertex at most once, and exactly those that can be reached with a total
cost of at most the limit. -/
theorem reachableSet_spec {g : Graph K} {n start : Nat} (hg : GraphOk g n) (hs : start < n)
    {pick : Nat → (Nat → K) → List Nat → Nat} (hpick : PickMin pick) (limit : K) :
    ∃ r, reachableSetImpl g n pick start (stopIfCostMoreThan true limit) = some r ∧ r.Nodup ∧
      ∀ v, v ∈ r ↔ ∃ c, AnyWalk g start c v ∧ Cost.le c limit := by
  obtain ⟨s, h1, h, hq, hp, hn⟩ := query_pure hg hs hpick (stopIfCostMoreThan true limit)
  refine ⟨_, by simp only [reachableSetImpl, h1]; rfl, ?_, ?_⟩
  · exact List.Pairwise.filter _ List.nodup_range
  · intro v
    simp only [List.mem_filter, List.mem_range]
    constructor
    · rintro ⟨hv, hpv⟩
      cases hm : s.map v with
      | none => rw [hm] at hpv; simp at hpv
      | some sv =>
        rw [hm] at hpv
        simp only at hpv
        refine ⟨sv.cost, (h.exists_walk _ hm rfl).mono (fun _ _ => trivial), ?_⟩
        have := hp v sv hm
        rw [hpv] at this
        simpa [stopIfCostMoreThan] using this.symm
    · rintro ⟨c, hw, hc⟩
      obtain ⟨ha, sv, k1, k2⟩ := accepted_of_down hg.cost h hq (D := fun c => Cost.le c limit)
        (fun a b hab hb => Cost.le_trans hab hb)
        (by intro v sv hv; rw [hp v sv hv]; simp [stopIfCostMoreThan]) hw hc
      refine ⟨hn v (by rw [k1]; rfl), ?_⟩
      rw [k1]
      simp only
      rw [hp v sv k1]
      simp only [stopIfCostMoreThan, if_true, decide_eq_true_eq]
      exact Cost.le_trans k2 hc

/-- Disagreement: the documentation says that the start is always part of the set, but it is not if the
limit is below the cost zero. -/
theorem reachableSet_start_iff {g : Graph K} {n start : Nat} (hg : GraphOk g n) (hs : start < n)
    {pick : Nat → (Nat → K) → List Nat → Nat} (hpick : PickMin pick) (limit : K) :
    ∃ r, reachableSetImpl g n pick start (stopIfCostMoreThan true limit) = some r ∧
      (start ∈ r ↔ Cost.le Cost.zero limit) := by
  obtain ⟨r, h1, -, h3⟩ := reachableSet_spec hg hs hpick limit
  refine ⟨r, h1, ?_⟩
  rw [h3]
  constructor
  · rintro ⟨c, hw, hc⟩
    refine Cost.le_trans ?_ hc
    generalize start = v at hw
    suffices ∀ u v c, AnyWalk g u c v → Cost.le Cost.zero c from this _ _ _ hw
    intro u v c hw
    induction hw with
    | nil => exact Cost.le_refl _
    | snoc hw ha he ih => exact Cost.le_trans ih (Cost.le_add _ (hg.cost _ _ he))
  · intro h
    exact ⟨Cost.zero, .nil, h⟩

/-- Case: vertex 3 is reachable from 0 with cost 2. -/
example : ∃ r, reachableSetImpl exG 6 exPick 0 (stopIfCostMoreThan true 2) = some r ∧ 3 ∈ r ∧ 5 ∉ r := by
  obtain ⟨r, h1, -, h3⟩ := reachableSet_spec exG_ok (start := 0) (by decide) exPick_min 2
  refine ⟨r, h1, ?_, ?_⟩
  · rw [h3]
    exact ⟨2, .snoc (c := 2) (u := 1) (e := ⟨3, 0, .successor⟩)
      (.snoc (c := 0) (u := 0) (e := ⟨1, 2, .successor⟩) .nil trivial (by simp [exG]))
      trivial (by simp [exG]), Nat.le_refl _⟩
  · rw [h3]
    rintro ⟨c, hw, -⟩
    have : ∀ c v, AnyWalk exG 0 c v → v < 4 := by
      intro c v hw
      induction hw with
      | nil => decide
      | snoc hw ha he ih =>
        rename_i c u e
        have : ∀ u < 4, ∀ e ∈ exG u, e.dst < 4 := by decide
        exact this u ih e he
    have := this _ _ hw
    omega

end Verif.Search
