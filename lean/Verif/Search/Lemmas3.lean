import Verif.Search.Lemmas2

namespace Verif.Search
variable {σ K : Type} [Cost K]

/-! ### paths without repetition -/

theorem TreePath.bound {m : Nat → Option (VertexState K)} {v : Nat} {p : List Nat}
    (h : TreePath m v p) : p.Nodup ∧ ∀ u ∈ p, ∃ su, m u = some su ∧ su.length ≤ p.length := by
  induction h with
  | root h1 h2 h3 =>
    refine ⟨by simp, ?_⟩
    intro u hu
    simp only [List.mem_singleton] at hu
    subst hu
    exact ⟨_, h1, by simp [h3]⟩
  | step h1 h2 h3 h4 h5 ih =>
    rename_i v sv su p
    obtain ⟨k1, k2⟩ := ih
    obtain ⟨sx, l1, l2⟩ := h5.length
    rw [h3] at l1
    have := Option.some.inj l1
    subst this
    constructor
    · rw [List.nodup_append]
      refine ⟨k1, by simp, ?_⟩
      intro a ha b hb hab
      simp only [List.mem_singleton] at hb
      subst hb; subst hab
      obtain ⟨sa, q1, q2⟩ := k2 a ha
      rw [h1] at q1
      have := Option.some.inj q1
      subst this
      omega
    · intro u hu
      simp only [List.mem_append, List.mem_singleton] at hu
      rcases hu with hu | rfl
      · obtain ⟨sa, q1, q2⟩ := k2 u hu
        exact ⟨sa, q1, by simp; omega⟩
      · exact ⟨sv, h1, by simp; omega⟩

theorem TreePath.prefix {m : Nat → Option (VertexState K)} {v : Nat} {p : List Nat}
    (h : TreePath m v p) {q : List Nat} (hq : q <+: p) {u : Nat} (hu : q.getLast? = some u) :
    TreePath m u q := by
  induction h generalizing q with
  | root h1 h2 h3 =>
    rename_i v sv
    obtain ⟨t, ht⟩ := hq
    cases q with
    | nil => simp at hu
    | cons a q =>
      simp only [List.cons_append, List.cons.injEq, List.append_eq_nil_iff] at ht
      obtain ⟨rfl, rfl, rfl⟩ := ht
      simp only [List.getLast?_singleton, Option.some.injEq] at hu
      subst hu
      exact .root h1 h2 h3
  | step h1 h2 h3 h4 h5 ih =>
    rename_i v sv su p
    rcases List.prefix_concat_iff.mp hq with rfl | hq
    · simp only [List.getLast?_append, List.getLast?_singleton, Option.some_or, Option.some.injEq] at hu
      subst hu
      exact .step h1 h2 h3 h4 h5
    · exact ih hq hu

/-- the vertex after an inner vertex of a chain has it as predecessor -/
theorem TreePath.next {m : Nat → Option (VertexState K)} {w : Nat} {p : List Nat}
    (h : TreePath m w p) {v : Nat} (hv : v ∈ p) (hne : v ≠ w) :
    ∃ x sx, m x = some sx ∧ sx.predecessor = v ∧ x ≠ v := by
  induction h with
  | root h1 h2 h3 => simp only [List.mem_singleton] at hv; exact absurd hv hne
  | step h1 h2 h3 h4 h5 ih =>
    rename_i w sw su p
    simp only [List.mem_append, List.mem_singleton] at hv
    rcases hv with hv | hv
    · by_cases hp : v = sw.predecessor
      · subst hp; exact ⟨w, sw, h1, rfl, fun h => h2 h.symm⟩
      · exact ih hv hp
    · exact absurd hv hne

/-! ### the finished search -/

/-- visits and entries agree when the queue is empty -/
theorem Inv.visit_of_map {g E : Graph K} {start : Nat} {s : State σ K} (h : Inv g E start s)
    (hq : s.queue = []) {v : Nat} {sv : VertexState K} (hv : s.map v = some sv) :
    (⟨v, sv.predecessor, sv.cost, sv.length, sv.numLaneChanges⟩, some sv.predicate) ∈ s.visits := by
  have h1 := (h.dom v).mp (by rw [hv]; rfl)
  rw [hq] at h1
  simp only [List.not_mem_nil, or_false] at h1
  obtain ⟨⟨⟨a, b, c, d, e⟩, r⟩, hi, hiv⟩ := mem_seen.mp h1
  obtain ⟨st, q1, q2, q3, q4, q5, q6⟩ := h.vis _ hi
  simp only at hiv q1 q2 q3 q4 q5 q6
  subst hiv
  rw [hv] at q1
  have := Option.some.inj q1
  subst this
  rw [q2, q3, q4, q5, ← q6]
  exact hi

/-- replaying a stateless callback: every result is the value of the function -/
theorem replays_pure {f : VisitInfo K → Bool} {u : Unit} {t : List (VisitInfo K × Option Bool)}
    (h : Replays (pureCb f) u t) : ∀ i ∈ t, i.2 = some (f i.1) := by
  induction t generalizing u with
  | nil => simp
  | cons x t ih =>
    simp only [Replays, pureCb] at h
    intro i hi
    simp only [List.mem_cons] at hi
    rcases hi with rfl | hi
    · exact h.1.symm
    · exact ih h.2 i hi

/-- a search with a stateless callback runs to its end -/
theorem query_pure {g : Graph K} {n start : Nat} (hg : GraphOk g n) (hs : start < n)
    {pick : Nat → (Nat → K) → List Nat → Nat} (hpick : PickMin pick) (f : VisitInfo K → Bool) :
    ∃ s, query g pick (pureCb f) start () = some (.done, s) ∧ Inv g g start s ∧ s.queue = [] ∧
      (∀ v sv, s.map v = some sv →
        sv.predicate = f ⟨v, sv.predecessor, sv.cost, sv.length, sv.numLaneChanges⟩) ∧
      (∀ v, (s.map v).isSome → v < n) := by
  obtain ⟨o, s, h1, h2, h3⟩ := query_spec hg hs hpick (pureCb f) ()
  cases o with
  | done =>
    obtain ⟨k1, k2, k3⟩ := h2
    refine ⟨s, h1, k1, k2, ?_, h3⟩
    intro v sv hv
    have := replays_pure k3 _ (k1.visit_of_map k2 hv)
    simpa using this
  | stopped =>
    obtain ⟨s0, v, sv, -, -, -, k4, k5⟩ := h2
    have := replays_pure k5 _ (by rw [k4]; exact List.mem_append_right _ (List.mem_singleton.mpr rfl))
    simp at this

/-- walks over fewer vertices -/
theorem Walk.mono {g : Graph K} {A B : Nat → Prop} {start v : Nat} {c : K} (h : Walk g A start c v)
    (hAB : ∀ u, A u → B u) : Walk g B start c v := by
  induction h with
  | nil => exact .nil
  | snoc h ha he ih => exact .snoc ih (hAB _ ha) he

/-- With a criterion that only depends on the cost and is downward closed, the accepted vertices are those
with a walk whose cost satisfies it, and costs of accepted vertices are the minimal ones. -/
theorem accepted_of_down {g : Graph K} {start : Nat} {s : State σ K}
    (hg : ∀ v, ∀ e ∈ g v, Cost.le Cost.zero e.cost) (h : Inv g g start s)
    (hq : s.queue = []) {D : K → Prop} (hD : ∀ a b, Cost.le a b → D b → D a)
    (hp : ∀ v sv, s.map v = some sv → (sv.predicate = true ↔ D sv.cost)) {c : K} {v : Nat}
    (hw : AnyWalk g start c v) (hc : D c) :
    Accepted s.visits v ∧ ∃ sv, s.map v = some sv ∧ Cost.le sv.cost c := by
  have key : ∀ v sv, s.map v = some sv → D sv.cost → Accepted s.visits v := by
    intro v sv hv hd
    refine (h.accepted_iff v).mpr ⟨?_, sv, hv, (hp v sv hv).mpr hd⟩
    exact mem_seen.mpr ⟨_, h.visit_of_map hq hv, rfl⟩
  have hwalk : Walk g (Accepted s.visits) start c v := by
    induction hw with
    | nil => exact .nil
    | snoc hw ha he ih =>
      have hc' := hD _ _ (Cost.le_add _ (hg _ _ he)) hc
      have ih' := ih hc'
      obtain ⟨su, k1, k2⟩ := h.walk_le hq ih'
      exact .snoc ih' (key _ su k1 (hD _ _ k2 hc')) he
  obtain ⟨sv, k1, k2⟩ := h.walk_le hq hwalk
  exact ⟨key v sv k1 (hD _ _ k2 hc), sv, k1, k2⟩

theorem allSome_map_some {α β : Type} (l : List α) (f : α → β) :
    allSome (l.map fun x => some (f x)) = some (l.map f) := by
  induction l with
  | nil => rfl
  | cons a l ih => simp [allSome, ih]

/-- every vertex of a finished search is on the chain of some leaf -/
theorem Inv.leaf_above {g E : Graph K} {start : Nat} {s : State σ K} (h : Inv g E start s)
    (hq : s.queue = []) {n : Nat} (hn : ∀ v, (s.map v).isSome → v < n) (k : Nat) {v : Nat}
    {sv : VertexState K} (hv : s.map v = some sv) (hk : sv.length + k = n) :
    ∃ w sw p, s.map w = some sw ∧ sw.isLeaf = true ∧ TreePath s.map w p ∧ v ∈ p := by
  induction k generalizing v sv with
  | zero =>
    obtain ⟨p, hp, -, -⟩ := h.treePath sv.length hv rfl
    by_cases hl : sv.isLeaf = true
    · exact ⟨v, sv, p, hv, hl, hp, List.mem_of_getLast? hp.last⟩
    · rw [h.leaf v sv hv] at hl
      simp only [Classical.not_forall, not_imp] at hl
      obtain ⟨i, hi, hiv, hne⟩ := hl
      obtain ⟨st, q1, q2, -⟩ := h.vis i hi
      rcases h.tree _ _ q1 with ⟨a, b, -⟩ | ⟨-, -, -, su, e, a1, -, -, -, -, a2, -⟩
      · exact absurd (by rw [← hiv, ← q2, b, a]) hne
      · rw [q2, hiv, hv] at a1
        have := Option.some.inj a1
        subst this
        obtain ⟨q, hq', -, -⟩ := h.treePath st.length q1 rfl
        have hb := hq'.bound
        have hlen := nodup_length_le n hb.1 (by
          intro u hu
          obtain ⟨su, hsu, -⟩ := hb.2 u hu
          exact hn u (by rw [hsu]; rfl))
        obtain ⟨st', r1, r2⟩ := hq'.length
        rw [q1] at r1
        have := Option.some.inj r1
        subst this
        omega
  | succ k ih =>
    obtain ⟨p, hp, -, -⟩ := h.treePath sv.length hv rfl
    by_cases hl : sv.isLeaf = true
    · exact ⟨v, sv, p, hv, hl, hp, List.mem_of_getLast? hp.last⟩
    · rw [h.leaf v sv hv] at hl
      simp only [Classical.not_forall, not_imp] at hl
      obtain ⟨i, hi, hiv, hne⟩ := hl
      obtain ⟨st, q1, q2, -⟩ := h.vis i hi
      rcases h.tree _ _ q1 with ⟨a, b, -⟩ | ⟨-, -, -, su, e, a1, -, -, -, -, a2, -⟩
      · exact absurd (by rw [← hiv, ← q2, b, a]) hne
      · have a1' := a1
        rw [q2, hiv, hv] at a1'
        have := Option.some.inj a1'
        subst this
        obtain ⟨w, sw, q, k1, k2, k3, k4⟩ := ih q1 (by omega)
        refine ⟨w, sw, q, k1, k2, k3, ?_⟩
        -- v precedes i.vertex on the chain
        clear ih
        have : ∀ {w : Nat} {q : List Nat}, TreePath s.map w q → i.1.vertex ∈ q → v ∈ q := by
          intro w q hq
          induction hq with
          | root e1 e2 e3 =>
            intro hm
            simp only [List.mem_singleton] at hm
            subst hm
            rw [q1] at e1
            have := Option.some.inj e1
            subst this
            rw [q2, hiv] at e2
            exact absurd e2.symm hne
          | step e1 e2 e3 e4 e5 ih =>
            intro hm
            simp only [List.mem_append, List.mem_singleton] at hm
            rcases hm with hm | hm
            · exact List.mem_append_left _ (ih hm)
            · subst hm
              rw [q1] at e1
              have := Option.some.inj e1
              subst this
              rw [q2, hiv] at e5
              exact List.mem_append_left _ (List.mem_of_getLast? e5.last)
        exact this k3 k4

end Verif.Search
