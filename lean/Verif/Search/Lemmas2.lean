import Verif.Search.Lemmas
import Verif.Search.Spec

namespace Verif.Search
variable {σ K : Type} [Cost K]

theorem replays_append (cb : Callback σ K) (u : σ) (t : List (VisitInfo K × Option Bool))
    (i : VisitInfo K) (r : Option Bool) :
    Replays cb u (t ++ [(i, r)]) ↔ Replays cb u t ∧ (cb (userAfter cb u t) i).2 = r := by
  induction t generalizing u with
  | nil => simp [Replays, userAfter]
  | cons x t ih => simp [Replays, userAfter, ih, and_assoc]

theorem userAfter_append (cb : Callback σ K) (u : σ) (t : List (VisitInfo K × Option Bool))
    (i : VisitInfo K) (r : Option Bool) :
    userAfter cb u (t ++ [(i, r)]) = (cb (userAfter cb u t) i).1 := by
  induction t generalizing u with
  | nil => simp [userAfter]
  | cons x t ih => simp [userAfter, ih]

theorem nodup_length_le {l : List Nat} (n : Nat) (hn : l.Nodup) (h : ∀ v ∈ l, v < n) :
    l.length ≤ n := by
  induction n generalizing l with
  | zero =>
    cases l with
    | nil => simp
    | cons a l => exact absurd (h a (by simp)) (by omega)
  | succ n ih =>
    have h1 := ih (l := l.erase n) (hn.erase _) (by
      intro v hv
      have := (List.Nodup.mem_erase_iff hn).mp hv
      have := h v this.2
      omega)
    have h2 : l.length ≤ (l.erase n).length + 1 := by
      rw [List.length_erase]; split <;> omega
    omega

/-- what is known when the search ends -/
def Final (g : Graph K) (start : Nat) (cb : Callback σ K) (user : σ) :
    Outcome → State σ K → Prop
  | .done, s => Inv g g start s ∧ s.queue = [] ∧ Replays cb user s.visits
  | .stopped, s => ∃ (s0 : State σ K) (v : Nat) (sv : VertexState K), Popped g start v s0 ∧ s0.map v = some sv ∧ s.map = s0.map ∧
      s.visits = s0.visits ++ [(⟨v, sv.predecessor, sv.cost, sv.length, sv.numLaneChanges⟩, none)] ∧
      Replays cb user s.visits

theorem loop_spec {g : Graph K} {n start : Nat} (hg : GraphOk g n)
    {pick : Nat → (Nat → K) → List Nat → Nat} (hpick : PickMin pick) (cb : Callback σ K) (user : σ)
    (k i : Nat) (s : State σ K) (hk : s.visits.length + k = n) (hi : Inv g g start s)
    (hb : ∀ v, (s.map v).isSome → v < n) (hr : Replays cb user s.visits)
    (hu : s.user = userAfter cb user s.visits) :
    ∃ o s', loop g pick cb i s = some (o, s') ∧ Final g start cb user o s' ∧
      (∀ v, (s'.map v).isSome → v < n) := by
  induction k generalizing i s with
  | zero =>
    rw [loop]
    have hlen := nodup_length_le n hi.nodup (by
      intro v hv; exact hb v ((hi.dom v).mpr (List.mem_append.mp hv)))
    have hq : s.queue = [] := by
      have : (seen s).length = s.visits.length := by simp [seen]
      rw [List.length_append] at hlen
      exact List.eq_nil_of_length_eq_zero (by omega)
    rw [if_pos hq]
    exact ⟨_, _, rfl, ⟨hi, hq, hr⟩, hb⟩
  | succ k ih =>
    rw [loop]
    by_cases hq : s.queue = []
    · rw [if_pos hq]
      exact ⟨_, _, rfl, ⟨hi, hq, hr⟩, hb⟩
    · rw [if_neg hq]
      simp only
      obtain ⟨hp1, hp2⟩ := hpick i (costOf s) s.queue hq
      generalize pick i (costOf s) s.queue = v at hp1 hp2 ⊢
      have hpop : Popped g start v s := by
        refine ⟨hi, hp1, ?_⟩
        intro u hu su sv hsu hsv
        have := hp2 u hu
        simp only [costOf, hsu, hsv] at this
        exact this
      obtain ⟨sv, s1, r, e1, e2, e3, e4, e5, e6, e7, e8⟩ := examine_inv (cb := cb) hpop
      rw [e2]
      have hrep : Replays cb user s1.visits := by
        rw [e5, replays_append]
        exact ⟨hr, by rw [← hu]; exact e3⟩
      have huser : s1.user = userAfter cb user s1.visits := by
        rw [e5, userAfter_append, ← hu, e4]
      cases r with
      | none =>
        simp only
        refine ⟨_, _, rfl, ⟨s, v, sv, hpop, e1, e7 rfl, e5, hrep⟩, ?_⟩
        intro w hw; rw [e7 rfl] at hw; exact hb w hw
      | some b =>
        obtain ⟨hinv1, sv', f1, f2, f3⟩ := e8 b rfl
        have hdom1 : ∀ w, (s1.map w).isSome → w < n := by
          intro w hw
          apply hb w
          rw [hi.dom w]
          rcases (hinv1.dom w).mp hw with hw | hw
          · rw [mem_seen, e5] at hw
            obtain ⟨j, hj, hjw⟩ := hw
            simp only [List.mem_append, List.mem_singleton] at hj
            rcases hj with hj | hj
            · left; exact mem_seen.mpr ⟨j, hj, hjw⟩
            · subst hj; simp only at hjw; subst hjw; right; exact hp1
          · right; rw [e6] at hw; exact List.mem_of_mem_erase hw
        have hvseen : v ∈ seen s1 := by
          rw [mem_seen, e5]; exact ⟨_, List.mem_append_right _ (List.mem_singleton.mpr rfl), rfl⟩
        have hmax : ∀ w ∈ seen s1, ∀ sw, s1.map w = some sw → Cost.le sw.cost sv'.cost := by
          intro w hw sw hsw
          obtain ⟨j, hj, hjw⟩ := mem_seen.mp hw
          obtain ⟨st, q1, q2, q3, -⟩ := hinv1.vis j hj
          rw [hjw, hsw] at q1
          have := Option.some.inj q1
          subst this
          rw [q3]
          have hs := hinv1.sorted
          rw [e5] at hs hj
          rw [List.pairwise_append] at hs
          simp only [List.mem_append, List.mem_singleton] at hj
          rcases hj with hj | hj
          · have := hs.2.2 j hj _ (by simp; rfl)
            rw [f3]; exact this
          · rw [hj, f3]; exact Cost.le_refl _
        have hes : ∃ s2, relaxAll v (if b then g v else []) s1 = some s2 ∧
            Inv g g start s2 ∧ s2.visits = s1.visits ∧ s2.user = s1.user ∧
            (∀ w, (s2.map w).isSome → w < n) := by
          cases b with
          | true =>
            obtain ⟨s2, k1, k2, k3, k4, k5⟩ := relaxAll_inv (g v) hinv1 hvseen f1 f2
              (fun e he => he) (fun e he => hg.cost v e he) hmax
            have hE : (fun w => if w = v then (if v = v then [] else g v) ++ g v
                else if w = v then [] else g w) = g := by
              funext w; by_cases hwv : w = v <;> simp [hwv]
            rw [hE] at k2
            refine ⟨s2, k1, k2, k3, k4, ?_⟩
            -- new vertices are targets of edges
            intro w hw
            obtain ⟨sw, hsw⟩ := Option.isSome_iff_exists.mp hw
            have hvn : v < n := hb v (by rw [e1]; rfl)
            rcases k2.tree w sw hsw with ⟨h1, -⟩ | ⟨-, -, h3, su, e, h4, h5, h6, h7, -⟩
            · rw [h1]
              apply hdom1
              rw [hinv1.dom]
              rcases hinv1.start with h | ⟨h, -⟩
              · exact Or.inl h
              · right; rw [h]; simp
            · rw [← h7]
              refine hg.dst _ ?_ e h6
              apply hdom1
              have : seen s2 = seen s1 := by simp [seen, k3]
              rw [hinv1.dom]; left; rw [← this]; exact h3
          | false =>
            refine ⟨s1, rfl, ?_, rfl, rfl, hdom1⟩
            refine { hinv1 with edge := ?_ }
            intro u hu su hsu hpu e he
            by_cases huv : u = v
            · subst huv
              rw [f1] at hsu
              have := Option.some.inj hsu
              subst this
              rw [f2] at hpu; simp at hpu
            · exact hinv1.edge u hu su hsu hpu e (by rw [if_neg huv]; exact he)
        obtain ⟨s2, k1, k2, k3, k4, k5⟩ := hes
        simp only [k1]
        apply ih
        · rw [k3, e5]; simp; omega
        · exact k2
        · exact k5
        · rw [k3]; exact hrep
        · rw [k4, k3]; exact huser

theorem query_spec {g : Graph K} {n start : Nat} (hg : GraphOk g n) (hs : start < n)
    {pick : Nat → (Nat → K) → List Nat → Nat} (hpick : PickMin pick) (cb : Callback σ K) (user : σ) :
    ∃ o s', query g pick cb start user = some (o, s') ∧ Final g start cb user o s' ∧
      (∀ v, (s'.map v).isSome → v < n) := by
  apply loop_spec hg hpick cb user n 0 (initState start user)
  · simp [initState]
  · exact inv_init g start user
  · intro v hv
    simp only [initState, upd] at hv
    split at hv
    · omega
    · simp at hv
  · trivial
  · rfl

/-! ### consequences of the invariant -/

theorem Inv.start_state {g E : Graph K} {start : Nat} {s : State σ K} (h : Inv g E start s) :
    ∃ st, s.map start = some st ∧ st.cost = Cost.zero := by
  have : start ∈ seen s ∨ start ∈ s.queue := by
    rcases h.start with h | ⟨h, -⟩
    · exact Or.inl h
    · right; rw [h]; simp
  obtain ⟨st, hst⟩ := Option.isSome_iff_exists.mp ((h.dom start).mpr this)
  rcases h.tree start st hst with ⟨-, -, h3, -⟩ | ⟨h1, -⟩
  · exact ⟨st, hst, h3⟩
  · exact absurd rfl h1

/-- accepted vertices in terms of the map -/
theorem Inv.accepted_iff {g E : Graph K} {start : Nat} {s : State σ K} (h : Inv g E start s) (v : Nat) :
    Accepted s.visits v ↔ v ∈ seen s ∧ ∃ sv, s.map v = some sv ∧ sv.predicate = true := by
  constructor
  · rintro ⟨i, hi, rfl⟩
    refine ⟨mem_seen.mpr ⟨_, hi, rfl⟩, ?_⟩
    obtain ⟨st, h1, -, -, -, -, h6⟩ := h.vis _ hi
    exact ⟨st, h1, by simpa using h6.symm⟩
  · rintro ⟨hv, sv, h1, h2⟩
    obtain ⟨i, hi, hiv⟩ := mem_seen.mp hv
    obtain ⟨st, q1, -, -, -, -, q6⟩ := h.vis _ hi
    rw [hiv, h1] at q1
    have := Option.some.inj q1
    subst this
    rw [h2] at q6
    refine ⟨i.1, ?_, hiv⟩
    rw [← q6]; exact hi

/-- all walks over accepted vertices end in the map with at most their cost -/
theorem Inv.walk_le {g : Graph K} {start : Nat} {s : State σ K} (h : Inv g g start s)
    (hq : s.queue = []) {c : K} {v : Nat} (hw : Walk g (Accepted s.visits) start c v) :
    ∃ sv, s.map v = some sv ∧ Cost.le sv.cost c := by
  induction hw with
  | nil =>
    obtain ⟨st, h1, h2⟩ := h.start_state
    exact ⟨st, h1, by rw [h2]; exact Cost.le_refl _⟩
  | snoc hw ha he ih =>
    obtain ⟨su, h1, h2⟩ := ih
    obtain ⟨h3, su', h4, h5⟩ := (h.accepted_iff _).mp ha
    rw [h1] at h4
    have := Option.some.inj h4
    subst this
    obtain ⟨sv, k1, k2⟩ := h.edge _ h3 su h1 h5 _ he
    exact ⟨sv, k1, Cost.le_trans k2 (Cost.add_mono _ h2)⟩

/-- every entry of the map is reached by a walk of its cost -/
theorem Inv.exists_walk {g E : Graph K} {start : Nat} {s : State σ K} (h : Inv g E start s)
    (k : Nat) {v : Nat} {sv : VertexState K} (hv : s.map v = some sv) (hk : sv.length = k) :
    Walk g (Accepted s.visits) start sv.cost v := by
  induction k generalizing v sv with
  | zero =>
    rcases h.tree v sv hv with ⟨-, -, -, h4, -⟩ | ⟨-, -, -, su, e, -, -, -, -, -, h7, -⟩ <;> omega
  | succ k ih =>
    rcases h.tree v sv hv with ⟨h1, -, h3, -⟩ | ⟨-, -, h3, su, e, h4, h5, h6, h7, h8, h9, -⟩
    · rw [h1, h3]; exact Walk.nil
    · have := ih h4 (by omega)
      rw [h8, ← h7]
      exact Walk.snoc this ((h.accepted_iff _).mpr ⟨h3, su, h4, h5⟩) h6

/-- optimality of the vertex at the top of the queue -/
theorem Popped.walk_le {g : Graph K} {start v : Nat} {s : State σ K} {sv : VertexState K}
    (h : Popped g start v s) (hv : s.map v = some sv) (hg : ∀ v, ∀ e ∈ g v, Cost.le Cost.zero e.cost)
    {A : Nat → Prop} (hA : ∀ u, A u → u ∈ seen s → Accepted s.visits u) {c : K} {w : Nat}
    (hw : Walk g A start c w) :
    (w ∈ seen s ∧ ∃ sw, s.map w = some sw ∧ Cost.le sw.cost c) ∨ Cost.le sv.cost c := by
  have hi := h.inv
  induction hw with
  | nil =>
    rcases h.start_first with ⟨rfl, -, -⟩ | ⟨-, h2⟩
    · right
      obtain ⟨st, h1, h2⟩ := hi.start_state
      rw [hv] at h1
      have := Option.some.inj h1
      subst this
      rw [h2]; exact Cost.le_refl _
    · left
      obtain ⟨st, h3, h4⟩ := hi.start_state
      exact ⟨h2, st, h3, by rw [h4]; exact Cost.le_refl _⟩
  | snoc hw ha he ih =>
    rename_i c u e
    rcases ih with ⟨h1, su, h2, h3⟩ | h1
    · obtain ⟨-, su', h4, h5⟩ := (hi.accepted_iff u).mp (hA u ha h1)
      rw [h2] at h4
      have := Option.some.inj h4
      subst this
      obtain ⟨sx, k1, k2⟩ := hi.edge u h1 su h2 h5 e he
      have k3 := Cost.le_trans k2 (Cost.add_mono e.cost h3)
      rcases (hi.dom e.dst).mp (by rw [k1]; rfl) with hd | hd
      · exact Or.inl ⟨hd, sx, k1, k3⟩
      · exact Or.inr (Cost.le_trans (h.min e.dst hd sx sv k1 hv) k3)
    · exact Or.inr (Cost.le_trans h1 (Cost.le_add _ (hg u e he)))

/-! ### buildPath -/

/-- the chain of predecessors -/
inductive TreePath (m : Nat → Option (VertexState K)) : Nat → List Nat → Prop where
  | root {v : Nat} {sv : VertexState K} : m v = some sv → sv.predecessor = v → sv.length = 1 →
      TreePath m v [v]
  | step {v : Nat} {sv su : VertexState K} {p : List Nat} : m v = some sv → sv.predecessor ≠ v →
      m sv.predecessor = some su → sv.length = su.length + 1 → TreePath m sv.predecessor p →
      TreePath m v (p ++ [v])

theorem TreePath.length {m : Nat → Option (VertexState K)} {v : Nat} {p : List Nat}
    (h : TreePath m v p) : ∃ sv, m v = some sv ∧ sv.length = p.length := by
  induction h with
  | root h1 h2 h3 => exact ⟨_, h1, by simp [h3]⟩
  | step h1 h2 h3 h4 h5 ih =>
    obtain ⟨su, k1, k2⟩ := ih
    rw [h3] at k1
    have := Option.some.inj k1
    subst this
    exact ⟨_, h1, by simp [h4, k2]⟩

theorem TreePath.ne_nil {m : Nat → Option (VertexState K)} {v : Nat} {p : List Nat}
    (h : TreePath m v p) : p ≠ [] := by
  cases h <;> simp

theorem TreePath.last {m : Nat → Option (VertexState K)} {v : Nat} {p : List Nat}
    (h : TreePath m v p) : p.getLast? = some v := by
  cases h <;> simp

theorem TreePath.unique {m : Nat → Option (VertexState K)} {v : Nat} {p q : List Nat}
    (h : TreePath m v p) (h' : TreePath m v q) : p = q := by
  induction h generalizing q with
  | root h1 h2 h3 =>
    cases h' with
    | root => rfl
    | step k1 k2 =>
      rw [h1] at k1
      have := Option.some.inj k1
      subst this
      exact absurd h2 k2
  | step h1 h2 h3 h4 h5 ih =>
    cases h' with
    | root k1 k2 =>
      rw [h1] at k1
      have := Option.some.inj k1
      subst this
      exact absurd k2 h2
    | step k1 k2 k3 k4 k5 =>
      rw [h1] at k1
      have := Option.some.inj k1
      subst this
      rw [ih k5]

theorem buildPathLoop_fwd {m : Nat → Option (VertexState K)} {v : Nat} {p : List Nat}
    (h : TreePath m v p) (size : Nat) (tail : List (Option Nat)) :
    buildPathLoop m false size v (List.replicate p.length none ++ tail) =
      some (p.map some ++ tail) := by
  induction h generalizing tail with
  | root h1 h2 h3 =>
    rw [buildPathLoop]
    simp [h1, h2, h3]
  | step h1 h2 h3 h4 h5 ih =>
    rename_i v sv su p
    obtain ⟨su', k1, k2⟩ := h5.length
    rw [h3] at k1
    have := Option.some.inj k1
    subst this
    rw [buildPathLoop]
    simp only [h1, Bool.false_eq_true, false_and, not_false_eq_true, true_and, false_or, h4,
      Nat.add_one_ne_zero, if_false, Nat.add_sub_cancel, k2]
    rw [if_pos (by simp; omega), if_neg h2]
    have hset : (List.replicate (p ++ [v]).length (none : Option Nat) ++ tail).set p.length (some v) =
        List.replicate p.length none ++ (some v :: tail) := by
      rw [List.length_append, List.length_singleton, List.replicate_succ', List.append_assoc,
        List.set_append_right _ _ (by simp)]
      simp
    rw [hset, ih]
    simp

theorem buildPathLoop_bwd {m : Nat → Option (VertexState K)} {v : Nat} {p : List Nat}
    (h : TreePath m v p) (size : Nat) (pre : List (Option Nat)) (hs : pre.length + p.length = size) :
    buildPathLoop m true size v (pre ++ List.replicate p.length none) =
      some (pre ++ (p.map some).reverse) := by
  induction h generalizing pre with
  | root h1 h2 h3 =>
    rw [buildPathLoop]
    simp only [List.length_singleton] at hs
    simp only [h1, h2, h3]
    rw [if_neg (by simp; omega)]
    simp only [if_true]
    rw [if_pos (by simp; omega)]
    rw [List.set_append_right _ _ (by omega)]
    have : size - 1 - pre.length = 0 := by omega
    simp [this]
  | step h1 h2 h3 h4 h5 ih =>
    rename_i v sv su p
    obtain ⟨su', k1, k2⟩ := h5.length
    rw [h3] at k1
    have := Option.some.inj k1
    subst this
    simp only [List.length_append, List.length_singleton] at hs
    rw [buildPathLoop]
    simp only [h1, h4, k2]
    rw [if_neg (by simp; omega)]
    simp only [if_true]
    rw [if_pos (by simp; omega), if_neg h2]
    have hset : (pre ++ List.replicate (p ++ [v]).length (none : Option Nat)).set
        (size - (p.length + 1)) (some v) = (pre ++ [some v]) ++ List.replicate p.length none := by
      rw [List.length_append, List.length_singleton, List.replicate_succ,
        List.set_append_right _ _ (by omega)]
      have : size - (p.length + 1) - pre.length = 0 := by omega
      simp [this]
    rw [hset, ih _ (by simp; omega)]
    simp

theorem buildPath_eq {m : Nat → Option (VertexState K)} {v : Nat} {p : List Nat}
    (h : TreePath m v p) (backw : Bool) :
    buildPath m backw v = some ((if backw then p.reverse else p).map some) := by
  obtain ⟨sv, h1, h2⟩ := h.length
  simp only [buildPath, h1, h2]
  cases backw with
  | false =>
    have := buildPathLoop_fwd h p.length []
    simpa using this
  | true =>
    have := buildPathLoop_bwd h p.length [] (by simp)
    simpa using this

/-- the chain of predecessors of an entry is a path of the graph with the cost of the entry -/
theorem Inv.treePath {g E : Graph K} {start : Nat} {s : State σ K} (h : Inv g E start s) (k : Nat)
    {v : Nat} {sv : VertexState K} (hv : s.map v = some sv) (hk : sv.length = k) :
    ∃ p, TreePath s.map v p ∧ PathCost g p sv.cost ∧ p.head? = some start := by
  induction k generalizing v sv with
  | zero =>
    rcases h.tree v sv hv with ⟨-, -, -, h4, -⟩ | ⟨-, -, -, su, e, -, -, -, -, -, h7, -⟩ <;> omega
  | succ k ih =>
    rcases h.tree v sv hv with ⟨h1, h2, h3, h4, -⟩ | ⟨-, h2, h3, su, e, h4, h5, h6, h7, h8, h9, -⟩
    · refine ⟨[v], .root hv (by rw [h1]; exact h2) h4, ?_, by simp [h1]⟩
      rw [h3]; exact .single v
    · obtain ⟨p, k1, k2, k3⟩ := ih h4 (by omega)
      refine ⟨p ++ [v], .step hv h2 h4 h9 k1, ?_, ?_⟩
      · rw [h8, ← h7]
        exact .snoc k2 k1.last h6
      · cases p with
        | nil => exact absurd rfl k1.ne_nil
        | cons a p => simpa using k3

end Verif.Search
