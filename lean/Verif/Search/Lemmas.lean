import Verif.Search.Model

namespace Verif.Search
variable {σ K : Type} [Cost K]

theorem Cost.lt_le {a b : K} (h : Cost.lt a b) : Cost.le a b :=
  (Cost.le_total a b).resolve_right h

/-- vertices visited so far -/
def seen (s : State σ K) : List Nat := s.visits.map (·.1.vertex)

/-- what a vertex entry owes to its predecessor -/
def TreeOk (g : Graph K) (start : Nat) (s : State σ K) (v : Nat) (sv : VertexState K) : Prop :=
  (v = start ∧ sv.predecessor = start ∧ sv.cost = Cost.zero ∧ sv.length = 1 ∧
    sv.numLaneChanges = 0) ∨
  (v ≠ start ∧ sv.predecessor ≠ v ∧ sv.predecessor ∈ seen s ∧ ∃ su e, s.map sv.predecessor = some su ∧
    su.predicate = true ∧ e ∈ g sv.predecessor ∧ e.dst = v ∧ sv.cost = Cost.add su.cost e.cost ∧
    sv.length = su.length + 1 ∧
    sv.numLaneChanges = su.numLaneChanges + (if e.rel ≠ Rel.successor then 1 else 0))

/-- The loop invariant. `E` are the edges that have been relaxed already. -/
structure Inv (g E : Graph K) (start : Nat) (s : State σ K) : Prop where
  nodup : (seen s ++ s.queue).Nodup
  dom : ∀ v, (s.map v).isSome ↔ v ∈ seen s ∨ v ∈ s.queue
  vis : ∀ i ∈ s.visits, ∃ st, s.map i.1.vertex = some st ∧ st.predecessor = i.1.predecessor ∧
    st.cost = i.1.cost ∧ st.length = i.1.length ∧ st.numLaneChanges = i.1.numLaneChanges ∧
    i.2 = some st.predicate
  front : ∀ u ∈ seen s, ∀ v ∈ s.queue, ∀ su sv, s.map u = some su → s.map v = some sv →
    Cost.le su.cost sv.cost
  edge : ∀ u ∈ seen s, ∀ su, s.map u = some su → su.predicate = true → ∀ e ∈ E u,
    ∃ sv, s.map e.dst = some sv ∧ Cost.le sv.cost (Cost.add su.cost e.cost)
  tree : ∀ v sv, s.map v = some sv → TreeOk g start s v sv
  sorted : s.visits.Pairwise fun i j => Cost.le i.1.cost j.1.cost
  predBefore : ∀ pre i post, s.visits = pre ++ i :: post →
    (i.1.vertex = start ∧ i.1.predecessor = start ∧ pre = []) ∨
      (i.1.vertex ≠ start ∧ ∃ j ∈ pre, j.1.vertex = i.1.predecessor ∧ j.2 = some true)
  leaf : ∀ v sv, s.map v = some sv →
    (sv.isLeaf = true ↔ ∀ i ∈ s.visits, i.1.predecessor = v → i.1.vertex = v)
  start : start ∈ seen s ∨ (s.queue = [start] ∧ s.visits = [])

theorem mem_seen {s : State σ K} {v : Nat} : v ∈ seen s ↔ ∃ i ∈ s.visits, i.1.vertex = v := by
  simp [seen]

/-- predecessors of visits are visited or the visit is the one of the start -/
theorem Inv.pred_seen {g E : Graph K} {start : Nat} {s : State σ K} (h : Inv g E start s)
    {i : VisitInfo K × Option Bool} (hi : i ∈ s.visits) :
    (i.1.vertex = start ∧ i.1.predecessor = start) ∨
      (i.1.vertex ≠ i.1.predecessor ∧ i.1.predecessor ∈ seen s) := by
  obtain ⟨st, h1, h2, -⟩ := h.vis i hi
  rcases h.tree _ _ h1 with ⟨a, b, -⟩ | ⟨a, b, c, -⟩
  · left; exact ⟨a, by rw [← h2]; exact b⟩
  · right; rw [← h2]; exact ⟨fun h => b h.symm, c⟩

theorem inv_init (g : Graph K) (start : Nat) (user : σ) :
    Inv g g start (initState start user : State σ K) := by
  constructor
  case nodup => simp [seen, initState]
  case dom => intro v; simp [seen, initState, upd]
  case vis => simp [initState]
  case front => simp [seen, initState]
  case edge => simp [seen, initState]
  case tree =>
    intro v sv h
    simp only [initState, upd] at h
    split at h
    · simp only [Option.some.injEq] at h
      subst h; left; simp [*]
    · simp at h
  case sorted => simp [initState]
  case predBefore => intro pre i post h; simp [initState] at h
  case leaf =>
    intro v sv h
    simp only [initState, upd] at h
    split at h
    · simp only [Option.some.injEq] at h
      subst h; simp [initState]
    · simp at h
  case start => right; simp [initState]

/-- processed edges extended by one -/
def addE (E : Graph K) (u : Nat) (e : Edge K) : Graph K := fun w => if w = u then E u ++ [e] else E w

theorem relaxEdge_inv {g E : Graph K} {start u : Nat} {s : State σ K} {us : VertexState K} {e : Edge K}
    (h : Inv g E start s) (hu : u ∈ seen s) (hus : s.map u = some us) (hp : us.predicate = true)
    (he : e ∈ g u) (hw : Cost.le Cost.zero e.cost)
    (hmax : ∀ w ∈ seen s, ∀ sw, s.map w = some sw → Cost.le sw.cost us.cost) :
    ∃ s', relaxEdge u s e = some s' ∧ Inv g (addE E u e) start s' ∧ s'.visits = s.visits ∧
      s'.user = s.user ∧ (∀ w ∈ seen s, s'.map w = s.map w) := by
  have hle : Cost.le us.cost (Cost.add us.cost e.cost) := Cost.le_add _ hw
  simp only [relaxEdge, hus]
  cases hd : s.map e.dst with
  | none =>
    have hnot : e.dst ∉ seen s ∧ e.dst ∉ s.queue := by
      have := h.dom e.dst
      rw [hd] at this
      simp at this
      exact this
    have hnu : ∀ w ∈ seen s, w ≠ e.dst := fun w hw hh => hnot.1 (hh ▸ hw)
    refine ⟨_, rfl, ?_, rfl, rfl, ?_⟩
    · constructor
      case nodup =>
        show (seen s ++ (s.queue ++ [e.dst])).Nodup
        rw [← List.append_assoc, List.nodup_append]
        refine ⟨h.nodup, by simp, ?_⟩
        intro a ha b hb hab
        simp only [List.mem_singleton] at hb
        subst hb; subst hab
        rcases List.mem_append.mp ha with ha | ha
        · exact hnot.1 ha
        · exact hnot.2 ha
      case dom =>
        intro v
        show ((upd s.map e.dst _) v).isSome ↔ v ∈ seen s ∨ v ∈ s.queue ++ [e.dst]
        simp only [upd]
        split
        · simp [*]
        · rename_i hv
          rw [h.dom v]; simp [hv]
      case vis =>
        intro i hi
        obtain ⟨st, h1, h2⟩ := h.vis i hi
        refine ⟨st, ?_, h2⟩
        simp only [upd]
        rw [if_neg (hnu _ (mem_seen.mpr ⟨i, hi, rfl⟩))]
        exact h1
      case front =>
        intro w hw' v hv sw sv hsw hsv
        simp only [upd] at hsw hsv
        rw [if_neg (hnu w hw')] at hsw
        split at hsv
        · simp only [Option.some.injEq] at hsv
          subst hsv
          exact Cost.le_trans (hmax w hw' sw hsw) hle
        · rename_i hne
          simp only [List.mem_append, List.mem_singleton, hne, or_false] at hv
          exact h.front w hw' v hv sw sv hsw hsv
      case edge =>
        intro w hw' sw hsw hpw e' he'
        simp only [upd] at hsw
        rw [if_neg (hnu w hw')] at hsw
        by_cases hwu : w = u
        · subst hwu
          simp only [addE, if_true, List.mem_append, List.mem_singleton] at he'
          have hss : sw = us := by rw [hus] at hsw; exact (Option.some.inj hsw).symm
          subst hss
          rcases he' with he' | he'
          · obtain ⟨sv, h1, h2⟩ := h.edge w hw' sw hsw hpw e' he'
            have hne : e'.dst ≠ e.dst := by intro hh; rw [hh, hd] at h1; simp at h1
            exact ⟨sv, by simp only [upd, if_neg hne]; exact h1, h2⟩
          · subst he'
            exact ⟨_, by simp only [upd, if_true]; rfl, Cost.le_refl _⟩
        · simp only [addE, if_neg hwu] at he'
          obtain ⟨sv, h1, h2⟩ := h.edge w hw' sw hsw hpw e' he'
          have hne : e'.dst ≠ e.dst := by intro hh; rw [hh, hd] at h1; simp at h1
          exact ⟨sv, by simp only [upd, if_neg hne]; exact h1, h2⟩
      case tree =>
        intro v sv hsv
        simp only [upd] at hsv
        split at hsv
        · rename_i hv
          simp only [Option.some.injEq] at hsv
          subst hsv
          right
          refine ⟨?_, ?_, hu, us, e, ?_, hp, he, hv.symm, rfl, rfl, rfl⟩
          · intro hh
            rcases h.start with h1 | ⟨h1, -⟩
            · exact hnot.1 (hv ▸ hh ▸ h1)
            · apply hnot.2; rw [h1, ← hv, hh]; simp
          · simp only; rw [hv]; exact hnu u hu
          · simp only [upd]; rw [if_neg (hnu u hu)]; exact hus
        · rcases h.tree v sv hsv with h1 | ⟨h1, h2, h3, su, e', h4, h5⟩
          · exact Or.inl h1
          · right
            exact ⟨h1, h2, h3, su, e', by simp only [upd]; rw [if_neg (hnu _ h3)]; exact h4, h5⟩
      case sorted => exact h.sorted
      case predBefore => exact h.predBefore
      case leaf =>
        intro v sv hsv
        simp only [upd] at hsv
        split at hsv
        · rename_i hv
          simp only [Option.some.injEq] at hsv
          subst hsv
          simp only [true_iff]
          intro i hi hpi
          rcases h.pred_seen hi with ⟨h1, h2⟩ | ⟨h1, h2⟩
          · rw [h1, ← h2, hpi]
          · rw [hpi, hv] at h2; exact absurd h2 hnot.1
        · exact h.leaf v sv hsv
      case start =>
        rcases h.start with h1 | ⟨h1, h2⟩
        · exact Or.inl h1
        · rw [mem_seen] at hu; simp [h2] at hu
    · intro w hw'
      simp only [upd, if_neg (hnu w hw')]
  | some vs =>
    simp only
    by_cases hlt : Cost.lt (Cost.add us.cost e.cost) vs.cost
    · -- the target gets a cheaper predecessor
      have hns : e.dst ∉ seen s := by
        intro hh
        exact hlt (Cost.le_trans (hmax _ hh vs hd) hle)
      have hq : e.dst ∈ s.queue := by
        have := (h.dom e.dst).mp (by rw [hd]; rfl)
        exact this.resolve_left hns
      have hnu : ∀ w ∈ seen s, w ≠ e.dst := fun w hw hh => hns (hh ▸ hw)
      have hmu : upd s.map e.dst { vs with cost := Cost.add us.cost e.cost } u = some us := by
        simp only [upd, if_neg (hnu u hu)]; exact hus
      rw [if_pos hlt]
      simp only [hmu]
      refine ⟨_, rfl, ?_, rfl, rfl, ?_⟩
      · have hmap : ∀ (n : VertexState K) w,
            upd (upd s.map e.dst { vs with cost := Cost.add us.cost e.cost }) e.dst n w =
              if w = e.dst then some n else s.map w := by
          intro n w; simp only [upd]; split <;> simp
        have hst : e.dst ≠ start := by
          intro hh
          rcases h.start with h1 | ⟨-, h1⟩
          · exact hns (hh ▸ h1)
          · rw [mem_seen] at hu; simp [h1] at hu
        constructor
        case nodup => exact h.nodup
        case dom =>
          intro v
          simp only [hmap]
          split
          · rename_i hv; simp [hv]; exact Or.inr hq
          · exact h.dom v
        case vis =>
          intro i hi
          obtain ⟨st, h1, h2⟩ := h.vis i hi
          refine ⟨st, ?_, h2⟩
          simp only [hmap]
          rw [if_neg (hnu _ (mem_seen.mpr ⟨i, hi, rfl⟩))]
          exact h1
        case front =>
          intro w hw' v hv sw sv hsw hsv
          simp only [hmap] at hsw hsv
          rw [if_neg (hnu w hw')] at hsw
          split at hsv
          · simp only [Option.some.injEq] at hsv
            subst hsv
            exact Cost.le_trans (hmax w hw' sw hsw) hle
          · exact h.front w hw' v hv sw sv hsw hsv
        case edge =>
          intro w hw' sw hsw hpw e' he'
          simp only [hmap] at hsw
          rw [if_neg (hnu w hw')] at hsw
          have hold : e' ∈ E w → ∃ sv, (if e'.dst = e.dst then some (⟨u, Cost.add us.cost e.cost,
              us.length + 1, us.numLaneChanges + (if e.rel ≠ Rel.successor then 1 else 0),
              vs.predicate, vs.isLeaf⟩ : VertexState K) else s.map e'.dst) = some sv ∧
              Cost.le sv.cost (Cost.add sw.cost e'.cost) := by
            intro hE
            obtain ⟨sv, h1, h2⟩ := h.edge w hw' sw hsw hpw e' hE
            by_cases hne : e'.dst = e.dst
            · rw [hne, hd] at h1
              have := Option.some.inj h1
              subst this
              exact ⟨_, if_pos hne, Cost.le_trans (Cost.lt_le hlt) h2⟩
            · exact ⟨sv, by rw [if_neg hne]; exact h1, h2⟩
          simp only [hmap]
          by_cases hwu : w = u
          · subst hwu
            simp only [addE, if_true, List.mem_append, List.mem_singleton] at he'
            have hss : sw = us := by rw [hus] at hsw; exact (Option.some.inj hsw).symm
            rcases he' with he' | he'
            · exact hold he'
            · subst he'
              exact ⟨_, if_pos rfl, by rw [hss]; exact Cost.le_refl _⟩
          · simp only [addE, if_neg hwu] at he'
            exact hold he'
        case tree =>
          intro v sv hsv
          simp only [hmap] at hsv
          split at hsv
          · rename_i hv
            simp only [Option.some.injEq] at hsv
            subst hsv
            right
            refine ⟨by rw [hv]; exact hst, ?_, hu, us, e, ?_, hp, he, hv.symm, rfl, rfl, rfl⟩
            · simp only; rw [hv]; exact hnu u hu
            · simp only [hmap]; rw [if_neg (hnu u hu)]; exact hus
          · rcases h.tree v sv hsv with h1 | ⟨h1, h2, h3, su, e', h4, h5⟩
            · exact Or.inl h1
            · right
              exact ⟨h1, h2, h3, su, e', by simp only [hmap]; rw [if_neg (hnu _ h3)]; exact h4, h5⟩
        case sorted => exact h.sorted
        case predBefore => exact h.predBefore
        case leaf =>
          intro v sv hsv
          simp only [hmap] at hsv
          split at hsv
          · rename_i hv
            simp only [Option.some.injEq] at hsv
            subst hsv
            rw [hv]
            exact h.leaf e.dst vs hd
          · exact h.leaf v sv hsv
        case start =>
          rcases h.start with h1 | ⟨h1, h2⟩
          · exact Or.inl h1
          · rw [mem_seen] at hu; simp [h2] at hu
      · intro w hw'
        simp only [upd]
        rw [if_neg (hnu w hw')]
        rw [if_neg (hnu w hw')]
    · rw [if_neg hlt]
      refine ⟨s, rfl, ?_, rfl, rfl, fun _ _ => rfl⟩
      have hle2 : Cost.le vs.cost (Cost.add us.cost e.cost) := by
        simpa [Cost.lt] using hlt
      refine { h with edge := ?_ }
      intro w hw' sw hsw hpw e' he'
      by_cases hwu : w = u
      · subst hwu
        simp only [addE, if_true, List.mem_append, List.mem_singleton] at he'
        have hss : sw = us := by rw [hus] at hsw; exact (Option.some.inj hsw).symm
        subst hss
        rcases he' with he' | he'
        · exact h.edge w hw' sw hsw hpw e' he'
        · subst he'; exact ⟨vs, hd, hle2⟩
      · simp only [addE, if_neg hwu] at he'
        exact h.edge w hw' sw hsw hpw e' he'

theorem relaxAll_inv {g : Graph K} {start u : Nat} (es : List (Edge K)) {E : Graph K}
    {s : State σ K} {us : VertexState K} (h : Inv g E start s) (hu : u ∈ seen s)
    (hus : s.map u = some us) (hp : us.predicate = true) (he : ∀ e ∈ es, e ∈ g u)
    (hw : ∀ e ∈ es, Cost.le Cost.zero e.cost)
    (hmax : ∀ w ∈ seen s, ∀ sw, s.map w = some sw → Cost.le sw.cost us.cost) :
    ∃ s', relaxAll u es s = some s' ∧
      Inv g (fun w => if w = u then E u ++ es else E w) start s' ∧ s'.visits = s.visits ∧
      s'.user = s.user ∧ (∀ w ∈ seen s, s'.map w = s.map w) := by
  induction es generalizing s E with
  | nil =>
    refine ⟨s, rfl, ?_, rfl, rfl, fun _ _ => rfl⟩
    have : (fun w => if w = u then E u ++ [] else E w) = E := by
      funext w; split <;> simp [*]
    rw [this]; exact h
  | cons e es ih =>
    obtain ⟨s1, h1, h2, h3, h4, h5⟩ := relaxEdge_inv h hu hus hp (he e (by simp)) (hw e (by simp)) hmax
    have hseen : seen s1 = seen s := by simp [seen, h3]
    obtain ⟨s2, k1, k2, k3, k4, k5⟩ := ih (E := addE E u e) (s := s1) h2 (by rw [hseen]; exact hu)
      (by rw [h5 u hu]; exact hus) (fun e' h' => he e' (by simp [h'])) (fun e' h' => hw e' (by simp [h']))
      (by
        intro w hw' sw hsw
        rw [hseen] at hw'
        rw [h5 w hw'] at hsw
        exact hmax w hw' sw hsw)
    refine ⟨s2, ?_, ?_, by rw [k3, h3], by rw [k4, h4], ?_⟩
    · simp only [relaxAll, h1, Option.bind_eq_bind, Option.bind_some, k1]
    · have : (fun w => if w = u then E u ++ e :: es else E w) =
          (fun w => if w = u then addE E u e u ++ es else addE E u e w) := by
        funext w; simp only [addE, if_true]; split <;> simp [*]
      rw [this]; exact k2
    · intro w hw'
      rw [k5 w (by rw [hseen]; exact hw'), h5 w hw']

/-- the state in which the callback is called for `v` -/
structure Popped (g : Graph K) (start v : Nat) (s : State σ K) : Prop where
  inv : Inv g g start s
  mem : v ∈ s.queue
  min : ∀ u ∈ s.queue, ∀ su sv, s.map u = some su → s.map v = some sv → Cost.le sv.cost su.cost

theorem Popped.start_first {g : Graph K} {start v : Nat} {s : State σ K} (h : Popped g start v s) :
    (v = start ∧ s.visits = [] ∧ s.queue = [start]) ∨ (v ≠ start ∧ start ∈ seen s) := by
  rcases h.inv.start with h1 | ⟨h1, h2⟩
  · right
    refine ⟨?_, h1⟩
    rintro rfl
    have := List.nodup_append.mp h.inv.nodup
    exact this.2.2 _ h1 _ h.mem rfl
  · left
    have := h.mem
    rw [h1] at this
    simp at this
    exact ⟨this, h2, h1⟩

theorem examine_inv {g : Graph K} {start v : Nat} {s : State σ K} {cb : Callback σ K}
    (h : Popped g start v s) :
    ∃ sv s' r, s.map v = some sv ∧
      examine cb { s with queue := s.queue.erase v } v = some (s', r) ∧
      (cb s.user ⟨v, sv.predecessor, sv.cost, sv.length, sv.numLaneChanges⟩).2 = r ∧
      s'.user = (cb s.user ⟨v, sv.predecessor, sv.cost, sv.length, sv.numLaneChanges⟩).1 ∧
      s'.visits = s.visits ++ [(⟨v, sv.predecessor, sv.cost, sv.length, sv.numLaneChanges⟩, r)] ∧
      s'.queue = s.queue.erase v ∧
      (r = none → s'.map = s.map) ∧
      (∀ b, r = some b → Inv g (fun w => if w = v then [] else g w) start s' ∧
        ∃ sv', s'.map v = some sv' ∧ sv'.predicate = b ∧ sv'.cost = sv.cost) := by
  have hi := h.inv
  have hnd := List.nodup_append.mp hi.nodup
  have hvn : v ∉ seen s := fun hh => hnd.2.2 _ hh _ h.mem rfl
  obtain ⟨sv, hsv⟩ := Option.isSome_iff_exists.mp ((hi.dom v).mpr (Or.inr h.mem))
  refine ⟨sv, ?_⟩
  simp only [examine, hsv]
  generalize hinfo : (⟨v, sv.predecessor, sv.cost, sv.length, sv.numLaneChanges⟩ : VisitInfo K) = info
  cases hr : (cb s.user info).2 with
  | none =>
    exact ⟨{ s with queue := s.queue.erase v, user := (cb s.user info).1,
                    visits := s.visits ++ [(info, none)] }, none, trivial, rfl, rfl, rfl, rfl, rfl,
      fun _ => rfl, fun b hb => by cases hb⟩
  | some b =>
    have htree := hi.tree v sv hsv
    -- the entry of the predecessor exists
    have hpex : ∃ ps, upd s.map v { sv with predicate := b } sv.predecessor = some ps := by
      simp only [upd]
      split
      · exact ⟨_, rfl⟩
      · rcases htree with ⟨h1, h2, -⟩ | ⟨-, -, -, su, e, h4, -⟩
        · rename_i hne; rw [h1, h2] at hne; exact absurd rfl hne
        · exact ⟨su, h4⟩
    obtain ⟨ps, hps⟩ := hpex
    simp only [hps]
    refine ⟨{ s with
      map := upd (upd s.map v { sv with predicate := b }) sv.predecessor
        { ps with isLeaf := v == sv.predecessor }
      queue := s.queue.erase v, user := (cb s.user info).1, visits := s.visits ++ [(info, some b)] },
      some b, trivial, rfl, rfl, rfl, rfl, rfl, fun hh => by simp at hh, ?_⟩
    intro b' hb'
    cases hb'
    -- description of the new map
    have hmap : ∀ w, upd (upd s.map v { sv with predicate := b }) sv.predecessor
        { ps with isLeaf := v == sv.predecessor } w =
        (s.map w).map fun x => { x with
          predicate := if w = v then b else x.predicate
          isLeaf := if w = sv.predecessor then v == sv.predecessor else x.isLeaf } := by
      intro w
      simp only [upd] at hps ⊢
      by_cases h1 : w = sv.predecessor
      · subst h1
        simp only [if_true]
        by_cases h2 : sv.predecessor = v
        · rw [if_pos h2] at hps
          have := Option.some.inj hps
          subst this
          rw [h2, hsv]; simp [h2]
        · rw [if_neg h2] at hps
          rw [hps]; simp [h2]
      · by_cases h2 : w = v
        · subst h2
          rw [if_neg h1, if_pos rfl, hsv]
          simp [h1]
        · rw [if_neg h1, if_neg h2]
          cases s.map w <;> simp [h1, h2]
    have hmap' : ∀ w x, s.map w = some x →
        upd (upd s.map v { sv with predicate := b }) sv.predecessor
          { ps with isLeaf := v == sv.predecessor } w = some { x with
          predicate := if w = v then b else x.predicate
          isLeaf := if w = sv.predecessor then v == sv.predecessor else x.isLeaf } := by
      intro w x hx; rw [hmap w, hx]; rfl
    have hmem' : ∀ w, w ∈ s.queue.erase v ↔ w ∈ s.queue ∧ w ≠ v := by
      intro w
      rw [List.Nodup.mem_erase_iff hnd.2.1]
      exact And.comm
    refine ⟨?_, ?_⟩
    · constructor
      case nodup =>
        show ((s.visits ++ [(info, some b)]).map (·.1.vertex) ++ s.queue.erase v).Nodup
        have : ((s.visits ++ [(info, some b)]).map (·.1.vertex)) = seen s ++ [v] := by
          simp [seen, ← hinfo]
        rw [this, List.append_assoc]
        rw [List.nodup_append]
        refine ⟨hnd.1, ?_, ?_⟩
        · simp only [List.singleton_append, List.nodup_cons]
          refine ⟨?_, hnd.2.1.erase _⟩
          rw [hmem']; simp
        · intro a ha b' hb'
          simp only [List.singleton_append, List.mem_cons] at hb'
          rcases hb' with hb' | hb'
          · subst hb'; intro hab; exact hvn (hab ▸ ha)
          · exact hnd.2.2 a ha b' ((hmem' _).mp hb').1
      case dom =>
        intro w
        simp only [hmap, Option.isSome_map, hmem']
        have : w ∈ seen ({ s with
          map := upd (upd s.map v { sv with predicate := b }) sv.predecessor
            { ps with isLeaf := v == sv.predecessor }
          queue := s.queue.erase v, user := (cb s.user info).1,
          visits := s.visits ++ [(info, some b)] } : State σ K) ↔ w ∈ seen s ∨ w = v := by
          simp [seen, ← hinfo]
        rw [this, hi.dom w]
        by_cases hwv : w = v
        · subst hwv; simp [h.mem]
        · simp [hwv]
      case vis =>
        intro i hmem
        simp only [List.mem_append, List.mem_singleton] at hmem
        rcases hmem with hmem | hmem
        · obtain ⟨st, h1, h2, h3, h4, h5, h6⟩ := hi.vis i hmem
          refine ⟨_, hmap' _ _ h1, h2, h3, h4, h5, ?_⟩
          simp only
          rw [if_neg]
          · exact h6
          · intro hh; exact hvn (hh ▸ mem_seen.mpr ⟨i, hmem, rfl⟩)
        · subst hmem
          subst hinfo
          refine ⟨_, hmap' _ _ hsv, rfl, rfl, rfl, rfl, ?_⟩
          simp
      case front =>
        intro u hu w hw su sw hsu hsw
        simp only [hmap, Option.map_eq_some_iff] at hsu hsw
        obtain ⟨su0, hsu0, rfl⟩ := hsu
        obtain ⟨sw0, hsw0, rfl⟩ := hsw
        have hwq := ((hmem' w).mp hw).1
        rw [mem_seen] at hu
        obtain ⟨i, hmem, hiu⟩ := hu
        simp only [List.mem_append, List.mem_singleton] at hmem
        rcases hmem with hmem | hmem
        · exact hi.front u (mem_seen.mpr ⟨i, hmem, hiu⟩) w hwq su0 sw0 hsu0 hsw0
        · subst hmem
          subst hinfo
          simp only at hiu
          subst hiu
          exact h.min w hwq sw0 su0 hsw0 hsu0
      case edge =>
        intro u hu su hsu hpu e he
        simp only [hmap, Option.map_eq_some_iff] at hsu
        obtain ⟨su0, hsu0, rfl⟩ := hsu
        by_cases huv : u = v
        · rw [if_pos huv] at he; simp at he
        · rw [if_neg huv] at he
          simp only [if_neg huv] at hpu
          have hus : u ∈ seen s := by
            rw [mem_seen] at hu ⊢
            obtain ⟨i, hmem, hiu⟩ := hu
            simp only [List.mem_append, List.mem_singleton] at hmem
            rcases hmem with hmem | hmem
            · exact ⟨i, hmem, hiu⟩
            · subst hmem; subst hinfo; exact absurd hiu.symm huv
          obtain ⟨sx, h1, h2⟩ := hi.edge u hus su0 hsu0 hpu e he
          exact ⟨_, hmap' _ _ h1, h2⟩
      case tree =>
        intro w sw hsw
        simp only [hmap, Option.map_eq_some_iff] at hsw
        obtain ⟨sw0, hsw0, rfl⟩ := hsw
        rcases hi.tree w sw0 hsw0 with h1 | ⟨h1, h2, h3, su, e, h4, h5, h6⟩
        · exact Or.inl h1
        · right
          refine ⟨h1, h2, ?_, _, e, hmap' _ _ h4, ?_, h6⟩
          · rw [mem_seen] at h3 ⊢
            obtain ⟨i, hmem, hiu⟩ := h3
            exact ⟨i, by simp [hmem], hiu⟩
          · simp only
            rw [if_neg]
            · exact h5
            · intro hh; exact hvn (hh ▸ h3)
      case sorted =>
        rw [List.pairwise_append]
        refine ⟨hi.sorted, List.pairwise_singleton _ _, ?_⟩
        intro i hmem j hj
        simp only [List.mem_singleton] at hj
        subst hj
        obtain ⟨st, h1, h2, h3, -⟩ := hi.vis i hmem
        have := hi.front i.1.vertex (mem_seen.mpr ⟨i, hmem, rfl⟩) v h.mem st sv h1 hsv
        rw [← h3]; subst hinfo; exact this
      case predBefore =>
        intro pre i post hsplit
        simp only at hsplit
        rcases List.eq_nil_or_concat post with hpost | ⟨post', last, hpost⟩
        · subst hpost
          have := List.append_inj' hsplit rfl
          obtain ⟨rfl, hlast⟩ := this
          simp only [List.cons.injEq, and_true] at hlast
          subst hlast
          subst hinfo
          rcases htree with ⟨h1, h2, -⟩ | ⟨h1, h2, h3, su, e, h4, h5, -⟩
          · left
            rcases h.start_first with ⟨-, k2, -⟩ | ⟨k1, -⟩
            · exact ⟨h1, h2, k2⟩
            · exact absurd h1 k1
          · right
            refine ⟨h1, ?_⟩
            obtain ⟨j, hj, hjv⟩ := mem_seen.mp h3
            refine ⟨j, hj, hjv, ?_⟩
            obtain ⟨st, q1, -, -, -, -, q6⟩ := hi.vis j hj
            rw [hjv, h4] at q1
            have := Option.some.inj q1
            subst this
            rw [q6, h5]
        · subst hpost
          rw [List.concat_eq_append, ← List.cons_append, ← List.append_assoc] at hsplit
          have := List.append_inj' hsplit rfl
          exact hi.predBefore pre i post' this.1
      case leaf =>
        intro w sw hsw
        simp only [hmap, Option.map_eq_some_iff] at hsw
        obtain ⟨sw0, hsw0, rfl⟩ := hsw
        have hold := hi.leaf w sw0 hsw0
        simp only
        by_cases hwp : w = sv.predecessor
        · subst hwp
          rw [if_pos rfl]
          simp only [beq_iff_eq]
          constructor
          · intro hvp i hmem hpi
            simp only [List.mem_append, List.mem_singleton] at hmem
            rcases hmem with hmem | hmem
            · rcases hi.pred_seen hmem with ⟨q1, q2⟩ | ⟨q1, q2⟩
              · rw [q1, ← q2, hpi]
              · rw [hpi, ← hvp] at q2; exact absurd q2 hvn
            · subst hmem; subst hinfo; exact hvp
          · intro hall
            have := hall (info, some b) (by simp) (by subst hinfo; rfl)
            subst hinfo; exact this
        · rw [if_neg hwp, hold]
          constructor
          · intro hall i hmem hpi
            simp only [List.mem_append, List.mem_singleton] at hmem
            rcases hmem with hmem | hmem
            · exact hall i hmem hpi
            · subst hmem; subst hinfo; exact absurd hpi.symm hwp
          · intro hall i hmem hpi
            exact hall i (by simp [hmem]) hpi
      case start =>
        left
        rcases h.start_first with ⟨rfl, -, -⟩ | ⟨-, k⟩
        · rw [mem_seen]; exact ⟨(info, some b), by simp, by subst hinfo; rfl⟩
        · rw [mem_seen] at k ⊢
          obtain ⟨i, hmem, hiu⟩ := k
          exact ⟨i, by simp [hmem], hiu⟩
    · refine ⟨_, hmap' _ _ hsv, ?_, ?_⟩
      · simp
      · rfl

end Verif.Search
