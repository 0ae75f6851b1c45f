import Verif.Route.Props

/-!
Property C30: the construction of a route ends.
-/
set_option linter.unusedSectionVars false
namespace Verif.Route
open Verif.Graph Verif.Graph.RelationType
variable {P K : Type} [DecidableEq P]

/-! ### lists in `Option` -/

theorem mapM_some {α β : Type} {f : α → Option β} : ∀ {l : List α}, (∀ a ∈ l, ∃ b, f a = some b) → ∃ r, l.mapM f = some r := by
  intro l
  induction l with
  | nil => intro _; exact ⟨[], rfl⟩
  | cons a l ih =>
    intro h
    obtain ⟨b, hb⟩ := h a (by simp)
    obtain ⟨r, hr⟩ := ih fun x hx => h x (by simp [hx])
    exact ⟨b :: r, by rw [List.mapM_cons, hb, hr]; rfl⟩

theorem filterAuxM_some {α : Type} {f : α → Option Bool} : ∀ {l acc : List α}, (∀ a ∈ l, ∃ b, f a = some b) →
    ∃ r, l.filterAuxM f acc = some r ∧ ∀ x ∈ r, x ∈ l ∨ x ∈ acc := by
  intro l
  induction l with
  | nil => intro acc _; exact ⟨acc, rfl, fun x hx => .inr hx⟩
  | cons a l ih =>
    intro acc h
    obtain ⟨b, hb⟩ := h a (by simp)
    obtain ⟨r, hr, hs⟩ := ih (acc := cond b (a :: acc) acc) fun x hx => h x (by simp [hx])
    refine ⟨r, ?_, ?_⟩
    · unfold List.filterAuxM
      rw [hb]
      exact hr
    · intro x hx
      rcases hs x hx with h | h
      · exact .inl (by simp [h])
      · cases b with
        | true =>
          rcases List.mem_cons.mp h with rfl | h
          · exact .inl (by simp)
          · exact .inr h
        | false => exact .inr h

theorem filterM_some {α : Type} {f : α → Option Bool} {l : List α} (h : ∀ a ∈ l, ∃ b, f a = some b) :
    ∃ r, l.filterM f = some r ∧ ∀ x ∈ r, x ∈ l := by
  obtain ⟨r, h1, h2⟩ := filterAuxM_some (acc := []) h
  refine ⟨r.reverse, ?_, ?_⟩
  · unfold List.filterM
    rw [h1]
    rfl
  · intro x hx
    rcases h2 x (by simpa using hx) with h | h
    · exact h
    · cases h

/-! ### the loops -/

theorem sideLoop_terminates {next : Nat → Option Nat} {rank : Nat → Nat} (hr : ∀ v w, next v = some w → rank w < rank v) (f : Nat → Bool) :
    ∀ (k : Nat) (cur : Option Nat), (∀ v, cur = some v → rank v < k) → ∃ b, sideLoop next f cur = some b := by
  intro k
  induction k with
  | zero =>
    intro cur h
    cases cur with
    | none => exact ⟨false, by rw [sideLoop]⟩
    | some v => exact absurd (h v rfl) (Nat.not_lt_zero _)
  | succ k ih =>
    intro cur h
    cases cur with
    | none => exact ⟨false, by rw [sideLoop]⟩
    | some v =>
      rw [sideLoop]
      by_cases hf : f v = true
      · exact ⟨true, by rw [if_pos hf]⟩
      · rw [if_neg hf]
        refine ih (next v) ?_
        intro w hw
        have := hr v w hw
        have := h v rfl
        omega

/-- no vertex is reached from itself by going to the left or to the right only -/
def Ranked (E : List (BaseEdge K)) : Prop :=
  (∃ rank : Nat → Nat, ∀ v w, getNext Left E v = some w → rank w < rank v) ∧ ∃ rank : Nat → Nat, ∀ v w, getNext Right E v = some w → rank w < rank v

theorem anySideway_terminates {E : List (BaseEdge K)} (hE : Ranked E) (f : Nat → Bool) (v : Nat) : ∃ b, anySideway E f v = some b := by
  obtain ⟨⟨rl, hl⟩, ⟨rr, hr⟩⟩ := hE
  obtain ⟨b, hb⟩ := sideLoop_terminates hl f (rl v + 1) (some v) (by intro w h; cases h; omega)
  unfold anySideway
  rw [hb]
  cases b with
  | true => exact ⟨true, rfl⟩
  | false =>
    simp only [bind, Option.bind_some, Bool.false_eq_true, if_false]
    cases hn : getNext Right E v with
    | none => exact sideLoop_terminates hr f 0 none (by intro w h; cases h)
    | some u => exact sideLoop_terminates hr f (rr u + 1) (some u) (by intro w h; cases h; omega)

/-- the edges stay in the graph -/
def Within (E : List (BaseEdge K)) (n : Nat) : Prop := ∀ e ∈ E, e.src < n ∧ e.dst < n

theorem length_filter_le {α : Type} {p q : α → Bool} : ∀ {l : List α}, (∀ x ∈ l, p x = true → q x = true) →
    (l.filter p).length ≤ (l.filter q).length := by
  intro l
  induction l with
  | nil => intro _; simp
  | cons a l ih =>
    intro h
    have := ih fun x hx => h x (by simp [hx])
    have ha := h a (by simp)
    simp only [List.filter_cons]
    by_cases h1 : p a = true
    · rw [if_pos h1, if_pos (ha h1)]; simpa using this
    · rw [if_neg h1]
      split
      · simp; omega
      · exact this

theorem length_filter_lt {α : Type} {p q : α → Bool} : ∀ {l : List α}, (∀ x ∈ l, p x = true → q x = true) →
    (∃ x ∈ l, q x = true ∧ p x ≠ true) → (l.filter p).length < (l.filter q).length := by
  intro l
  induction l with
  | nil => rintro _ ⟨x, hx, -⟩; cases hx
  | cons a l ih =>
    rintro h ⟨x, hx, h1, h2⟩
    have hle := length_filter_le (l := l) fun x hx => h x (by simp [hx])
    have ha := h a (by simp)
    simp only [List.filter_cons]
    rcases List.mem_cons.mp hx with rfl | hx
    · rw [if_neg h2, if_pos h1]; simp; omega
    · have := ih (fun x hx => h x (by simp [hx])) ⟨x, hx, h1, h2⟩
      by_cases h3 : p a = true
      · rw [if_pos h3, if_pos (ha h3)]; simpa using this
      · rw [if_neg h3]
        split
        · simp; omega
        · exact this

theorem remove_dom (ins : Nat → List (BaseEdge K)) (vis : Visited) (v u : Nat) :
    (vis.remove ins v u).isSome = ((vis u).isSome && decide (u ≠ v)) := by
  unfold Visited.remove
  have h0 : ((Function.update vis v none : Visited) u).isSome = ((vis u).isSome && decide (u ≠ v)) := by
    by_cases h : u = v
    · subst h; simp
    · simp [Function.update_of_ne h, h]
  rw [← h0]
  generalize (Function.update vis v none : Visited) = w
  induction ins v generalizing w with
  | nil => rfl
  | cons e es ih =>
    rw [List.foldl_cons, ih]
    split
    · rfl
    · cases hc : w e.src with
      | none => rfl
      | some c =>
        simp only
        split
        · by_cases h : u = e.src
          · subst h; simp [hc]
          · rw [Function.update_of_ne h]
        · split
          · by_cases h : u = e.src
            · subst h; simp [hc]
            · rw [Function.update_of_ne h]
          · rfl

/-- how many vertices are in the map -/
def Visited.count (vis : Visited) (n : Nat) : Nat := ((List.range n).filter fun v => (vis v).isSome).length

theorem prunePass_count (ins : Nat → List (BaseEdge K)) (n llt : Nat) (vis : Visited) :
    (vis.prunePass ins n llt).2.count n ≤ vis.count n ∧ ((vis.prunePass ins n llt).1 = true → (vis.prunePass ins n llt).2.count n < vis.count n) := by
  have key : ∀ (l : List Nat) (s : Bool × Visited), (∀ v ∈ l, v < n) →
      let r := l.foldl (fun (s : Bool × Visited) v =>
        match s.2 v with
        | none => s
        | some c => if v = llt ∨ c.isLeaf = false then s else (true, s.2.remove ins v)) s
      (∀ u, (r.2 u).isSome = true → (s.2 u).isSome = true) ∧ (r.1 = true → s.1 = true ∨ ∃ u < n, (s.2 u).isSome = true ∧ (r.2 u).isSome ≠ true) := by
    intro l
    induction l with
    | nil => intro s _; exact ⟨fun u h => h, fun h => .inl h⟩
    | cons a l ih =>
      intro s hl
      simp only [List.foldl_cons]
      have hl' : ∀ v ∈ l, v < n := fun v hv => hl v (by simp [hv])
      split
      · exact ih s hl'
      · rename_i c hc
        split
        · exact ih s hl'
        · obtain ⟨h1, h2⟩ := ih (true, s.2.remove ins a) hl'
          refine ⟨?_, ?_⟩
          · intro u hu
            have := h1 u hu
            rw [remove_dom] at this
            simp only [Bool.and_eq_true] at this
            exact this.1
          · intro _
            refine .inr ⟨a, hl a (by simp), by simp [hc], ?_⟩
            intro hu
            have := h1 a hu
            rw [remove_dom] at this
            simp at this
  obtain ⟨h1, h2⟩ := key (List.range n) (false, vis) fun v hv => List.mem_range.mp hv
  unfold Visited.count
  refine ⟨length_filter_le fun x _ hx => h1 x hx, ?_⟩
  intro h
  rcases h2 h with h | ⟨u, hu, h3, h4⟩
  · cases h
  · exact length_filter_lt (fun x _ hx => h1 x hx) ⟨u, List.mem_range.mpr hu, h3, h4⟩

theorem prune_terminates (ins : Nat → List (BaseEdge K)) (n llt : Nat) : ∀ (k : Nat) (vis : Visited), vis.count n ≤ k →
    ∃ r, vis.prune ins n llt = some r := by
  intro k
  induction k with
  | zero =>
    intro vis h
    rw [Visited.prune]
    by_cases hp : (vis.prunePass ins n llt).1 = true
    · have := (prunePass_count ins n llt vis).2 hp; omega
    · simp only [if_neg hp]; exact ⟨_, rfl⟩
  | succ k ih =>
    intro vis h
    rw [Visited.prune]
    by_cases hp : (vis.prunePass ins n llt).1 = true
    · simp only [if_pos hp]
      have := (prunePass_count ins n llt vis).2 hp
      exact ih _ (by omega)
    · simp only [if_neg hp]; exact ⟨_, rfl⟩

theorem dfsLoop_terminates {out : Nat → Option (List Nat)} {n : Nat} (ho : ∀ w < n, ∃ o, out w = some o ∧ ∀ x ∈ o, x < n) :
    ∀ (k m : Nat) (stack : List (Nat × List Nat)) (seen : List Nat) (fwd : Bool), n - seen.length ≤ k →
      (stack.map fun s => s.2.length + 1).sum ≤ m → seen.Nodup → (∀ x ∈ seen, x < n) → (∀ s ∈ stack, ∀ x ∈ s.2, x < n) →
      ∃ l, dfsLoop out stack seen fwd = some l := by
  intro k
  induction k with
  | zero =>
    intro m
    induction m with
    | zero =>
      intro stack seen fwd _ hm _ _ _
      cases stack with
      | nil => exact ⟨[], by rw [dfsLoop]⟩
      | cons s st => simp at hm
    | succ m ih =>
      intro stack seen fwd hk hm hn hb hs
      cases stack with
      | nil => exact ⟨[], by rw [dfsLoop]⟩
      | cons s st =>
        obtain ⟨v, ws⟩ := s
        simp only [List.map_cons, List.sum_cons] at hm
        cases ws with
        | nil =>
          obtain ⟨l, hl⟩ := ih st seen false hk (by simp at hm; omega) hn hb fun s h => hs s (by simp [h])
          rw [dfsLoop, hl]
          exact ⟨_, rfl⟩
        | cons w ws =>
          rw [dfsLoop]
          by_cases hw : w ∈ seen
          · rw [if_pos hw]
            refine ih _ seen fwd hk (by simp at hm ⊢; omega) hn hb ?_
            intro s h
            rcases List.mem_cons.mp h with rfl | h
            · exact fun x hx => hs (v, w :: ws) (by simp) x (by simp [hx])
            · exact hs s (by simp [h])
          · exfalso
            have h1 : (w :: seen).Nodup := List.nodup_cons.mpr ⟨hw, hn⟩
            have h2 : ∀ x ∈ w :: seen, x ∈ List.range n := by
              intro x hx
              rcases List.mem_cons.mp hx with rfl | hx
              · exact List.mem_range.mpr (hs (v, x :: ws) (by simp) x (by simp))
              · exact List.mem_range.mpr (hb x hx)
            have := (List.subperm_of_subset h1 h2).length_le
            simp at this
            omega
  | succ k ihk =>
    intro m
    induction m with
    | zero =>
      intro stack seen fwd _ hm _ _ _
      cases stack with
      | nil => exact ⟨[], by rw [dfsLoop]⟩
      | cons s st => simp at hm
    | succ m ih =>
      intro stack seen fwd hk hm hn hb hs
      cases stack with
      | nil => exact ⟨[], by rw [dfsLoop]⟩
      | cons s st =>
        obtain ⟨v, ws⟩ := s
        simp only [List.map_cons, List.sum_cons] at hm
        cases ws with
        | nil =>
          obtain ⟨l, hl⟩ := ih st seen false hk (by simp at hm; omega) hn hb fun s h => hs s (by simp [h])
          rw [dfsLoop, hl]
          exact ⟨_, rfl⟩
        | cons w ws =>
          have hrest : ∀ s ∈ (v, ws) :: st, ∀ x ∈ s.2, x < n := by
            intro s h
            rcases List.mem_cons.mp h with rfl | h
            · exact fun x hx => hs (v, w :: ws) (by simp) x (by simp [hx])
            · exact hs s (by simp [h])
          rw [dfsLoop]
          by_cases hw : w ∈ seen
          · rw [if_pos hw]
            exact ih _ seen fwd hk (by simp at hm ⊢; omega) hn hb hrest
          · rw [if_neg hw]
            have hwn : w < n := hs (v, w :: ws) (by simp) w (by simp)
            obtain ⟨o, h1, h2⟩ := ho w hwn
            rw [h1]
            refine ihk _ ((w, o) :: (v, ws) :: st) (w :: seen) true (by simp; omega) (Nat.le_refl _) (List.nodup_cons.mpr ⟨hw, hn⟩) ?_ ?_
            · intro x hx
              rcases List.mem_cons.mp hx with rfl | hx
              · exact hwn
              · exact hb x hx
            · intro s h
              rcases List.mem_cons.mp h with rfl | h
              · exact h2
              · exact hrest s h

theorem paths_terminates {out : Nat → Option (List Nat)} {n : Nat} (ho : ∀ w < n, ∃ o, out w = some o ∧ ∀ x ∈ o, x < n) {v : Nat} (hv : v < n) :
    ∃ l, paths out v = some l := by
  obtain ⟨o, h1, h2⟩ := ho v hv
  unfold paths
  rw [h1]
  exact dfsLoop_terminates ho _ _ [(v, o)] [v] true (Nat.le_refl _) (Nat.le_refl _) (by simp) (by simpa using hv)
    (by intro s h; simp only [List.mem_singleton] at h; subst h; exact h2)

theorem out_within {E : List (BaseEdge K)} {n : Nat} (hw : Within E n) {v : Nat} {e : BaseEdge K} (h : e ∈ outE E v) : e.dst < n :=
  (hw e (List.mem_of_mem_filter h)).2

theorem alwaysConflicts_terminates {E : List (BaseEdge K)} {n : Nat} (hE : Ranked E) (hw : Within E n) (R path : List Nat) :
    ∃ b, alwaysConflicts E R path = some b := by
  unfold alwaysConflicts
  split
  · split
    · rename_i f t hf ht
      have hfe : f ∈ E := List.mem_of_mem_filter (List.mem_of_mem_filter (List.mem_of_find?_eq_some hf))
      obtain ⟨l, hl⟩ := paths_terminates (out := conflictsWithPath E R path f.src t.dst) (n := n) (by
        intro w _
        unfold conflictsWithPath
        obtain ⟨r, h1, h2⟩ := filterM_some (f := onRouteAndConflict E R path f.src t.dst)
          (l := ((outE E w).filter noConflicting).map (·.dst)) fun a _ => anySideway_terminates hE _ a
        refine ⟨r, h1, ?_⟩
        intro x hx
        obtain ⟨e, he, rfl⟩ := List.mem_map.mp (h2 x hx)
        exact out_within hw (List.mem_of_mem_filter he)) (hw f hfe).1
      unfold hasPathFromTo
      rw [hl]
      exact ⟨_, rfl⟩
    · exact ⟨false, rfl⟩
  · exact ⟨false, rfl⟩

theorem permitted_terminates {E : List (BaseEdge K)} {n : Nat} (hE : Ranked E) (hw : Within E n) (R path : List Nat) :
    ∃ b, permitted E R path = some b := by
  unfold permitted
  split
  · exact ⟨_, rfl⟩
  · obtain ⟨b, hb⟩ := alwaysConflicts_terminates hE hw R path
    rw [hb]
    cases b <;> exact ⟨_, rfl⟩

theorem outOfRoute_terminates {E : List (BaseEdge K)} {n : Nat} (hE : Ranked E) (hw : Within E n) (R : List Nat) {new : List Nat}
    (hnew : ∀ v ∈ new, v < n) : ∃ b, outOfRoute E R new = some b := by
  unfold outOfRoute
  obtain ⟨marked, hm⟩ := mapM_some (f := fun v => do
      let ps ← paths (fun u => some (conflictOrAdjacent E R u)) v
      return (← ps.mapM (permitted E R)).flatten)
    (l := (new.filter (conflictingSection E R)).filter fun v => (inE E v).any fun e => drivable e && decide (e.src ∈ R)) (by
      intro v hv
      have hvn := hnew v (List.mem_of_mem_filter (List.mem_of_mem_filter hv))
      obtain ⟨ps, hps⟩ := paths_terminates (out := fun u => some (conflictOrAdjacent E R u)) (n := n) (by
        intro w _
        refine ⟨_, rfl, ?_⟩
        intro x hx
        obtain ⟨e, he, rfl⟩ := List.mem_map.mp (List.mem_of_mem_filter hx)
        exact out_within hw (List.mem_of_mem_filter he)) hvn
      obtain ⟨r, hr⟩ := mapM_some (f := permitted E R) (l := ps) fun p _ => permitted_terminates hE hw R p
      exact ⟨r.flatten, by simp only [hps, hr, bind, Option.bind_some, pure]⟩)
  simp only at hm ⊢
  rw [hm]
  simp only [bind, Option.bind_some]
  split <;> exact ⟨_, rfl⟩

theorem addAdjacent_terminates {E : List (BaseEdge K)} {n : Nat} (hE : Ranked E) (hw : Within E n) {start : Nat} (hs : start < n) (finish : Nat)
    (within R : List Nat) : ∃ b, addAdjacent E n start finish within R = some b := by
  unfold addAdjacent
  obtain ⟨order, ho⟩ := bfs_terminates (n := n)
    (out := fun v => ((outE E v).filter fun e => drivableWithin within e && nextToRoute E R e.dst).map (·.dst)) (by
      intro u _ t ht
      obtain ⟨e, he, rfl⟩ := List.mem_map.mp ht
      exact out_within hw (List.mem_of_mem_filter he)) hs
  simp only [ho, bind, Option.bind_some]
  obtain ⟨vis, hv⟩ := prune_terminates (fun v => (inE E v).filter fun e => drivableWithin within e && nextToRoute E R e.src) n finish _
    (order.foldl (Visited.visit R fun v => (outE E v).filter fun e => drivableWithin within e && nextToRoute E R e.dst) fun _ => none) (Nat.le_refl _)
  rw [hv]
  simp only [Option.bind_some]
  obtain ⟨o, ho⟩ := outOfRoute_terminates hE hw R (new := vis.valid n) fun v hv => visited_valid hv
  rw [ho]
  cases o <;> exact ⟨_, rfl⟩

theorem addAdjacent_new {E : List (BaseEdge K)} {n start finish : Nat} {within R R' : List Nat} {b : Bool}
    (h : addAdjacent E n start finish within R = some (.ok (b, R'))) (hn : R.Nodup) :
    R'.Nodup ∧ (b = true → R.length < R'.length) := by
  unfold addAdjacent at h
  simp only [bind, Option.bind_eq_some_iff] at h
  obtain ⟨order, -, vis, -, o, -, h⟩ := h
  cases o with
  | error f => cases h
  | ok rem =>
    have h := Except.ok.inj (Option.some.inj h)
    have h1 := (congrArg Prod.snd h).symm
    have h2 := (congrArg Prod.fst h).symm
    simp only at h1 h2
    subst h1 h2
    constructor
    · rw [List.nodup_append]
      refine ⟨hn, ?_, ?_⟩
      · unfold Visited.valid
        exact (List.nodup_range.filter _).filter _
      · intro a ha b hb
        rintro rfl
        have := (List.mem_filter.mp hb).2
        simp only [decide_eq_true_eq] at this
        exact this ha
    · intro hne
      rw [List.length_append]
      have key : ∀ l : List Nat, (!l.isEmpty) = true → R.length < R.length + l.length := by
        intro l hl
        cases l with
        | nil => cases hl
        | cons a l => simp
      exact key _ hne

theorem extend_terminates {E : List (BaseEdge K)} {n : Nat} (hE : Ranked E) (hw : Within E n) {start : Nat} (hs : start < n) (finish : Nat)
    (within : List Nat) : ∀ (k : Nat) (R : List Nat), n - R.length ≤ k → R.Nodup → (∀ x ∈ R, x < n) → ∃ b, extend E n start finish within R = some b := by
  intro k
  induction k with
  | zero =>
    intro R hk hn hb
    obtain ⟨o, ho⟩ := addAdjacent_terminates hE hw hs finish within R
    rw [extend, ho]
    cases o with
    | error f => exact ⟨_, rfl⟩
    | ok s =>
      obtain ⟨b, R'⟩ := s
      obtain ⟨h1, h2⟩ := addAdjacent_new ho hn
      obtain ⟨new, h3, h4⟩ := addAdjacent_grows ho
      cases b with
      | false => exact ⟨_, rfl⟩
      | true =>
        exfalso
        have h5 : ∀ x ∈ R', x ∈ List.range n := by
          intro x hx
          rw [h3] at hx
          rcases List.mem_append.mp hx with hx | hx
          · exact List.mem_range.mpr (hb x hx)
          · exact List.mem_range.mpr (h4 x hx)
        have := (List.subperm_of_subset h1 h5).length_le
        have := h2 rfl
        simp at *
        omega
  | succ k ih =>
    intro R hk hn hb
    obtain ⟨o, ho⟩ := addAdjacent_terminates hE hw hs finish within R
    rw [extend, ho]
    cases o with
    | error f => exact ⟨_, rfl⟩
    | ok s =>
      obtain ⟨b, R'⟩ := s
      obtain ⟨h1, h2⟩ := addAdjacent_new ho hn
      obtain ⟨new, h3, h4⟩ := addAdjacent_grows ho
      cases b with
      | false => exact ⟨_, rfl⟩
      | true =>
        have := h2 rfl
        refine ih R' (by omega) h1 ?_
        intro x hx
        rw [h3] at hx
        rcases List.mem_append.mp hx with hx | hx
        · exact hb x hx
        · exact h4 x hx

section
variable {t : CostTests K} {g : RGraph P K}

/-- no element is reached from itself by changing lanes in one direction only -/
def NoSideCircle (g : RGraph P K) (costId : Nat) : Prop :=
  ∀ rel ∈ [Left, Right], ∃ rank : P → Nat, ∀ p q c, HasEdge g p q costId rel c → rank q < rank p

theorem side_table : ∀ rel ∈ [Left, Right], ∀ r ∈ edgeRelations, r &&& rel ≠ 0 → r = rel := by decide

theorem ranked_original (wf : WF t g) {costId : Nat} (hc : NoSideCircle g costId) (lc : Bool) : Ranked (original g lc costId) := by
  have key : ∀ rel ∈ [Left, Right], ∃ rank : Nat → Nat, ∀ v w, getNext rel (original g lc costId) v = some w → rank w < rank v := by
    intro rel hrel
    obtain ⟨rank, hr⟩ := hc rel hrel
    refine ⟨fun v => match g.vertices[v]? with | some p => rank p | none => 0, ?_⟩
    intro v w h
    obtain ⟨e, he, rfl⟩ := Option.map_eq_some_iff.mp h
    have h1 := List.find?_some he
    have h2 := List.mem_of_find?_eq_some he
    simp only [outE, List.mem_filter, beq_iff_eq] at h2
    obtain ⟨h2, rfl⟩ := h2
    obtain ⟨m1, m2, -⟩ := (mem_original wf).mp h2
    have h3 : e.info.relation = rel := side_table rel hrel _ (wf.rel e m1) (by simpa [hasRel] using h1)
    have s1 := List.getElem?_eq_getElem (wf.src e m1)
    have s2 := List.getElem?_eq_getElem (wf.dst e m1)
    simp only [s1, s2]
    exact hr _ _ _ ⟨e, m1, s1, s2, m2, h3, rfl⟩
  exact ⟨key Left (by simp), key Right (by simp)⟩

theorem within_original (wf : WF t g) (lc : Bool) (costId : Nat) : Within (original g lc costId) g.vertices.length :=
  fun e he => ⟨wf.src e (original_sub he), wf.dst e (original_sub he)⟩

/-- without lane changes there are no relations to the sides -/
theorem ranked_noChanges (wf : WF t g) {costId : Nat} : Ranked (original g false costId) := by
  have key : ∀ rel ∈ [Left, Right], ∀ v w, getNext rel (original g false costId) v = some w → False := by
    intro rel hrel v w h
    obtain ⟨e, he, rfl⟩ := Option.map_eq_some_iff.mp h
    have h1 := List.find?_some he
    have h2 := List.mem_of_find?_eq_some he
    simp only [outE, List.mem_filter, beq_iff_eq] at h2
    obtain ⟨h2, rfl⟩ := h2
    obtain ⟨m1, m2, m3⟩ := (mem_original wf).mp h2
    have h3 : e.info.relation = rel := side_table rel hrel _ (wf.rel e m1) (by simpa [hasRel] using h1)
    rw [h3] at m3
    have key : ∀ rel ∈ [Left, Right], rel ∉ routeRelations false := by decide
    exact key rel hrel m3
  exact ⟨⟨fun _ => 0, fun v w h => (key Left (by simp) v w h).elim⟩, ⟨fun _ => 0, fun v w h => (key Right (by simp) v w h).elim⟩⟩

/-- C30: the construction of a route ends, if there is no circle of lane changes to the left only or to the right only. Without lane changes it
always ends. -/
theorem route_terminates (hb : Built t g) {costId : Nat} (path : List P) (lc : Bool) (hc : lc = true → NoSideCircle g costId) :
    ∃ x, buildRoute t g path lc costId = some x := by
  have wf := built_wf hb
  unfold buildRoute
  cases hv : path.mapM g.getVertex with
  | none => exact ⟨_, rfl⟩
  | some vs =>
    simp only
    have hm := mapM_getVertex hv
    have hlt : ∀ v ∈ vs, v < g.vertices.length := by
      intro v hv
      have : g.vertices[v]? ∈ path.map some := by rw [← hm]; exact List.mem_map_of_mem hv
      obtain ⟨p, -, hp⟩ := List.mem_map.mp this
      exact (List.getElem?_eq_some_iff.mp hp.symm).1
    have hE : Ranked (original g lc costId) := by
      cases lc with
      | false => exact ranked_noChanges wf
      | true => exact ranked_original wf (hc rfl) true
    have hw := within_original wf lc costId
    cases hh : vs.head? with
    | none => exact ⟨_, rfl⟩
    | some start =>
      cases hl : vs.getLast? with
      | none => exact ⟨_, rfl⟩
      | some finish =>
        simp only
        have hs := hlt start (List.mem_of_head? hh)
        have hf := hlt finish (List.mem_of_getLast? hl)
        have hwithin : ∃ within, lastLanelets (original g lc costId) vs = some within := by
          unfold lastLanelets
          rw [hh, hl]
          simp only
          split
          · exact ⟨_, rfl⟩
          · refine bfs_terminates (n := g.vertices.length) ?_ hf
            intro u _ t ht
            obtain ⟨e, he, rfl⟩ := List.mem_map.mp ht
            exact out_within hw (List.mem_of_mem_filter he)
        obtain ⟨within, hwi⟩ := hwithin
        obtain ⟨o, ho⟩ := extend_terminates hE hw hs finish within _ vs.dedup (Nat.le_refl _) (List.nodup_dedup vs)
          (fun x hx => hlt x (List.mem_dedup.mp hx))
        simp only [hwi, ho, bind, Option.bind_some]
        cases o with
        | error f => exact ⟨_, rfl⟩
        | ok R =>
          simp only
          unfold finalize
          obtain ⟨order, hord⟩ := bfs_terminates (n := g.vertices.length) (out := fun v => (routeOut (original g lc costId) R v).map (·.dst)) (by
            intro u _ t ht
            obtain ⟨e, he, rfl⟩ := List.mem_map.mp ht
            exact out_within hw (List.mem_of_mem_filter he)) hs
          rw [hord]
          exact ⟨_, rfl⟩

/-- Case: the roads of `exRoad` have no circle of lane changes. -/
example : ∃ x, buildRoute natTests exRoad [10, 20, 30] true 0 = some x := by
  refine route_terminates exRoad_built _ _ fun _ => ?_
  intro rel hrel
  refine ⟨fun p => 30 - p, ?_⟩
  rintro p q c ⟨e, he, h1, h2, -, h3, -⟩
  simp only [exRoad, List.mem_cons, List.not_mem_nil, or_false] at he
  rcases he with rfl | rfl | rfl
  · subst h3; exact absurd hrel (by decide)
  · subst h3; exact absurd hrel (by decide)
  · simp only [exRoad, List.getElem?_cons_zero, Option.some.injEq, List.getElem?_cons_succ] at h1 h2
    subst h1 h2
    decide

end
end Verif.Route
