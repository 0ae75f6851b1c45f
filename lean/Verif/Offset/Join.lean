import Verif.Offset.Extract

/-!
The loops of joinSubStrings.
-/
namespace Verif.Geo.Offset

/-- what is assumed about boost: intersections are points of both segments, the query finds the segments that have a point in common with
the segment, and the nearest segment is nearest -/
structure Env.Ok (env : Env) : Prop where
  common : ∀ s t x, x ∈ env.intersection s t → OnSegment s.1 s.2 x ∧ OnSegment t.1 t.2 x
  found : ∀ s t x, OnSegment s.1 s.2 x → OnSegment t.1 t.2 x → env.intersection s t ≠ []
  query : ∀ tree s o, o ∈ env.query tree s ↔ o ∈ tree ∧ ∃ x, OnSegment s.1 s.2 x ∧ OnSegment o.1.1 o.1.2 x
  near : ∀ l p, l ≠ [] → env.nearest l p ∈ l ∧
    ∀ s ∈ l, dist (projectPoint (env.nearest l p).1 (env.nearest l p).2 p) p ≤ dist (projectPoint s.1 s.2 p) p

/-- the point is on one of the lines -/
def OnSub (subs : List (List P2)) (x : P2) : Prop :=
  ∃ s ∈ subs, ∃ (k : Nat) (q q' : P2), s[k]? = some q ∧ s[k + 1]? = some q' ∧ OnSegment q q' x

/-- number of segments before the `i`-th line -/
def base (subs : List (List P2)) (i : Nat) : Nat := ((subs.take i).map fun s => (pairs s).length).sum

theorem base_zero (subs : List (List P2)) : base subs 0 = 0 := rfl

theorem base_cons (s : List P2) (subs : List (List P2)) (i : Nat) : base (s :: subs) (i + 1) = (pairs s).length + base subs i := by
  unfold base; simp

theorem pairs_length {α : Type} (l : List α) : (pairs l).length = l.length - 1 := by unfold pairs; simp

theorem pairs_getElem {α : Type} {l : List α} {k : Nat} {a b : α} : (pairs l)[k]? = some (a, b) ↔ l[k]? = some a ∧ l[k + 1]? = some b := by
  unfold pairs
  rw [List.getElem?_zip_eq_some, List.getElem?_tail]

theorem base_succ {subs : List (List P2)} {i : Nat} {s : List P2} (h : subs[i]? = some s) : base subs (i + 1) = base subs i + (pairs s).length := by
  unfold base
  rw [List.take_add_one, h]
  simp

theorem base_le_total (subs : List (List P2)) (i : Nat) : base subs i ≤ base subs subs.length := by
  have h : subs = subs.take i ++ subs.drop i := (List.take_append_drop i subs).symm
  have e : base subs subs.length = base subs i + ((subs.drop i).map fun s => (pairs s).length).sum := by
    unfold base
    rw [List.take_length]
    conv => lhs; rw [h]
    rw [List.map_append, List.sum_append]
  omega

theorem map_length (i k : Nat) (subs : List (List P2)) : (treeFrom i k subs).2.length = base subs subs.length := by
  induction subs generalizing i k with
  | nil => rfl
  | cons s r ih =>
    simp only [treeFrom, List.length_append, List.length_map, List.length_range, List.length_cons]
    rw [ih, base_cons]

theorem map_get (i k : Nat) (subs : List (List P2)) (n : Nat) (p : Nat × Nat) : (treeFrom i k subs).2[n]? = some p ↔
    ∃ i' s, p.1 = i + i' ∧ subs[i']? = some s ∧ p.2 < (pairs s).length ∧ n = base subs i' + p.2 := by
  induction subs generalizing i k n with
  | nil => simp [treeFrom]
  | cons s r ih =>
    simp only [treeFrom]
    rcases Nat.lt_or_ge n (pairs s).length with hn | hn
    · rw [List.getElem?_append_left (by simpa using hn), List.getElem?_map, List.getElem?_range hn]
      constructor
      · intro h
        obtain rfl := Option.some.inj h
        exact ⟨0, s, rfl, rfl, hn, by simp [base]⟩
      · rintro ⟨i', s', h1, h2, h3, h4⟩
        cases i' with
        | zero =>
          obtain rfl := Option.some.inj h2
          rw [base_zero, Nat.zero_add] at h4
          rw [h4]
          simp only [Option.map_some]
          rw [Option.some.injEq]
          exact Prod.ext (by rw [h1]; rfl) rfl
        | succ i' => rw [base_cons] at h4; omega
    · rw [List.getElem?_append_right (by simpa using hn)]
      simp only [List.length_map, List.length_range]
      rw [ih]
      constructor
      · rintro ⟨i', s', h1, h2, h3, h4⟩
        exact ⟨i' + 1, s', by omega, h2, h3, by rw [base_cons]; omega⟩
      · rintro ⟨i', s', h1, h2, h3, h4⟩
        cases i' with
        | zero =>
          obtain rfl := Option.some.inj h2
          rw [base_zero] at h4
          omega
        | succ i' =>
          rw [base_cons] at h4
          exact ⟨i', s', by omega, h2, h3, by omega⟩

theorem tree_mem (i k : Nat) (subs : List (List P2)) (o : Seg × Nat) : o ∈ (treeFrom i k subs).1 ↔
    ∃ (i' j : Nat) (s : List P2), subs[i']? = some s ∧ (pairs s)[j]? = some o.1 ∧ o.2 = k + base subs i' + j := by
  induction subs generalizing i k with
  | nil => simp [treeFrom]
  | cons s r ih =>
    simp only [treeFrom, List.mem_append]
    rw [ih]
    constructor
    · rintro (h | ⟨i', j, s', h1, h2, h3⟩)
      · obtain ⟨h1, h2⟩ := List.mem_zipIdx_iff_le_and_getElem?_sub.mp h
        exact ⟨0, o.2 - k, s, rfl, h2, by rw [base_zero]; omega⟩
      · exact ⟨i' + 1, j, s', h1, h2, by rw [base_cons]; omega⟩
    · rintro ⟨i', j, s', h1, h2, h3⟩
      cases i' with
      | zero =>
        obtain rfl := Option.some.inj h1
        rw [base_zero] at h3
        left
        rw [List.mem_zipIdx_iff_le_and_getElem?_sub]
        refine ⟨by omega, ?_⟩
        rw [show o.2 - k = j by omega]
        exact h2
      | succ i' => right; rw [base_cons] at h3; exact ⟨i', j, s', h1, h2, by omega⟩

theorem mapM_ok {α β : Type} {f : α → M β} {l : List α} {g : α → β} (h : ∀ x ∈ l, f x = pure (g x)) : l.mapM f = pure (l.map g) := by
  induction l with
  | nil => rfl
  | cons x r ih =>
    rw [List.mapM_cons, h x (List.mem_cons_self), pure_bind, ih (fun y hy => h y (List.mem_cons_of_mem _ hy)), pure_bind]
    rfl

/-- the intersections that are found are with later segments, and their points are on both -/
theorem inters_ok {env : Env} (hok : env.Ok) (tree : List (Seg × Nat)) (n : Nat) (seg : Seg) : ∃ is, getSelfIntersectionsAt env tree n seg = pure is ∧
    ∀ i ∈ is, n < i.lastIdx ∧ OnSegment seg.1 seg.2 i.pt ∧ ∃ o ∈ tree, o.2 = i.lastIdx ∧ OnSegment o.1.1 o.1.2 i.pt := by
  classical
  unfold getSelfIntersectionsAt
  refine ⟨_, mapM_ok (g := fun o => ⟨dist ((env.intersection seg o.1).headD 0) seg.1, o.2, dist ((env.intersection seg o.1).headD 0) o.1.1,
    (env.intersection seg o.1).headD 0⟩) ?_, ?_⟩
  · intro o ho
    obtain ⟨h1, -⟩ := List.mem_filter.mp ho
    obtain ⟨-, x, hx1, hx2⟩ := (hok.query tree seg o).mp h1
    have := hok.found seg o.1 x hx1 hx2
    cases h : env.intersection seg o.1 with
    | nil => exact absurd h this
    | cons y r => rfl
  · intro i hi
    obtain ⟨o, ho, rfl⟩ := List.mem_map.mp hi
    obtain ⟨h1, h2⟩ := List.mem_filter.mp ho
    obtain ⟨hot, x, hx1, hx2⟩ := (hok.query tree seg o).mp h1
    have hne := hok.found seg o.1 x hx1 hx2
    have hmem : (env.intersection seg o.1).headD 0 ∈ env.intersection seg o.1 := by
      cases h : env.intersection seg o.1 with
      | nil => exact absurd h hne
      | cons y r => simp
    obtain ⟨c1, c2⟩ := hok.common seg o.1 _ hmem
    exact ⟨(of_decide_eq_true h2).2.2.2, c1, o, hot, rfl, c2⟩

theorem lowest_mem {is : List Inter} {s : ℝ} {i : Inter} (h : getLowestSAbove is s = some i) : i ∈ is := by
  classical
  unfold getLowestSAbove at h
  have key : ∀ (l : List Inter) (acc : Option Inter), (∀ x, acc = some x → x ∈ is) → (∀ x ∈ l, x ∈ is) → ∀ y,
      l.foldl (fun res ci => if s < ci.firstS ∧ (match res with | none => True | some b => ci.firstS < b.firstS) then some ci else res) acc = some y →
      y ∈ is := by
    intro l
    induction l with
    | nil => intro acc h1 _ y hy; exact h1 y hy
    | cons z r ih =>
      intro acc h1 h2 y hy
      rw [List.foldl_cons] at hy
      refine ih _ ?_ (fun x hx => h2 x (List.mem_cons_of_mem _ hx)) y hy
      intro x hx
      rcases ite_eq_iff.mp hx with ⟨-, hx⟩ | ⟨-, hx⟩
      · rw [← Option.some.inj hx]; exact h2 z List.mem_cons_self
      · exact h1 x hx
  exact key is none (by simp) (fun x hx => hx) i h

/-- the next point: on the segment; and a later segment -/
theorem next_ok {env : Env} (hok : env.Ok) {subs : List (List P2)} {n : Nat} {a b : P2} {lastS : ℝ} : ∃ is np,
    getSelfIntersectionsAt env (makeTree subs).1 n (a, b) = pure is ∧ findNextPoint is (a, b) lastS n = np ∧ n < np.idx ∧ OnSegment a b np.pt := by
  obtain ⟨is, h1, h2⟩ := inters_ok hok (makeTree subs).1 n (a, b)
  refine ⟨is, _, h1, rfl, ?_⟩
  unfold findNextPoint
  cases h : getLowestSAbove is lastS with
  | none => exact ⟨Nat.lt_succ_self n, onSegment_right a b⟩
  | some i =>
    obtain ⟨h3, h4, -⟩ := h2 i (lowest_mem h)
    exact ⟨h3, h4⟩

theorem join_aux {env : Env} (hok : env.Ok) {subs : List (List P2)} : ∀ (m : Nat) (s : JState) (ls : List P2) (j k : Nat),
    base subs subs.length - s.idx = m → subs[s.i]? = some ls → s.idx = base subs s.i + k → k < (pairs ls).length → j ≤ k →
    ∃ ext, (joinInner env subs ls j s >>= joinLoop env subs) = pure (s.newLS ++ ext) ∧ ∀ v ∈ ext, OnSub subs v := by
  intro m
  induction m using Nat.strong_induction_on with
  | _ m ih =>
    intro s ls j k hm hls hidx hk hjk
    have hpl := pairs_length ls
    have hj : j + 1 < ls.length := by omega
    obtain ⟨a, ha⟩ : ∃ a, ls[j]? = some a := ⟨ls[j], List.getElem?_eq_getElem (by omega)⟩
    obtain ⟨b, hb⟩ : ∃ b, ls[j + 1]? = some b := ⟨ls[j + 1], List.getElem?_eq_getElem hj⟩
    obtain ⟨is, np, h1, h2, h3, h4⟩ := next_ok hok (subs := subs) (n := s.idx) (a := a) (b := b) (lastS := s.lastS)
    have hon : OnSub subs np.pt := ⟨ls, List.mem_of_getElem? hls, j, a, b, ha, hb, h4⟩
    have hlt : s.idx < base subs subs.length := by
      have e := base_succ hls
      have := base_le_total subs (s.i + 1)
      omega
    rw [joinInner, if_pos hj, get_eq ha, get_eq hb]
    simp only [pure_bind]
    rw [h1]
    simp only [pure_bind]
    rw [h2]
    by_cases hend : (makeTree subs).2.length ≤ np.idx
    · rw [if_pos hend, pure_bind, joinLoop, if_neg (lt_irrefl _)]
      exact ⟨[np.pt], rfl, fun v hv => by rw [List.mem_singleton.mp hv]; exact hon⟩
    · rw [if_neg hend]
      obtain ⟨c, hc⟩ : ∃ c, (makeTree subs).2[np.idx]? = some c := ⟨_, List.getElem?_eq_getElem (not_le.mp hend)⟩
      obtain ⟨i', s', e1, e2, e3, e4⟩ := (map_get 0 0 subs np.idx c).mp hc
      rw [Nat.zero_add] at e1
      subst e1
      rw [get_eq hc]
      simp only [pure_bind]
      by_cases hne : c.1 ≠ s.i
      · rw [if_pos hne, pure_bind, joinLoop]
        have hlt' : c.1 < subs.length := (List.getElem?_eq_some_iff.mp e2).1
        rw [if_pos hlt', get_eq e2, pure_bind]
        obtain ⟨ext, h5, h6⟩ := ih (base subs subs.length - np.idx) (by omega) ⟨c.1, np.idx, np.lastS, s.newLS ++ [np.pt]⟩ s' 0 c.2 rfl e2 e4 e3
          (Nat.zero_le _)
        refine ⟨np.pt :: ext, ?_, ?_⟩
        · rw [h5]; simp
        · intro v hv
          rcases List.mem_cons.mp hv with rfl | hv
          · exact hon
          · exact h6 v hv
      · rw [if_neg hne]
        have hne := not_not.mp hne
        rw [hne, hls] at e2
        obtain rfl := Option.some.inj e2
        rw [hne] at e4
        obtain ⟨ext, h5, h6⟩ := ih (base subs subs.length - np.idx) (by omega) ⟨s.i, np.idx, np.lastS, s.newLS ++ [np.pt]⟩ ls (j + 1) c.2 rfl hls e4 e3
          (by omega)
        refine ⟨np.pt :: ext, ?_, ?_⟩
        · rw [h5]; simp
        · intro v hv
          rcases List.mem_cons.mp hv with rfl | hv
          · exact hon
          · exact h6 v hv

theorem join_spec {env : Env} (hok : env.Ok) {subs : List (List P2)} (hne : subs ≠ []) (two : ∀ s ∈ subs, 2 ≤ s.length) :
    ∃ r, joinSubStrings env subs = pure r ∧ (∀ v ∈ r, OnSub subs v) ∧ r.head? = subs.head?.bind List.head? ∧
      r.getLast? = subs.getLast?.bind List.getLast? := by
  have hv : ∀ s ∈ subs, ∀ v ∈ s, OnSub subs v := by
    intro s hs v hv
    have h2 := two s hs
    obtain ⟨k, hk, e⟩ := List.mem_iff_getElem.mp hv
    have ek : s[k]? = some v := by rw [List.getElem?_eq_getElem hk, e]
    rcases Nat.lt_or_ge (k + 1) s.length with h | h
    · exact ⟨s, hs, k, v, s[k + 1], ek, List.getElem?_eq_getElem h, onSegment_left _ _⟩
    · obtain ⟨k', rfl⟩ : ∃ k', k = k' + 1 := ⟨k - 1, by omega⟩
      exact ⟨s, hs, k', s[k'], v, List.getElem?_eq_getElem (by omega), ek, onSegment_right _ _⟩
  match subs, hne, two, hv with
  | [s], _, two, hv =>
    refine ⟨s, rfl, fun v h => hv s (by simp) v h, by simp, by simp⟩
  | s :: s2 :: rest, _, two, hv =>
    have h2 := two s (by simp)
    obtain ⟨p, r, rfl⟩ : ∃ p r, s = p :: r := by
      cases s with
      | nil => simp at h2
      | cons p r => exact ⟨p, r, rfl⟩
    obtain ⟨ls, hls⟩ : ∃ ls, ((p :: r) :: s2 :: rest).getLast? = some ls := ⟨_, List.getLast?_eq_some_getLast (by simp)⟩
    have hlm : ls ∈ (p :: r) :: s2 :: rest := List.mem_of_getLast? hls
    obtain ⟨q, hq⟩ : ∃ q, ls.getLast? = some q := by
      have := two ls hlm
      have hn : ls ≠ [] := by rintro rfl; simp at this
      exact ⟨_, List.getLast?_eq_some_getLast hn⟩
    obtain ⟨ext, h5, h6⟩ := join_aux hok _ (⟨0, 0, 0, [p]⟩ : JState) (p :: r) 0 0 rfl (subs := (p :: r) :: s2 :: rest) rfl rfl
      (by rw [pairs_length]; omega) (le_refl _)
    refine ⟨p :: ext ++ [q], ?_, ?_, ?_, ?_⟩
    · unfold joinSubStrings
      simp only
      have hb1 : back ((p :: r) :: s2 :: rest) = pure ls := by
        unfold back
        exact get_eq (by rw [← List.getLast?_eq_getElem?]; exact hls)
      have hb2 : back ls = pure q := by
        unfold back
        exact get_eq (by rw [← List.getLast?_eq_getElem?]; exact hq)
      have hf : front (p :: r) = pure p := rfl
      rw [hf, pure_bind, joinLoop, if_pos (by simp)]
      rw [get_eq (show ((p :: r) :: s2 :: rest)[(⟨0, 0, 0, [p]⟩ : JState).i]? = some (p :: r) from rfl), pure_bind, h5, pure_bind, hb1, pure_bind,
        hb2, pure_bind]
      rfl
    · intro v hv'
      simp only [List.cons_append, List.mem_cons, List.mem_append, List.not_mem_nil, or_false] at hv'
      rcases hv' with rfl | hv' | rfl
      · exact hv (v :: r) (by simp) v (by simp)
      · exact h6 v hv'
      · exact hv ls hlm v (List.mem_of_getLast? hq)
    · simp
    · rw [hls]
      simp only [Option.bind_some, hq]
      exact List.getLast?_concat

end Verif.Geo.Offset
