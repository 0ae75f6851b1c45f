import Verif.Offset.Join

/-!
C60: offset of a line. The specification is in Convex.lean (`Parallel`, `Chamfer`, `Traced`, `NearLine`) and Join.lean (`Env.Ok`).
-/
namespace Verif.Geo.Offset

theorem pairs_segs {l : List P2} (h : 2 ≤ l.length) : pairs l = segs l := by
  match l, h with
  | [], h => simp at h
  | [_], h => simp at h
  | _ :: _ :: _, _ => rfl

/-- the check finds exactly the points that are closer to the line than the distance -/
theorem check_spec {env : Env} (hok : env.Ok) {l : List P2} (h2 : 2 ≤ l.length) (r : List P2) (d : ℝ) :
    ((∀ v ∈ r, ∀ y, OnLine l y → d ≤ dist v y + 1 / 10 ^ 7) ∧ checkForInversion env l r d = pure ()) ∨
    ((∃ v ∈ r, ∃ y, OnLine l y ∧ dist v y + 1 / 10 ^ 7 < d) ∧ checkForInversion env l r d = err .geometry) := by
  classical
  have hne : pairs l ≠ [] := by
    intro e
    have := congrArg List.length e
    rw [pairs_length] at this
    simp only [List.length_nil] at this
    omega
  have key : ∀ v, (∃ y, OnLine l y ∧ dist v y + 1 / 10 ^ 7 < d) ↔
      dist (projectPoint (env.nearest (pairs l) v).1 (env.nearest (pairs l) v).2 v) v + 1 / 10 ^ 7 < d := by
    intro v
    obtain ⟨h3, h4⟩ := hok.near (pairs l) v hne
    constructor
    · rintro ⟨y, ⟨s, hs, hy⟩, hlt⟩
      have h5 := (projectPoint_nearest s.1 s.2 v).2 y hy
      have h6 := h4 s (by rw [pairs_segs h2]; exact hs)
      rw [dist_comm v y] at hlt
      linarith
    · intro h
      refine ⟨_, ⟨env.nearest (pairs l) v, by rw [← pairs_segs h2]; exact h3, (projectPoint_nearest _ _ v).1⟩, ?_⟩
      rw [dist_comm]; exact h
  unfold checkForInversion
  rw [if_neg (by omega)]
  induction r with
  | nil => exact Or.inl ⟨by simp, rfl⟩
  | cons v r ih =>
    have e0 : ∀ f : P2 → M Unit, (v :: r).forM f = (f v >>= fun _ => r.forM f) := fun _ => rfl
    rw [e0]
    simp only
    by_cases hv : dist (projectPoint (env.nearest (pairs l) v).1 (env.nearest (pairs l) v).2 v) v + 1 / 10 ^ 7 < d
    · refine Or.inr ⟨⟨v, by simp, (key v).mpr hv⟩, ?_⟩
      rw [if_pos hv]
      rfl
    · rw [if_neg hv, pure_bind]
      rcases ih with ⟨h1, e⟩ | ⟨⟨w, hw, h1⟩, e⟩
      · refine Or.inl ⟨?_, e⟩
        intro w hw y hy
        rcases List.mem_cons.mp hw with rfl | hw
        · by_contra hlt
          exact hv ((key w).mp ⟨y, hy, not_le.mp hlt⟩)
        · exact h1 w hw y hy
      · exact Or.inr ⟨⟨w, List.mem_cons_of_mem _ hw, h1⟩, e⟩

/-- offset is offsetNoThrow and the check -/
theorem offset_eq {env : Env} {l r : List P2} {d : ℝ} (h : offsetNoThrow env l d = pure r) :
    offset env l d = (checkForInversion env l r d >>= fun _ => pure r) := by
  unfold offset
  rw [h, pure_bind]

/-- C60: fewer than two points are rejected. -/
theorem offset_short (env : Env) {l : List P2} (h : l.length < 2) (d : ℝ) : offset env l d = err .input := by
  have : offsetNoThrow env l d = pure [] := by
    unfold offsetNoThrow extractConvex
    rw [convexLoop, if_neg (by omega)]
    rfl
  rw [offset_eq this]
  unfold checkForInversion
  rw [if_pos h]
  rfl

/-- Disagreement with C60: offsetNoThrow does not throw an InvalidInputError for fewer than two points, contrary to its documentation. -/
theorem short_counterexample (env : Env) : ∃ l : List P2, l.length < 2 ∧ offsetNoThrow env l 1 = pure [] := by
  refine ⟨[(0, 0)], by simp, ?_⟩
  unfold offsetNoThrow extractConvex
  rw [convexLoop, if_neg (by simp)]
  rfl

/-- C60: for a line of at least two points without repeated points offsetNoThrow returns a line. It begins next to the first and ends next to
the last point of the line, and all its points are at most `√2` times the distance away. Except at left turns of more than 90° with an offset to
the right, they are on edges that are parallel to segments, at the distance, or go round a corner between `1` and `√2` times the distance.
offset either returns that line, whose points are then no closer than the distance (and `10⁻⁷`), or one of the points is and it throws. -/
theorem offset_points {env : Env} (hok : env.Ok) {l : List P2} (h2 : 2 ≤ l.length) (hn : NoRepetition l) (d : ℝ) :
    ∃ r, offsetNoThrow env l d = pure r ∧
      (∀ a b, l[0]? = some a → l[1]? = some b → r.head? = some (a + d • leftN a b)) ∧
      (∀ a b, l[l.length - 2]? = some a → l[l.length - 1]? = some b → r.getLast? = some (b + d • leftN a b)) ∧
      (∀ v ∈ r, NearLine l d v) ∧
      (0 ≤ d ∨ NoSharpLeft l → ∀ v ∈ r, ∃ lab q q', Explains l d lab q q' ∧ OnSegment q q' v) ∧
      ((offset env l d = pure r ∧ ∀ v ∈ r, ∀ y, OnLine l y → d ≤ dist v y + 1 / 10 ^ 7) ∨
       (offset env l d = err .geometry ∧ ∃ v ∈ r, ∃ y, OnLine l y ∧ dist v y + 1 / 10 ^ 7 < d)) := by
  obtain ⟨subs, labels, h1, h3⟩ := loop_spec (d := d) hn l.length 0 [] rfl
  rw [List.nil_append] at h1
  obtain ⟨r, hr, hon, hh, hl⟩ := join_spec hok (h3.ne (by omega)) h3.two
  have hr' : offsetNoThrow env l d = pure r := by
    unfold offsetNoThrow extractConvex
    rw [h1, pure_bind, hr]
  refine ⟨r, hr', ?_, ?_, ?_, ?_, ?_⟩
  · intro a b ha hb
    rw [hh, h3.first a b ha hb]
  · intro a b ha hb
    rw [hl, h3.last (by omega) a b ha hb]
  · intro v hv
    obtain ⟨s, hs, k, q, q', hq, hq', hx⟩ := hon v hv
    exact h3.near s hs k q q' hq hq' v hx
  · intro hg v hv
    obtain ⟨s, hs, k, q, q', hq, hq', hx⟩ := hon v hv
    have htr := h3.traced hg
    obtain ⟨n, hn', e⟩ := List.mem_iff_getElem.mp hs
    obtain ⟨hlen, hall⟩ := List.forall₂_iff_get.mp htr
    have ht := hall n hn' (by omega)
    simp only [List.get_eq_getElem, e] at ht
    have hk : k + 1 < s.length := (List.getElem?_eq_some_iff.mp hq').1
    have hlab := ht.1
    exact ⟨labels[n][k], q, q', ht.2 k _ q q' (List.getElem?_eq_getElem (by omega)) hq hq', hx⟩
  · rw [offset_eq hr']
    rcases check_spec hok h2 r d with ⟨h4, e⟩ | ⟨h4, e⟩
    · left; rw [e]; exact ⟨rfl, h4⟩
    · right; rw [e]; exact ⟨rfl, h4⟩

/-- C60: if the line has no corner towards the side of the offset, the edges of the result are in this order the parallels of the segments, with
edges round the corners of more than 90° in between. All points of the result are at most `√2` times the distance away from the line. -/
theorem offset_convex {env : Env} {l : List P2} (h2 : 2 ≤ l.length) (hn : NoRepetition l) {d : ℝ} (hc : ∀ k, ¬ Concave l d k)
    (hg : 0 ≤ d ∨ NoSharpLeft l) :
    ∃ r labels, offsetNoThrow env l d = pure r ∧ Traced l d r labels ∧ labels.filterMap Label.segIdx = List.range (l.length - 1) ∧
      ∀ (k : Nat) q q', r[k]? = some q → r[k + 1]? = some q' → ∀ x, OnSegment q q' x → NearLine l d x := by
  obtain ⟨subs, labels, h1, h3⟩ := loop_spec (d := d) hn l.length 0 [] rfl
  rw [List.nil_append] at h1
  have h4 := (h3.single (by omega)).mpr fun k _ => hc k
  have htr := h3.traced hg
  obtain ⟨s, rfl⟩ := List.length_eq_one_iff.mp h4
  cases htr with
  | cons ht hrest =>
    cases hrest
    rename_i lab
    refine ⟨s, lab, ?_, ht, ?_, fun k q q' => h3.near s (by simp) k q q'⟩
    · unfold offsetNoThrow extractConvex
      rw [h1, pure_bind]
      rfl
    · have := h3.cover
      simp only [List.flatten_cons, List.flatten_nil, List.append_nil] at this
      rw [this, List.range_eq_range']
      congr 1

end Verif.Geo.Offset
