import Verif.Offset.Convex

/-!
The loops of extractConvex.
-/
namespace Verif.Geo.Offset

/-- the condition for the shape of the corners: an offset to the left, or no turn to the left by more than 90° -/
def GoodSide (l : List P2) (d : ℝ) : Prop := 0 ≤ d ∨ NoSharpLeft l

/-- `q` can be the start of the parallel of the `i`-th segment -/
def Pending (l : List P2) (d : ℝ) (i : Nat) (q : P2) : Prop :=
  ∃ a b, l[i]? = some a ∧ l[i + 1]? = some b ∧ ∃ s : ℝ, 0 ≤ s ∧ q = a + d • leftN a b - s • dir a b

theorem traced_snoc {l : List P2} {d : ℝ} {pre : List P2} {q q' : P2} {L : List Label} {lab : Label} (h : Traced l d (pre ++ [q]) L)
    (he : Explains l d lab q q') : Traced l d (pre ++ [q] ++ [q']) (L ++ [lab]) := by
  obtain ⟨hl, h⟩ := h
  have hpl : pre.length = L.length := by simpa using hl
  refine ⟨by simp [hpl], fun k lb x x' h1 h2 h3 => ?_⟩
  rcases Nat.lt_trichotomy k L.length with hk | hk | hk
  · refine h k lb x x' ?_ ?_ ?_
    · rwa [List.getElem?_append_left hk] at h1
    · rwa [List.getElem?_append_left (by simp; omega)] at h2
    · rwa [List.getElem?_append_left (by simp; omega)] at h3
  · subst hk
    have e1 : lb = lab := by simpa using h1.symm
    have e2 : x = q := by
      rw [List.append_assoc, ← hpl] at h2
      simpa using h2.symm
    have e3 : x' = q' := by
      have : L.length + 1 = (pre ++ [q]).length := by simp [hpl]
      rw [this] at h3
      simpa using h3.symm
    rw [e1, e2, e3]
    exact he
  · rw [List.getElem?_eq_none (by simp; omega)] at h1
    cases h1

theorem run_step {l : List P2} {d : ℝ} {i cur : Nat} {acc : List P2} {r : List P2 × Bool} (hi : i < l.length) (hs : shiftAt l d i = pure r) :
    convexRun l d i cur acc = if r.2 then convexRun l d (i + 1) i (acc ++ r.1) else pure (acc ++ r.1, i) := by
  rw [convexRun, if_pos hi]
  have : (makeVincinity l i >>= fun pv => shiftPoint l d i pv >>= fun r =>
      if r.2 then convexRun l d (i + 1) i (acc ++ r.1) else pure (acc ++ r.1, i)) =
      (shiftAt l d i >>= fun r => if r.2 then convexRun l d (i + 1) i (acc ++ r.1) else pure (acc ++ r.1, i)) := by
    unfold shiftAt; rw [bind_assoc]
  rw [this, hs, pure_bind]

/-- all points of the edges are near the line -/
def EdgesNear (l : List P2) (d : ℝ) (s : List P2) : Prop :=
  ∀ (k : Nat) q q', s[k]? = some q → s[k + 1]? = some q' → ∀ x, OnSegment q q' x → NearLine l d x

theorem edges_snoc {l : List P2} {d : ℝ} {pre : List P2} {q q' : P2} (h : EdgesNear l d (pre ++ [q]))
    (he : ∀ x, OnSegment q q' x → NearLine l d x) : EdgesNear l d (pre ++ [q] ++ [q']) := by
  intro k x x' h1 h2
  have hk : k + 1 < (pre ++ [q] ++ [q']).length := (List.getElem?_eq_some_iff.mp h2).1
  simp only [List.length_append, List.length_singleton] at hk
  rcases Nat.lt_or_ge (k + 1) (pre.length + 1) with hk' | hk'
  · refine h k x x' ?_ ?_
    · rwa [List.getElem?_append_left (by simp; omega)] at h1
    · rwa [List.getElem?_append_left (by simp; omega)] at h2
  · obtain rfl : k = pre.length := by omega
    have e1 : x = q := by
      rw [List.append_assoc] at h1
      simpa using h1.symm
    have e2 : x' = q' := by
      have : pre.length + 1 = (pre ++ [q]).length := by simp
      rw [this] at h2
      simpa using h2.symm
    rw [e1, e2]
    exact he

theorem mem_segs {l : List P2} {i : Nat} {a b : P2} (ha : l[i]? = some a) (hb : l[i + 1]? = some b) : (a, b) ∈ segs l := by
  have hlen : i + 1 < l.length := (List.getElem?_eq_some_iff.mp hb).1
  have : segs l = l.zip l.tail := by
    match l, hlen with
    | [], h => simp at h
    | [_], h => simp at h
    | _ :: _ :: _, _ => rfl
  rw [this]
  refine List.mem_of_getElem? (i := i) ?_
  rw [List.getElem?_zip_eq_some]
  exact ⟨ha, by rw [List.getElem?_tail]; exact hb⟩

theorem near_edge {l : List P2} {d : ℝ} {i : Nat} {a b q q' : P2} (ha : l[i]? = some a) (hb : l[i + 1]? = some b)
    (h1 : dist q a ≤ Real.sqrt 2 * |d|) (h2 : dist q' b ≤ Real.sqrt 2 * |d|) : ∀ x, OnSegment q q' x → NearLine l d x := by
  rintro x ⟨t, h0, h1', rfl⟩
  refine ⟨a + t • (b - a), ⟨(a, b), mem_segs ha hb, t, h0, h1', rfl⟩, ?_⟩
  have e : q + t • (q' - q) - (a + t • (b - a)) = (1 - t) • (q - a) + t • (q' - b) := by module
  unfold dist at h1 h2 ⊢
  rw [e]
  refine le_trans (norm_add_le _ _) ?_
  rw [norm_smul, norm_smul, abs_of_nonneg h0, abs_of_nonneg (by linarith)]
  nlinarith

theorem near_corner {l : List P2} {d : ℝ} {i : Nat} {a b q q' : P2} (ha : l[i]? = some a) (hb : l[i + 1]? = some b)
    (h1 : dist q b ≤ Real.sqrt 2 * |d|) (h2 : dist q' b ≤ Real.sqrt 2 * |d|) : ∀ x, OnSegment q q' x → NearLine l d x :=
  fun _ hx => ⟨b, ⟨(a, b), mem_segs ha hb, onSegment_right a b⟩, convex_dist h1 h2 hx⟩

theorem near_left {d : ℝ} {a b x : P2} (hab : a ≠ b) : dist (x + d • leftN a b) x ≤ Real.sqrt 2 * |d| := by
  refine near_of ?_
  rw [leftN, dot_smul_left, dot_smul_right, dot_perp_perp, unit_dir hab]
  nlinarith [mul_self_nonneg d]

/-- the result of the inner loop, started at the point after the `j`-th segment -/
structure RunOk (l : List P2) (d : ℝ) (j : Nat) (h0 : Option P2) (L : List Label) (acc' : List P2) (L' : List Label) (e : Nat) : Prop where
  lower : j + 1 ≤ e
  upper : e < l.length
  stop : e + 1 = l.length ∨ Concave l d (e - 1)
  before : ∀ k, j ≤ k → k + 1 < e → ¬ Concave l d k
  len : acc'.length = (L ++ L').length + 1
  near : EdgesNear l d acc'
  traced : GoodSide l d → Traced l d acc' (L ++ L')
  cover : L'.filterMap Label.segIdx = List.range' j (e - j)
  first : acc'.head? = h0
  last : ∃ a b, l[e - 1]? = some a ∧ l[e]? = some b ∧ acc'.getLast? = some (b + d • leftN a b)

theorem run_spec {l : List P2} {d : ℝ} (hn : NoRepetition l) : ∀ (m j : Nat) (pre : List P2) (q : P2) (L : List Label) (cur : Nat),
    l.length = j + 2 + m → pre.length = L.length → EdgesNear l d (pre ++ [q]) → (∀ a, l[j]? = some a → dist q a ≤ Real.sqrt 2 * |d|) →
    (GoodSide l d → Traced l d (pre ++ [q]) L ∧ Pending l d j q) →
    ∃ acc' L' e, convexRun l d (j + 1) cur (pre ++ [q]) = pure (acc', e) ∧ RunOk l d j (pre ++ [q]).head? L acc' L' e := by
  intro m
  induction m with
  | zero =>
    intro j pre q L cur hlen hpl hnear hqn htr
    obtain ⟨a, ha⟩ : ∃ a, l[j]? = some a := ⟨l[j], List.getElem?_eq_getElem (by omega)⟩
    obtain ⟨b, hb⟩ : ∃ b, l[j + 1]? = some b := ⟨l[j + 1], List.getElem?_eq_getElem (by omega)⟩
    have hab := hn j a b ha hb
    refine ⟨pre ++ [q] ++ [b + d • leftN a b], [.seg j], j + 1, ?_, ?_⟩
    · rw [run_step (by omega) (shift_last ha hb (by omega) hab), if_pos rfl, convexRun, if_neg (by omega)]
    · refine ⟨le_refl _, by omega, Or.inl (by omega), fun k h1 h2 => by omega, by simp [hpl], edges_snoc hnear (near_edge ha hb (hqn a ha) (near_left hab)), ?_, ?_, ?_, ?_⟩
      · intro hg
        obtain ⟨ht, a', b', ha', hb', s, hs, rfl⟩ := htr hg
        rw [ha] at ha'; rw [hb] at hb'
        obtain rfl := Option.some.inj ha'; obtain rfl := Option.some.inj hb'
        exact traced_snoc ht ⟨a, b, ha, hb, s, 0, hs, le_refl _, rfl, by rw [zero_smul, add_zero]⟩
      · simp [Label.segIdx]
      · simp [List.head?_append]
      · exact ⟨a, b, ha, hb, List.getLast?_concat⟩
  | succ m ih =>
    intro j pre q L cur hlen hpl hnear hqn htr
    obtain ⟨a, ha⟩ : ∃ a, l[j]? = some a := ⟨l[j], List.getElem?_eq_getElem (by omega)⟩
    obtain ⟨b, hb⟩ : ∃ b, l[j + 1]? = some b := ⟨l[j + 1], List.getElem?_eq_getElem (by omega)⟩
    obtain ⟨c, hc⟩ : ∃ c, l[j + 2]? = some c := ⟨l[j + 2], List.getElem?_eq_getElem (by omega)⟩
    have hab := hn j a b ha hb
    have hbc := hn (j + 1) b c hb hc
    have hpend : GoodSide l d → ∃ s : ℝ, 0 ≤ s ∧ q = a + d • leftN a b - s • dir a b := by
      intro hg
      obtain ⟨-, a', b', ha', hb', s, hs, e⟩ := htr hg
      rw [ha] at ha'; rw [hb] at hb'
      obtain rfl := Option.some.inj ha'; obtain rfl := Option.some.inj hb'
      exact ⟨s, hs, e⟩
    by_cases hcc : Concave l d j
    · refine ⟨pre ++ [q] ++ [b + d • leftN a b], [.seg j], j + 1, ?_, ?_⟩
      · rw [run_step (by omega) (shift_concave ha hb hc hab hcc)]; rfl
      · refine ⟨le_refl _, by omega, Or.inr hcc, fun k h1 h2 => by omega, by simp [hpl], edges_snoc hnear (near_edge ha hb (hqn a ha) (near_left hab)), ?_, ?_, ?_, ?_⟩
        · intro hg
          obtain ⟨s, hs, e⟩ := hpend hg
          exact traced_snoc (htr hg).1 ⟨a, b, ha, hb, s, 0, hs, le_refl _, e, by rw [zero_smul, add_zero]⟩
        · simp [Label.segIdx]
        · simp [List.head?_append]
        · exact ⟨a, b, ha, hb, List.getLast?_concat⟩
    · rcases lt_or_ge (dot (b - a) (c - b)) 0 with hm | hm
      · obtain ⟨t, ht0, hsh, n1, n2, hch, -⟩ := shift_sharp ha hb hc hab hbc hcc hm
        have hside : GoodSide l d → 0 ≤ d := by
          rintro (h | h)
          · exact h
          · by_contra hd
            have hd := not_le.mp hd
            have hx : 0 < cross (b - a) (c - b) := by
              by_contra hx
              exact hcc ⟨a, b, c, ha, hb, hc, fun h0 => absurd h0 (not_lt.mpr hd.le), fun _ => not_lt.mp hx⟩
            exact absurd (h j a b c ha hb hc hx) (not_le.mpr hm)
        obtain ⟨acc', L', e, h1, h2⟩ := ih (j + 1) (pre ++ [q] ++ [b + d • leftN a b + (d * t) • dir a b])
          (b + d • leftN b c - (d * t) • dir b c) (L ++ [.seg j] ++ [.corner j]) (j + 1) (by omega) (by simp [hpl])
          (edges_snoc (edges_snoc hnear (near_edge ha hb (hqn a ha) n1)) (near_corner ha hb n1 n2))
          (fun x hx => by rw [hb] at hx; rw [← Option.some.inj hx]; exact n2) (by
            intro hg
            obtain ⟨s, hs, e⟩ := hpend hg
            have hd := hside hg
            exact ⟨traced_snoc (traced_snoc (htr hg).1 ⟨a, b, ha, hb, s, d * t, hs, mul_nonneg hd ht0, e, rfl⟩) (hch hd),
              b, c, hb, hc, d * t, mul_nonneg hd ht0, rfl⟩)
        refine ⟨acc', .seg j :: .corner j :: L', e, ?_, ?_⟩
        · rw [run_step (by omega) hsh, if_pos rfl]
          have : pre ++ [q] ++ ([b + d • leftN a b + (d * t) • dir a b, b + d • leftN b c - (d * t) • dir b c], true).1 =
              pre ++ [q] ++ [b + d • leftN a b + (d * t) • dir a b] ++ [b + d • leftN b c - (d * t) • dir b c] := by simp
          rw [this]; exact h1
        · refine ⟨by have := h2.lower; omega, h2.upper, h2.stop, ?_, ?_, h2.near, ?_, ?_, by rw [h2.first]; simp [List.head?_append], h2.last⟩
          · intro k hk1 hk2
            rcases Nat.eq_or_lt_of_le hk1 with rfl | hk
            · exact hcc
            · exact h2.before k hk hk2
          · have := h2.len; simp only [List.append_assoc, List.singleton_append] at this; exact this
          · intro hg
            have := h2.traced hg; simp only [List.append_assoc, List.singleton_append] at this; exact this
          · have hlow := h2.lower
            simp only [List.filterMap_cons, Label.segIdx, h2.cover]
            have : e - j = (e - (j + 1)) + 1 := by omega
            rw [this, List.range'_succ]
      · obtain ⟨s1, hs1, hsh, heq, n1, -⟩ := shift_mild ha hb hc hab hbc hcc hm
        obtain ⟨acc', L', e, h1, h2⟩ := ih (j + 1) (pre ++ [q]) (b + d • leftN a b + s1 • dir a b) (L ++ [.seg j]) (j + 1) (by omega)
          (by simp [hpl]) (edges_snoc hnear (near_edge ha hb (hqn a ha) n1))
          (fun x hx => by rw [hb] at hx; rw [← Option.some.inj hx]; exact n1) (by
            intro hg
            obtain ⟨s, hs, e⟩ := hpend hg
            exact ⟨traced_snoc (htr hg).1 ⟨a, b, ha, hb, s, s1, hs, hs1, e, rfl⟩, b, c, hb, hc, s1, hs1, heq⟩)
        refine ⟨acc', .seg j :: L', e, ?_, ?_⟩
        · rw [run_step (by omega) hsh, if_pos rfl]; exact h1
        · refine ⟨by have := h2.lower; omega, h2.upper, h2.stop, ?_, ?_, h2.near, ?_, ?_, by rw [h2.first]; simp [List.head?_append], h2.last⟩
          · intro k hk1 hk2
            rcases Nat.eq_or_lt_of_le hk1 with rfl | hk
            · exact hcc
            · exact h2.before k hk hk2
          · have := h2.len; simp only [List.append_assoc, List.singleton_append] at this; exact this
          · intro hg
            have := h2.traced hg; simp only [List.append_assoc, List.singleton_append] at this; exact this
          · have hlow := h2.lower
            simp only [List.filterMap_cons, Label.segIdx, h2.cover]
            have : e - j = (e - (j + 1)) + 1 := by omega
            rw [this, List.range'_succ]

theorem start_step {l : List P2} {d : ℝ} {j : Nat} {a b : P2} (ha : l[j]? = some a) (hb : l[j + 1]? = some b) (hab : a ≠ b) :
    (makeVincinity l j >>= fun pv => shiftPerpendicular l j d false pv) = pure (a + d • leftN a b) := by
  have hlen : j + 1 < l.length := (List.getElem?_eq_some_iff.mp hb).1
  have hp : ∀ x, shiftPerpendicular l j d false ⟨x, b - a⟩ = pure (a + d • leftN a b) := by
    intro x
    unfold shiftPerpendicular
    rw [if_neg (by simp), if_neg (by omega), get_eq ha]
    simp only [pure_bind, Bool.false_eq_true, if_false]
    rw [normalized_sub hab]
    rfl
  cases j with
  | zero =>
    unfold makeVincinity
    rw [if_pos rfl, get_eq hb, get_eq ha]
    simp only [pure_bind]
    exact hp 0
  | succ j =>
    obtain ⟨o, ho⟩ : ∃ o, l[j]? = some o := ⟨l[j], List.getElem?_eq_getElem (by omega)⟩
    rw [vinc_inner ho ha hb, pure_bind]
    exact hp (a - o)

/-- the result of the outer loop from `cur` -/
structure LoopOk (l : List P2) (d : ℝ) (cur : Nat) (subs : List (List P2)) (labels : List (List Label)) : Prop where
  two : ∀ s ∈ subs, 2 ≤ s.length
  near : ∀ s ∈ subs, EdgesNear l d s
  traced : GoodSide l d → List.Forall₂ (Traced l d) subs labels
  cover : labels.flatten.filterMap Label.segIdx = List.range' cur (l.length - 1 - cur)
  ne : cur + 1 < l.length → subs ≠ []
  single : cur + 1 < l.length → (subs.length = 1 ↔ ∀ k, cur ≤ k → ¬ Concave l d k)
  first : ∀ a b, l[cur]? = some a → l[cur + 1]? = some b → subs.head?.bind List.head? = some (a + d • leftN a b)
  last : cur + 1 < l.length → ∀ a b, l[l.length - 2]? = some a → l[l.length - 1]? = some b →
    subs.getLast?.bind List.getLast? = some (b + d • leftN a b)

theorem concave_lt {l : List P2} {d : ℝ} {k : Nat} (h : Concave l d k) : k + 2 < l.length := by
  obtain ⟨_, _, _, _, _, hc, _⟩ := h
  exact (List.getElem?_eq_some_iff.mp hc).1

theorem loop_spec {l : List P2} {d : ℝ} (hn : NoRepetition l) : ∀ (m cur : Nat) (offs : List (List P2)), l.length - cur = m →
    ∃ subs labels, convexLoop l d cur offs = pure (offs ++ subs) ∧ LoopOk l d cur subs labels := by
  intro m
  induction m using Nat.strong_induction_on with
  | _ m ih =>
    intro cur offs hm
    by_cases hc : cur + 1 < l.length
    · obtain ⟨a, ha⟩ : ∃ a, l[cur]? = some a := ⟨l[cur], List.getElem?_eq_getElem (by omega)⟩
      obtain ⟨b, hb⟩ : ∃ b, l[cur + 1]? = some b := ⟨l[cur + 1], List.getElem?_eq_getElem hc⟩
      have hab := hn cur a b ha hb
      obtain ⟨acc', L', e, h1, h2⟩ := run_spec (d := d) hn (l.length - cur - 2) cur [] (a + d • leftN a b) [] cur (by omega) rfl
        (by intro k x x' h1 h2; simp at h2) (fun x hx => by rw [ha] at hx; rw [← Option.some.inj hx]; exact near_left hab)
        (by
          intro _
          refine ⟨⟨rfl, fun k lab x x' h => by simp at h⟩, a, b, ha, hb, 0, le_refl _, by rw [zero_smul, sub_zero]⟩)
      have hlow := h2.lower
      have hup := h2.upper
      obtain ⟨subs, labels, h3, h4⟩ := ih (l.length - e) (by omega) e (offs ++ [acc']) rfl
      refine ⟨acc' :: subs, L' :: labels, ?_, ?_⟩
      · rw [convexLoop, if_pos hc]
        have : (makeVincinity l cur >>= fun pv => shiftPerpendicular l cur d false pv >>= fun p =>
            convexRun l d (cur + 1) cur [p] >>= fun r => convexLoop l d r.2 (offs ++ [r.1])) =
            ((makeVincinity l cur >>= fun pv => shiftPerpendicular l cur d false pv) >>= fun p =>
            convexRun l d (cur + 1) cur [p] >>= fun r => convexLoop l d r.2 (offs ++ [r.1])) := by rw [bind_assoc]
        rw [this, start_step ha hb hab, pure_bind]
        rw [List.nil_append] at h1
        rw [h1, pure_bind]
        simp only
        rw [h3]
        simp
      · refine ⟨?_, ?_, ?_, ?_, fun _ => by simp, fun _ => ?_, ?_, fun _ => ?_⟩
        · intro s hs
          rcases List.mem_cons.mp hs with rfl | hs
          · have hl := h2.len
            have hcov := congrArg List.length h2.cover
            rw [List.length_range'] at hcov
            have := List.length_filterMap_le Label.segIdx L'
            rw [hl]
            simp only [List.nil_append]
            omega
          · exact h4.two s hs
        · intro s hs
          rcases List.mem_cons.mp hs with rfl | hs
          · exact h2.near
          · exact h4.near s hs
        · intro hg
          exact List.Forall₂.cons (by simpa using h2.traced hg) (h4.traced hg)
        · rw [List.flatten_cons, List.filterMap_append, h2.cover, h4.cover]
          have e1 : e = cur + 1 * (e - cur) := by omega
          have e2 : l.length - 1 - cur = (e - cur) + (l.length - 1 - e) := by omega
          rw [e2, ← List.range'_append, ← e1]
        · constructor
          · intro h k hk hcv
            have hnil : subs = [] := by simpa using h
            have hlast : e + 1 = l.length := by
              by_contra hne
              exact h4.ne (by omega) hnil
            have := concave_lt hcv
            exact h2.before k hk (by omega) hcv
          · intro h
            rcases h2.stop with hs | hs
            · have : subs = [] := by
                have := h3
                rw [convexLoop, if_neg (by omega)] at this
                have := Option.some.inj this
                have := Except.ok.inj this
                simpa using this
              simp [this]
            · exact absurd hs (h (e - 1) (by omega))
        · intro x y hx hy
          rw [ha] at hx; rw [hb] at hy
          obtain rfl := Option.some.inj hx; obtain rfl := Option.some.inj hy
          simp [h2.first]
        · intro x y hx hy
          by_cases hend : e + 1 < l.length
          · have hne := h4.ne hend
            rw [List.getLast?_cons, List.getLast?_eq_some_getLast hne]
            have := h4.last hend x y hx hy
            rw [List.getLast?_eq_some_getLast hne] at this
            simpa using this
          · have hnil : subs = [] := by
              have := h3
              rw [convexLoop, if_neg hend] at this
              have := Option.some.inj this
              have := Except.ok.inj this
              simpa using this
            obtain ⟨a', b', e1, e2, e3⟩ := h2.last
            rw [show l.length - 2 = e - 1 by omega, e1] at hx
            rw [show l.length - 1 = e by omega, e2] at hy
            obtain rfl := Option.some.inj hx; obtain rfl := Option.some.inj hy
            simp [hnil, e3]
    · refine ⟨[], [], ?_, ?_⟩
      · rw [convexLoop, if_neg hc]; simp
      · refine ⟨by simp, by simp, fun _ => List.Forall₂.nil, ?_, fun h => absurd h hc, fun h => absurd h hc,
          fun a b _ hb => absurd (List.getElem?_eq_some_iff.mp hb).1 hc, fun h => absurd h hc⟩
        have : l.length - 1 - cur = 0 := by omega
        rw [this]; rfl

end Verif.Geo.Offset
