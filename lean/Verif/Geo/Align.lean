import Verif.Geo.Corner

/-!
C72: bounds of a lane are brought into the same direction. Model of geometry::align,
lanelet2_core/include/lanelet2_core/geometry/impl/LineString.h 808-829, in two dimensions and with exact arithmetic. (The reader of maps calls
it with linestrings in space, where the closest segment is searched in space but the side is decided in the plane as well.)
-/
namespace Verif.Geo

/-! ### model -/

/-- getMiddlePoint in align, impl/LineString.h 815-817; only used on linestrings with points -/
noncomputable def middlePoint (l : List (ℝ × ℝ)) : ℝ × ℝ :=
  if 2 < l.length then l.getD (l.length / 2) 0 else (1 / 2 : ℝ) • (l.headD 0 + l.getLastD 0)

/-- align, impl/LineString.h 808-829 -/
noncomputable def align (ix : Index ℝ (ℝ × ℝ)) (left right : List (ℝ × ℝ)) : Except Fault (List (ℝ × ℝ) × List (ℝ × ℝ)) :=
  if (left.length ≤ 1 ∧ right.length ≤ 1) ∨ right = [] ∨ left = [] then .ok (left, right) else do
  let d ← signedDistanceImpl ix left (middlePoint right)
  let left' := if ¬ d.1 < 0 ∧ 1 < left.length then left.reverse else left
  let e ← signedDistanceImpl ix right (middlePoint left')
  let right' := if ¬ 0 < e.1 ∧ 1 < right.length then right.reverse else right
  return (left', right')

/-! ### specification -/

/-- `p` is clearly left of the linestring: there is just one closest point, and `p` is left of every segment that this point is on.
Specification. -/
def ClearLeft (l : List (ℝ × ℝ)) (p : ℝ × ℝ) : Prop :=
  ∃ x, (∀ y, Closest l p y → y = x) ∧ ∀ s ∈ segs l, OnSegment s.1 s.2 x → 0 < cross (s.2 - s.1) (p - s.1)

/-- `p` is clearly right of the linestring. Specification. -/
def ClearRight (l : List (ℝ × ℝ)) (p : ℝ × ℝ) : Prop :=
  ∃ x, (∀ y, Closest l p y → y = x) ∧ ∀ s ∈ segs l, OnSegment s.1 s.2 x → cross (s.2 - s.1) (p - s.1) < 0

/-- `left` and `right` are the bounds of a lane in the direction of the lane: the middle of the right bound, counted from either end, is
clearly right of the left bound, and the middle of the left bound is clearly left of the right bound. Specification. -/
structure Lane (left right : List (ℝ × ℝ)) : Prop where
  right1 : ClearRight left (middlePoint right)
  right2 : ClearRight left (middlePoint right.reverse)
  left1 : ClearLeft right (middlePoint left)

/-! ### proofs -/

theorem onSegment_swap {a b x : ℝ × ℝ} (h : OnSegment a b x) : OnSegment b a x := by
  obtain ⟨t, h0, h1, e⟩ := h
  refine ⟨1 - t, by linarith, by linarith, ?_⟩
  rw [e]
  module

theorem segs_reverse {l : List (ℝ × ℝ)} {s : (ℝ × ℝ) × (ℝ × ℝ)} (h : s ∈ segs l) : s.swap ∈ segs l.reverse := by
  rcases segs_split h with ⟨e, e2⟩ | ⟨pre, post, e⟩
  · rw [e]
    simp only [List.reverse_cons, List.reverse_nil, List.nil_append, segs, List.mem_singleton]
    exact Prod.ext e2 rfl
  · have hz : (s.2, s.1) ∈ (post.reverse ++ s.2 :: s.1 :: pre.reverse).zip (post.reverse ++ s.2 :: s.1 :: pre.reverse).tail :=
      zip_mem_right (by simp)
    have he : l.reverse = post.reverse ++ s.2 :: s.1 :: pre.reverse := by rw [e]; simp
    rw [he]
    have hs : segs (post.reverse ++ s.2 :: s.1 :: pre.reverse) =
        (post.reverse ++ s.2 :: s.1 :: pre.reverse).zip (post.reverse ++ s.2 :: s.1 :: pre.reverse).tail := by
      generalize post.reverse = q
      rcases q with _ | ⟨x, _ | ⟨y, q⟩⟩ <;> rfl
    rw [hs]
    exact hz

theorem onLine_reverse {l : List (ℝ × ℝ)} {x : ℝ × ℝ} (h : OnLine l x) : OnLine l.reverse x := by
  obtain ⟨s, hs, hx⟩ := h
  exact ⟨s.swap, segs_reverse hs, onSegment_swap hx⟩

theorem closest_reverse {l : List (ℝ × ℝ)} {p x : ℝ × ℝ} (h : Closest l.reverse p x) : Closest l p x := by
  refine ⟨?_, fun y hy => h.2 y (onLine_reverse hy)⟩
  have := onLine_reverse h.1
  rwa [List.reverse_reverse] at this

theorem cross_swap (a b p : ℝ × ℝ) : cross (a - b) (p - b) = -cross (b - a) (p - a) := by
  unfold cross
  simp only [Prod.fst_sub, Prod.snd_sub]
  ring

/-- **C72.** A point is left of a linestring iff it is right of the inverted one. -/
theorem clear_reverse (l : List (ℝ × ℝ)) (p : ℝ × ℝ) : ClearLeft l.reverse p ↔ ClearRight l p := by
  constructor
  · rintro ⟨x, h1, h2⟩
    refine ⟨x, fun y hy => h1 y (closest_reverse (by rwa [List.reverse_reverse])), fun s hs hx => ?_⟩
    have := h2 s.swap (segs_reverse hs) (onSegment_swap hx)
    rw [Prod.fst_swap, Prod.snd_swap, cross_swap] at this
    linarith
  · rintro ⟨x, h1, h2⟩
    refine ⟨x, fun y hy => h1 y (closest_reverse hy), fun s hs hx => ?_⟩
    have hs' := segs_reverse hs
    rw [List.reverse_reverse] at hs'
    have := h2 s.swap hs' (onSegment_swap hx)
    rw [Prod.fst_swap, Prod.snd_swap, cross_swap] at this
    linarith

theorem clear_reverse' (l : List (ℝ × ℝ)) (p : ℝ × ℝ) : ClearRight l.reverse p ↔ ClearLeft l p := by
  rw [← clear_reverse, List.reverse_reverse]

/-- the point behind the first occurrence of a point is the end of a segment -/
theorem dropWhile_seg {l : List (ℝ × ℝ)} {b x c : ℝ × ℝ} {post : List (ℝ × ℝ)}
    (h : l.dropWhile (fun x => decide (x ≠ b)) = x :: c :: post) : x = b ∧ (b, c) ∈ segs l := by
  have hx : x = b := by
    have := List.head?_dropWhile_not (fun x => decide (x ≠ b)) l
    rw [h] at this
    simpa using this
  refine ⟨hx, ?_⟩
  have e := List.takeWhile_append_dropWhile (p := fun x => decide (x ≠ b)) (l := l)
  rw [h, hx] at e
  rw [← e]
  generalize l.takeWhile _ = q
  have : segs (q ++ b :: c :: post) = (q ++ b :: c :: post).zip (q ++ b :: c :: post).tail := by
    rcases q with _ | ⟨x, _ | ⟨y, q⟩⟩ <;> rfl
  rw [this]
  exact zip_mem_right (by simp)

theorem signedDistance_total {ix : Index ℝ (ℝ × ℝ)} (hix : ix.Ok) {l : List (ℝ × ℝ)} (hl : l ≠ []) (p : ℝ × ℝ) :
    ∃ (s : (ℝ × ℝ) × (ℝ × ℝ)) (x : ℝ × ℝ) (b : Bool), s ∈ segs l ∧ Closest l p x ∧ OnSegment s.1 s.2 x ∧ isLeftOf l p s x = .ok b ∧
      signedDistanceImpl ix l p = .ok (if b then dist x p else -dist x p, s, x) := by
  obtain ⟨r, h1, h2, h3, h4, h5⟩ := projectLine_nearest hix hl p
  obtain ⟨b, hb⟩ := isLeftOf_ok (p := p) (proj := projectPoint r.segm.1 r.segm.2 p) (segs_mem h2).2
  refine ⟨r.segm, r.p, b, h2, ⟨h4, h5⟩, ?_, ?_, ?_⟩
  · rw [h3]; exact (projectPoint_nearest r.segm.1 r.segm.2 p).1
  · rw [h3]; exact hb
  · unfold signedDistanceImpl
    rw [h1]
    simp only [bind, Except.bind, hb, pure, Except.pure]
    rw [h3]

theorem clear_isLeftOf {l : List (ℝ × ℝ)} {p x : ℝ × ℝ} {s : (ℝ × ℝ) × (ℝ × ℝ)} {v b : Bool} (hs : s ∈ segs l) (hx : OnSegment s.1 s.2 x)
    (h : ∀ s ∈ segs l, OnSegment s.1 s.2 x → pointIsLeftOf s.1 s.2 p = v) (hb : isLeftOf l p s x = .ok b) : b = v := by
  have h0 := h s hs hx
  unfold isLeftOf at hb
  simp only [h0] at hb
  split at hb
  · rename_i he
    split at hb
    · cases hb
    · exact (Except.ok.inj hb).symm
    · rename_i y c post hd
      obtain ⟨-, hc⟩ := dropWhile_seg hd
      have := h _ hc (by rw [he]; exact onSegment_left x c)
      rw [if_neg (fun hc => hc.1 this.symm)] at hb
      exact (Except.ok.inj hb).symm
  · exact (Except.ok.inj hb).symm

theorem cross_self (a x : ℝ × ℝ) (t : ℝ) : cross (x - a) (t • (x - a)) = 0 := by
  unfold cross
  simp only [Prod.smul_fst, Prod.smul_snd, smul_eq_mul]
  ring

theorem side_ne {s : (ℝ × ℝ) × (ℝ × ℝ)} {x p : ℝ × ℝ} (hx : OnSegment s.1 s.2 x) (h : cross (s.2 - s.1) (p - s.1) ≠ 0) : 0 < dist x p := by
  refine lt_of_le_of_ne (dist_nonneg x p) fun hc => h ?_
  have := dist_eq_zero.mp hc.symm
  subst this
  obtain ⟨t, -, -, e⟩ := hx
  rw [e, add_sub_cancel_left, cross_self]

/-- **C72.** The signed distance of a point that is clearly left of the linestring is positive. -/
theorem signedDistance_left {ix : Index ℝ (ℝ × ℝ)} (hix : ix.Ok) {l : List (ℝ × ℝ)} (hl : l ≠ []) {p : ℝ × ℝ} (h : ClearLeft l p) :
    ∃ d, signedDistanceImpl ix l p = .ok d ∧ 0 < d.1 := by
  obtain ⟨s, x, b, h1, h2, h3, h4, h5⟩ := signedDistance_total hix hl p
  obtain ⟨y, hy, h⟩ := h
  have e := hy x h2
  subst e
  have := clear_isLeftOf (v := true) h1 h3 (fun s hs hx => by unfold pointIsLeftOf; simpa using h s hs hx) h4
  subst this
  exact ⟨_, h5, by simpa using side_ne h3 (ne_of_gt (h s h1 h3))⟩

/-- **C72.** The signed distance of a point that is clearly right of the linestring is negative. -/
theorem signedDistance_right {ix : Index ℝ (ℝ × ℝ)} (hix : ix.Ok) {l : List (ℝ × ℝ)} (hl : l ≠ []) {p : ℝ × ℝ} (h : ClearRight l p) :
    ∃ d, signedDistanceImpl ix l p = .ok d ∧ d.1 < 0 := by
  obtain ⟨s, x, b, h1, h2, h3, h4, h5⟩ := signedDistance_total hix hl p
  obtain ⟨y, hy, h⟩ := h
  have e := hy x h2
  subst e
  have := clear_isLeftOf (v := false) h1 h3 (fun s hs hx => by unfold pointIsLeftOf; simpa using le_of_lt (h s hs hx)) h4
  subst this
  exact ⟨_, h5, by simpa using side_ne h3 (ne_of_lt (h s h1 h3))⟩

theorem ite_cases {α : Type} {c : Prop} [Decidable c] {a b : α} : (if c then a else b) = b ∨ (if c then a else b) = a := by
  by_cases h : c
  · exact .inr (if_pos h)
  · exact .inl (if_neg h)

/-- **C72.** The result consists of the given linestrings, each of them possibly inverted; bounds without points and single points are
returned as they are, and the call never fails. -/
theorem align_same {ix : Index ℝ (ℝ × ℝ)} (hix : ix.Ok) (l r : List (ℝ × ℝ)) :
    ∃ l' r', align ix l r = .ok (l', r') ∧ (l' = l ∨ l' = l.reverse) ∧ (r' = r ∨ r' = r.reverse) ∧
      (l = [] ∨ r = [] ∨ (l.length = 1 ∧ r.length = 1) → l' = l ∧ r' = r) := by
  unfold align
  split
  · exact ⟨l, r, rfl, .inl rfl, .inl rfl, fun _ => ⟨rfl, rfl⟩⟩
  · rename_i h
    rw [not_or, not_or] at h
    obtain ⟨h0, h1, h2⟩ := h
    obtain ⟨s, x, b, -, -, -, -, hd⟩ := signedDistance_total hix h2 (middlePoint r)
    simp only [hd, bind, Except.bind]
    generalize hl' : (if ¬ (if b = true then dist x (middlePoint r) else -dist x (middlePoint r)) < 0 ∧ 1 < l.length then l.reverse else l) = l'
    obtain ⟨s2, x2, b2, -, -, -, -, he⟩ := signedDistance_total hix h1 (middlePoint l')
    simp only [he]
    refine ⟨_, _, rfl, ?_, ?_, ?_⟩
    · rw [← hl']; exact ite_cases
    · exact ite_cases
    · rintro (h | h | h)
      · exact absurd h h2
      · exact absurd h h1
      · exact absurd ⟨h.1.le, h.2.le⟩ h0

theorem reverse_of_short {α : Type} {l : List α} (h : ¬ 1 < l.length) : l.reverse = l := by
  match l, h with
  | [], _ => rfl
  | [_], _ => rfl
  | _ :: _ :: _, h => simp at h

/-- **C72.** The bounds of a lane are found again from their points, whatever the directions are they are given in. -/
theorem align_lane {ix : Index ℝ (ℝ × ℝ)} (hix : ix.Ok) {l r l' r' : List (ℝ × ℝ)} (hl : l ≠ []) (hr : r ≠ []) (h : Lane l r)
    (hl' : l' = l ∨ l' = l.reverse) (hr' : r' = r ∨ r' = r.reverse) : align ix l' r' = .ok (l, r) := by
  have hm : ClearRight l (middlePoint r') := by
    rcases hr' with rfl | rfl
    · exact h.right1
    · exact h.right2
  have hlr : l.reverse ≠ [] := by simpa using hl
  have hrr : r.reverse ≠ [] := by simpa using hr
  unfold align
  split
  · rename_i hs
    rcases hs with ⟨h1, h2⟩ | h1 | h1
    · have e1 : l' = l := by
        rcases hl' with e | e
        · exact e
        · rw [e]; rw [e, List.length_reverse] at h1; exact reverse_of_short (by omega)
      have e2 : r' = r := by
        rcases hr' with e | e
        · exact e
        · rw [e]; rw [e, List.length_reverse] at h2; exact reverse_of_short (by omega)
      rw [e1, e2]
    · rcases hr' with e | e <;> rw [e] at h1 <;> contradiction
    · rcases hl' with e | e <;> rw [e] at h1 <;> contradiction
  · obtain ⟨d, hd, e1⟩ : ∃ d, signedDistanceImpl ix l' (middlePoint r') = .ok d ∧ (if ¬ d.1 < 0 ∧ 1 < l'.length then l'.reverse else l') = l := by
      rcases hl' with e | e
      · obtain ⟨d, hd, hn⟩ := signedDistance_right hix hl hm
        rw [e]
        exact ⟨d, hd, if_neg fun hc => hc.1 hn⟩
      · obtain ⟨d, hd, hn⟩ := signedDistance_left hix hlr ((clear_reverse l _).mpr hm)
        rw [e]
        refine ⟨d, hd, ?_⟩
        split
        · rw [List.reverse_reverse]
        · rename_i hc
          refine reverse_of_short fun hlen => hc ⟨not_lt.mpr hn.le, by simpa using hlen⟩
    simp only [hd, bind, Except.bind, e1]
    obtain ⟨d, hd, e2⟩ : ∃ d, signedDistanceImpl ix r' (middlePoint l) = .ok d ∧ (if ¬ 0 < d.1 ∧ 1 < r'.length then r'.reverse else r') = r := by
      rcases hr' with e | e
      · obtain ⟨d, hd, hn⟩ := signedDistance_left hix hr h.left1
        rw [e]
        exact ⟨d, hd, if_neg fun hc => hc.1 hn⟩
      · obtain ⟨d, hd, hn⟩ := signedDistance_right hix hrr ((clear_reverse' r _).mpr h.left1)
        rw [e]
        refine ⟨d, hd, ?_⟩
        split
        · rw [List.reverse_reverse]
        · rename_i hc
          refine reverse_of_short fun hlen => hc ⟨not_lt.mpr hn.le, by simpa using hlen⟩
    simp only [hd, e2]
    rfl

/-- **C72.** Bounds of a lane that are in its direction stay as they are, and a second call changes nothing. -/
theorem align_twice {ix : Index ℝ (ℝ × ℝ)} (hix : ix.Ok) {l r : List (ℝ × ℝ)} (hl : l ≠ []) (hr : r ≠ []) (h : Lane l r) :
    align ix l r = .ok (l, r) ∧ (align ix l.reverse r.reverse >>= fun x => align ix x.1 x.2) = .ok (l, r) := by
  have h1 := align_lane hix hl hr h (.inl rfl) (.inl rfl)
  refine ⟨h1, ?_⟩
  rw [align_lane hix hl hr h (.inr rfl) (.inr rfl)]
  exact h1

/-! ### examples -/

theorem unique_of {l : List (ℝ × ℝ)} {p x : ℝ × ℝ} (hx : OnLine l x)
    (h : ∀ s ∈ segs l, ∀ t, 0 ≤ t → t ≤ 1 →
      (s.1.1 + t * (s.2.1 - s.1.1) - p.1) * (s.1.1 + t * (s.2.1 - s.1.1) - p.1) +
        (s.1.2 + t * (s.2.2 - s.1.2) - p.2) * (s.1.2 + t * (s.2.2 - s.1.2) - p.2) ≤
        (x.1 - p.1) * (x.1 - p.1) + (x.2 - p.2) * (x.2 - p.2) →
      s.1.1 + t * (s.2.1 - s.1.1) = x.1 ∧ s.1.2 + t * (s.2.2 - s.1.2) = x.2) :
    ∀ y, Closest l p y → y = x := by
  rintro y ⟨⟨s, hs, t, h0, h1, rfl⟩, hy⟩
  have := hy x hx
  rw [dist2, dist2, Real.sqrt_le_sqrt_iff (add_nonneg (mul_self_nonneg _) (mul_self_nonneg _))] at this
  simp only [Prod.fst_add, Prod.snd_add, Prod.smul_fst, Prod.smul_snd, Prod.fst_sub, Prod.snd_sub, smul_eq_mul] at this
  have := h s hs t h0 h1 this
  exact Prod.ext (by simpa using this.1) (by simpa using this.2)

/-- the bounds of a lane with a bay in the right bound; Example. -/
def exLeft : List (ℝ × ℝ) := [(0, 1), (10, 1)]

/-- the right bound of the lane; Example. -/
def exRight : List (ℝ × ℝ) := [(0, -1), (2, 0), (8, 0), (10, -1)]

theorem exLeft_right (x : ℝ) (h0 : 0 ≤ x) (h1 : x ≤ 10) : ClearRight exLeft (x, 0) := by
  refine ⟨(x, 1), unique_of ⟨((0, 1), (10, 1)), by simp [exLeft, segs], x / 10, by linarith, by linarith, Prod.ext (by simp) (by simp)⟩ ?_, ?_⟩
  · intro s hs t _ _ h
    simp only [exLeft, segs, List.tail_cons, List.zip_cons_cons, List.zip_nil_right, List.mem_singleton] at hs
    subst hs
    simp only at h ⊢
    have : (t * 10 - x) * (t * 10 - x) ≤ 0 := by nlinarith
    have := mul_self_eq_zero.mp (le_antisymm this (mul_self_nonneg _))
    constructor <;> linarith
  · intro s hs _
    simp only [exLeft, segs, List.tail_cons, List.zip_cons_cons, List.zip_nil_right, List.mem_singleton] at hs
    subst hs
    norm_num [cross]

theorem ex_lane : Lane exLeft exRight := by
  have e1 : middlePoint exRight = (8, 0) := by norm_num [middlePoint, exRight]
  have e2 : middlePoint exRight.reverse = (2, 0) := by norm_num [middlePoint, exRight]
  have e3 : middlePoint exLeft = (5, 1) := by norm_num [middlePoint, exLeft]
  refine ⟨by rw [e1]; exact exLeft_right 8 (by norm_num) (by norm_num), by rw [e2]; exact exLeft_right 2 (by norm_num) (by norm_num), ?_⟩
  rw [e3]
  refine ⟨(5, 0), unique_of ⟨((2, 0), (8, 0)), by simp [exRight, segs], 1 / 2, by norm_num, by norm_num, by ext <;> norm_num⟩ ?_, ?_⟩
  · intro s hs t h0 h1 h
    simp only [exRight, segs, List.tail_cons, List.zip_cons_cons, List.zip_nil_right, List.mem_cons, List.not_mem_nil, or_false] at hs
    rcases hs with rfl | rfl | rfl
    · exfalso; simp only at h; nlinarith
    · simp only at h ⊢
      have : (2 + t * 6 - 5) * (2 + t * 6 - 5) ≤ 0 := by nlinarith
      have := mul_self_eq_zero.mp (le_antisymm this (mul_self_nonneg _))
      constructor <;> linarith
    · exfalso; simp only at h; nlinarith
  · intro s hs hx
    simp only [exRight, segs, List.tail_cons, List.zip_cons_cons, List.zip_nil_right, List.mem_cons, List.not_mem_nil, or_false] at hs
    rcases hs with rfl | rfl | rfl
    · exfalso
      obtain ⟨t, h0, h1, e⟩ := hx
      have := congrArg Prod.fst e
      simp only [Prod.fst_add, Prod.smul_fst, Prod.fst_sub, smul_eq_mul] at this
      linarith
    · norm_num [cross]
    · exfalso
      obtain ⟨t, h0, h1, e⟩ := hx
      have := congrArg Prod.fst e
      simp only [Prod.fst_add, Prod.smul_fst, Prod.fst_sub, smul_eq_mul] at this
      linarith

/-- the theorem for this lane, with the right bound in the wrong direction -/
example : align index2 exLeft exRight.reverse = .ok (exLeft, exRight) :=
  align_lane index2_ok (by simp [exLeft]) (by simp [exRight]) ex_lane (.inl rfl) (.inr rfl)

/-! ### disagreements -/

/-- a left bound; Example. -/
def badLeft : List (ℝ × ℝ) := [(0, 0), (10, 0)]

/-- a right bound that begins before the left one and comes from its other side; Example. -/
def badRight : List (ℝ × ℝ) := [(-20, 5), (-10, 1), (0, -1), (10, -1)]

theorem bad_segs {s : (ℝ × ℝ) × (ℝ × ℝ)} (hs : s ∈ segs badLeft) : s = ((0, 0), (10, 0)) := by
  simpa [badLeft, segs] using hs

theorem bad_left : ClearLeft badRight (5, 0) := by
  refine ⟨(5, -1), unique_of ⟨((0, -1), (10, -1)), by simp [badRight, segs], 1 / 2, by norm_num, by norm_num, by ext <;> norm_num⟩ ?_, ?_⟩
  · intro s hs t h0 h1 h
    simp only [badRight, segs, List.tail_cons, List.zip_cons_cons, List.zip_nil_right, List.mem_cons, List.not_mem_nil, or_false] at hs
    rcases hs with rfl | rfl | rfl
    · exfalso; simp only at h; nlinarith
    · exfalso; simp only at h; nlinarith
    · simp only at h ⊢
      have : (0 + t * 10 - 5) * (0 + t * 10 - 5) ≤ 0 := by nlinarith
      have := mul_self_eq_zero.mp (le_antisymm this (mul_self_nonneg _))
      constructor <;> linarith
  · intro s hs hx
    simp only [badRight, segs, List.tail_cons, List.zip_cons_cons, List.zip_nil_right, List.mem_cons, List.not_mem_nil, or_false] at hs
    rcases hs with rfl | rfl | rfl
    · exfalso
      obtain ⟨t, h0, h1, e⟩ := hx
      have := congrArg Prod.fst e
      simp only [Prod.fst_add, Prod.smul_fst, Prod.fst_sub, smul_eq_mul] at this
      linarith
    · exfalso
      obtain ⟨t, h0, h1, e⟩ := hx
      have := congrArg Prod.fst e
      simp only [Prod.fst_add, Prod.smul_fst, Prod.fst_sub, smul_eq_mul] at this
      linarith
    · norm_num [cross]

theorem bad_right1 : ClearRight badLeft (0, -1) := by
  refine ⟨(0, 0), unique_of ⟨((0, 0), (10, 0)), by simp [badLeft, segs], 0, by norm_num, by norm_num, by ext <;> norm_num⟩ ?_, ?_⟩
  · intro s hs t h0 h1 h
    rw [bad_segs hs] at h ⊢
    simp only at h ⊢
    have : t * t ≤ 0 := by nlinarith
    have := mul_self_eq_zero.mp (le_antisymm this (mul_self_nonneg _))
    constructor <;> linarith
  · intro s hs _
    rw [bad_segs hs]
    norm_num [cross]

theorem bad_right2 : ClearLeft badLeft (-10, 1) := by
  refine ⟨(0, 0), unique_of ⟨((0, 0), (10, 0)), by simp [badLeft, segs], 0, by norm_num, by norm_num, by ext <;> norm_num⟩ ?_, ?_⟩
  · intro s hs t h0 h1 h
    rw [bad_segs hs] at h ⊢
    simp only at h ⊢
    have : t ≤ 0 := by nlinarith
    constructor <;> linarith
  · intro s hs _
    rw [bad_segs hs]
    norm_num [cross]

/-- **Disagreement with C72.** The result depends on the direction the right bound is given in, and the bounds of the result can have opposite
directions. The left bound leads from (0, 0) to (10, 0), the right one comes from (-20, 5) and leads along it. Given in these directions they are
kept; with the right bound inverted, another of its four points is taken as its middle, and the left bound is inverted. -/
theorem align_direction_counterexample {ix : Index ℝ (ℝ × ℝ)} (hix : ix.Ok) :
    align ix badLeft badRight = .ok (badLeft, badRight) ∧ align ix badLeft badRight.reverse = .ok (badLeft.reverse, badRight) := by
  have e1 : middlePoint badRight = (0, -1) := by norm_num [middlePoint, badRight]
  have e2 : middlePoint badRight.reverse = (-10, 1) := by norm_num [middlePoint, badRight]
  have e3 : middlePoint badLeft = (5, 0) := by norm_num [middlePoint, badLeft]
  have e4 : middlePoint badLeft.reverse = (5, 0) := by norm_num [middlePoint, badLeft]
  obtain ⟨d1, h1, n1⟩ := signedDistance_right hix (by simp [badLeft]) bad_right1
  obtain ⟨d2, h2, n2⟩ := signedDistance_left hix (by simp [badLeft]) bad_right2
  obtain ⟨d3, h3, n3⟩ := signedDistance_left hix (by simp [badRight]) bad_left
  obtain ⟨d4, h4, n4⟩ := signedDistance_right hix (l := badRight.reverse) (by simp [badRight]) ((clear_reverse' _ _).mpr bad_left)
  constructor
  · unfold align
    rw [if_neg (by simp [badLeft, badRight]), e1]
    simp only [h1, bind, Except.bind]
    rw [if_neg (fun hc => hc.1 n1), e3]
    simp only [h3]
    rw [if_neg (fun hc => hc.1 n3)]
    rfl
  · unfold align
    rw [if_neg (by simp [badLeft, badRight]), e2]
    simp only [h2, bind, Except.bind]
    rw [if_pos ⟨not_lt.mpr n2.le, by simp [badLeft]⟩, e4]
    simp only [h4]
    rw [if_pos ⟨not_lt.mpr n4.le, by simp [badRight]⟩, List.reverse_reverse]
    rfl

theorem signedDistance_beside {ix : Index ℝ (ℝ × ℝ)} (hix : ix.Ok) {l : List (ℝ × ℝ)} (hl : l ≠ []) {p x : ℝ × ℝ}
    (hu : ∀ y, Closest l p y → y = x) (hne : x ≠ p) (h : ∀ s ∈ segs l, cross (s.2 - s.1) (p - s.1) = 0) :
    ∃ d, signedDistanceImpl ix l p = .ok d ∧ d.1 < 0 := by
  obtain ⟨s, y, b, h1, h2, h3, h4, h5⟩ := signedDistance_total hix hl p
  have e := hu y h2
  subst e
  have := clear_isLeftOf (v := false) h1 h3 (fun s hs _ => by unfold pointIsLeftOf; simp [h s hs]) h4
  subst this
  refine ⟨_, h5, ?_⟩
  have := lt_of_le_of_ne (dist_nonneg y p) fun hc => hne (dist_eq_zero.mp hc.symm)
  simpa using this

/-- **Disagreement with C72.** If the bounds are on one line behind each other, every further call inverts the right bound again. -/
theorem align_again_counterexample {ix : Index ℝ (ℝ × ℝ)} (hix : ix.Ok) :
    align ix [(0, 0), (1, 0)] [(2, 0), (3, 0)] = .ok ([(0, 0), (1, 0)], [(3, 0), (2, 0)]) ∧
      align ix [(0, 0), (1, 0)] [(3, 0), (2, 0)] = .ok ([(0, 0), (1, 0)], [(2, 0), (3, 0)]) := by
  have hseg : ∀ (a b : ℝ × ℝ) s, s ∈ segs [a, b] → s = (a, b) := by intro a b s hs; simpa [segs] using hs
  have e1 : middlePoint [(2, 0), (3, 0)] = (5 / 2, 0) := by norm_num [middlePoint]
  have e2 : middlePoint [(3, 0), (2, 0)] = (5 / 2, 0) := by norm_num [middlePoint]
  have e3 : middlePoint [(0, 0), (1, 0)] = (1 / 2, 0) := by norm_num [middlePoint]
  obtain ⟨d1, h1, n1⟩ := signedDistance_beside hix (l := [(0, 0), (1, 0)]) (by simp) (p := (5 / 2, 0)) (x := (1, 0))
    (unique_of ⟨((0, 0), (1, 0)), by simp [segs], 1, by norm_num, by norm_num, by ext <;> norm_num⟩ (by
      intro s hs t t0 t1 h
      rw [hseg _ _ s hs] at h ⊢
      simp only at h ⊢
      have : 1 ≤ t := by nlinarith
      constructor <;> linarith)) (by intro hc; have := congrArg Prod.fst hc; norm_num at this)
    (by intro s hs; rw [hseg _ _ s hs]; norm_num [cross])
  obtain ⟨d2, h2, n2⟩ := signedDistance_beside hix (l := [(2, 0), (3, 0)]) (by simp) (p := (1 / 2, 0)) (x := (2, 0))
    (unique_of ⟨((2, 0), (3, 0)), by simp [segs], 0, by norm_num, by norm_num, by ext <;> norm_num⟩ (by
      intro s hs t t0 t1 h
      rw [hseg _ _ s hs] at h ⊢
      simp only at h ⊢
      have : t ≤ 0 := by nlinarith
      constructor <;> linarith)) (by intro hc; have := congrArg Prod.fst hc; norm_num at this)
    (by intro s hs; rw [hseg _ _ s hs]; norm_num [cross])
  obtain ⟨d3, h3, n3⟩ := signedDistance_beside hix (l := [(3, 0), (2, 0)]) (by simp) (p := (1 / 2, 0)) (x := (2, 0))
    (unique_of ⟨((3, 0), (2, 0)), by simp [segs], 1, by norm_num, by norm_num, by ext <;> norm_num⟩ (by
      intro s hs t t0 t1 h
      rw [hseg _ _ s hs] at h ⊢
      simp only at h ⊢
      have : 1 ≤ t := by nlinarith
      constructor <;> linarith)) (by intro hc; have := congrArg Prod.fst hc; norm_num at this)
    (by intro s hs; rw [hseg _ _ s hs]; norm_num [cross])
  constructor
  · unfold align
    rw [if_neg (by simp), e1]
    simp only [h1, bind, Except.bind]
    rw [if_neg (fun hc => hc.1 n1), e3]
    simp only [h2]
    rw [if_pos ⟨not_lt.mpr n2.le, by simp⟩]
    rfl
  · unfold align
    rw [if_neg (by simp), e2]
    simp only [h1, bind, Except.bind]
    rw [if_neg (fun hc => hc.1 n1), e3]
    simp only [h3]
    rw [if_pos ⟨not_lt.mpr n3.le, by simp⟩]
    rfl

end Verif.Geo
