import Verif.Geo.Nearest
import Mathlib.Algebra.Order.Ring.Rat

/-!
C43: positions along a linestring. Model of rangedLength, lengthRatios, accumulatedLengthRatios, interpolatedPointAtDistance and
nearestPointAtDistance, lanelet2_core/include/lanelet2_core/geometry/impl/LineString.h 609-690, with exact arithmetic.
-/
namespace Verif.Geo

section
variable {F V : Type} [Field F] [LinearOrder F] [IsStrictOrderedRing F] [AddCommGroup V] [Module F V] [S : Space F V]

/-! ### model -/

/-- rangedLength, impl/LineString.h 609-614 with forEachPair (GeometryHelper.h 14-23); also length() of a linestring. The order of summation
does not matter with exact arithmetic. -/
def lineLen : List V → F
  | x :: y :: l => dist x y + lineLen (y :: l)
  | _ => 0

/-- lengthRatios, impl/LineString.h 616-631. If all of three or more points are equal, the code divides by zero (the ratios are NaN). -/
def lengthRatios (l : List V) : List F :=
  if l.length ≤ 1 then [] else
  if l.length = 2 then [1] else
  (l.zip l.tail).map fun s => dist s.1 s.2 / lineLen l

/-- forEachPair with `l2 += l1`, impl/LineString.h 636 -/
def accFrom {F : Type} [Add F] : F → List F → List F
  | _, [] => []
  | a, x :: l => (x + a) :: accFrom (x + a) l

/-- accumulatedLengthRatios, impl/LineString.h 633-638 -/
def accumulatedLengthRatios (l : List V) : List F :=
  match lengthRatios l with
  | [] => []
  | x :: r => x :: accFrom x r

/-- the loop of interpolatedPointAtDistance, impl/LineString.h 648-663; `eps` is 1e-8 -/
def interpLoop (eps d : F) : F → V → List V → V
  | _, x, [] => x
  | cum, x, y :: l =>
    let len := dist x y
    let cum := cum + len
    if d ≤ cum then
      let rem := d - (cum - len)
      if rem < eps then x else x + (rem / len) • (y - x)
    else interpLoop eps d cum y l

/-- interpolatedPointAtDistance, impl/LineString.h 640-664 -/
def interpolatedPointAtDistance (eps : F) (l : List V) (d : F) : Except Fault V :=
  match if d < 0 then l.reverse else l with
  | [] => .error .ub
  | x :: r => .ok (interpLoop eps (if d < 0 then -d else d) 0 x r)

/-- the loop of nearestPointAtDistance, impl/LineString.h 674-688 -/
def nearestLoop (d : F) : F → V → List V → V
  | _, x, [] => x
  | cum, x, y :: l =>
    let len := dist x y
    let cum := cum + len
    if d ≤ cum then
      let rem := d - (cum - len)
      if len / 2 < rem then y else x
    else nearestLoop d cum y l

/-- nearestPointAtDistance, impl/LineString.h 666-690 -/
def nearestPointAtDistance (l : List V) (d : F) : Except Fault V :=
  match if d < 0 then l.reverse else l with
  | [] => .error .ub
  | x :: r => .ok (nearestLoop (if d < 0 then -d else d) 0 x r)

/-! ### specification -/

/-- the point `p` of a linestring is at length `s` from the start -/
inductive At [Space F V] : List V → F → V → Prop
  | single (x : V) : At [x] 0 x
  | seg (x y : V) (l : List V) (t : F) : 0 ≤ t → t ≤ 1 → At (x :: y :: l) (t * dist x y) (x + t • (y - x))
  | later (x y : V) (l : List V) (s : F) (p : V) : At (y :: l) s p → At (x :: y :: l) (dist x y + s) p

/-- `p` is a point of the list at length `s` from the start -/
inductive VertexAt [Space F V] : List V → F → V → Prop
  | head (x : V) (l : List V) : VertexAt (x :: l) 0 x
  | later (x y : V) (l : List V) (s : F) (p : V) : VertexAt (y :: l) s p → VertexAt (x :: y :: l) (dist x y + s) p

/-! ### proofs -/

theorem lineLen_nonneg : ∀ l : List V, 0 ≤ lineLen l
  | [] => le_refl _
  | [_] => le_refl _
  | x :: y :: l => by
    rw [lineLen]
    exact add_nonneg (dist_nonneg x y) (lineLen_nonneg (y :: l))

theorem at_range {l : List V} {s : F} {p : V} (h : At l s p) : 0 ≤ s ∧ s ≤ lineLen l := by
  induction h with
  | single x => exact ⟨le_refl _, le_refl _⟩
  | seg x y l t h0 h1 =>
    have hd := dist_nonneg x y
    have hl := lineLen_nonneg (y :: l)
    rw [lineLen]
    exact ⟨mul_nonneg h0 hd, by nlinarith⟩
  | later x y l s p _ ih =>
    rw [lineLen]
    exact ⟨add_nonneg (dist_nonneg x y) ih.1, by linarith [ih.2]⟩

theorem at_head (x : V) (l : List V) : At (x :: l) 0 x := by
  cases l with
  | nil => exact .single x
  | cons y l =>
    have := At.seg x y l 0 (le_refl _) zero_le_one
    simpa using this

theorem at_onLine {l : List V} {s : F} {p : V} (h : At l s p) : OnLine l p := by
  induction h with
  | single x => exact ⟨(x, x), by simp [segs], onSegment_left _ _⟩
  | seg x y l t h0 h1 => exact ⟨(x, y), by simp [segs], t, h0, h1, rfl⟩
  | later x y l s p _ ih =>
    obtain ⟨s, hs, hx⟩ := ih
    cases l with
    | nil =>
      simp only [segs, List.mem_singleton] at hs
      subst hs
      rw [onSegment_self.mp hx]
      exact ⟨(x, y), by simp [segs], onSegment_right _ _⟩
    | cons z l => exact ⟨s, List.mem_cons_of_mem _ hs, hx⟩

/-- at least one position for every point of the linestring -/
theorem onLine_at {l : List V} {p : V} (h : OnLine l p) : ∃ s, At l s p := by
  induction l with
  | nil => obtain ⟨s, hs, -⟩ := h; cases hs
  | cons x l ih =>
    obtain ⟨s, hs, hx⟩ := h
    cases l with
    | nil =>
      simp only [segs, List.mem_singleton] at hs
      subst hs
      rw [onSegment_self.mp hx]
      exact ⟨0, .single x⟩
    | cons y l =>
      rcases List.mem_cons.mp hs with rfl | hs
      · obtain ⟨t, h0, h1, rfl⟩ := hx
        exact ⟨_, .seg x y l t h0 h1⟩
      · cases l with
        | nil => cases hs
        | cons z l =>
          obtain ⟨s, h⟩ := ih ⟨s, hs, hx⟩
          exact ⟨_, .later _ _ _ _ _ h⟩

theorem lineLen_append (l : List V) (x y : V) (r : List V) :
    lineLen (l ++ x :: y :: r) = lineLen (l ++ [x]) + dist x y + lineLen (y :: r) := by
  induction l with
  | nil => simp [lineLen]
  | cons a l ih =>
    cases l with
    | nil => simp [lineLen]; ring
    | cons b l =>
      simp only [List.cons_append, lineLen] at ih ⊢
      rw [ih]; ring

theorem lineLen_reverse (l : List V) : lineLen l.reverse = lineLen l := by
  induction l with
  | nil => rfl
  | cons x l ih =>
    cases l with
    | nil => rfl
    | cons y l =>
      rw [List.reverse_cons, List.reverse_cons, List.append_assoc]
      show lineLen (l.reverse ++ y :: x :: []) = _
      rw [lineLen_append, ← List.reverse_cons, ih, lineLen, dist_comm y x]
      simp [lineLen]; ring

theorem at_append {l : List V} {s : F} {p : V} (x : V) (h : At l s p) : At (l ++ [x]) s p := by
  induction h with
  | single y =>
    exact at_head y [x]
  | seg a b l t h0 h1 => exact .seg a b (l ++ [x]) t h0 h1
  | later a b l s p _ ih => exact .later a b (l ++ [x]) s p ih

theorem at_last (l : List V) (x y : V) (t : F) (h0 : 0 ≤ t) (h1 : t ≤ 1) :
    At (l ++ [x, y]) (lineLen (l ++ [x]) + t * dist x y) (x + t • (y - x)) := by
  induction l with
  | nil => simpa [lineLen] using At.seg x y [] t h0 h1
  | cons a l ih =>
    cases l with
    | nil =>
      have := At.later a x [y] _ _ ih
      simpa [lineLen] using this
    | cons b l =>
      have := At.later a b (l ++ [x, y]) _ _ ih
      simp only [List.cons_append, lineLen] at this ⊢
      rw [add_assoc]
      exact this

/-- positions counted from the end -/
theorem at_reverse {l : List V} {s : F} {p : V} (h : At l s p) : At l.reverse (lineLen l - s) p := by
  induction h with
  | single x => simpa [lineLen] using At.single x
  | seg x y l t h0 h1 =>
    rw [List.reverse_cons, List.reverse_cons, List.append_assoc]
    show At (l.reverse ++ [y, x]) _ _
    have h := at_last l.reverse y x (1 - t) (by linarith) (by linarith)
    have e1 : lineLen (l.reverse ++ [y]) + (1 - t) * dist y x = lineLen (x :: y :: l) - t * dist x y := by
      rw [← List.reverse_cons, lineLen_reverse, lineLen, dist_comm y x]; ring
    have e2 : y + (1 - t) • (x - y) = x + t • (y - x) := by module
    rw [e1, e2] at h
    exact h
  | later x y l s p _ ih =>
    rw [List.reverse_cons]
    have := at_append x ih
    rw [lineLen, show dist x y + lineLen (y :: l) - (dist x y + s) = lineLen (y :: l) - s by ring]
    exact this

theorem interpLoop_at {eps d : F} (heps : 0 < eps) : ∀ (l : List V) (x : V) (cum : F), cum ≤ d → ∃ s,
    At (x :: l) s (interpLoop eps d cum x l) ∧ s ≤ min (d - cum) (lineLen (x :: l)) ∧ min (d - cum) (lineLen (x :: l)) - eps < s := by
  intro l
  induction l with
  | nil =>
    intro x cum h
    refine ⟨0, .single x, ?_, ?_⟩
    · simp only [lineLen]; exact le_min (by linarith) (le_refl _)
    · simp only [lineLen]; rw [min_eq_right (by linarith)]; linarith
  | cons y l ih =>
    intro x cum h
    have hd := dist_nonneg x y
    have hl := lineLen_nonneg (y :: l)
    rw [interpLoop]
    simp only
    split
    · rename_i hle
      have e : d - (cum + dist x y - dist x y) = d - cum := by ring
      rw [e]
      have hmin : min (d - cum) (lineLen (x :: y :: l)) = d - cum := by
        rw [lineLen]; exact min_eq_left (by linarith)
      rw [hmin]
      split
      · rename_i hlt
        exact ⟨0, at_head x _, by linarith, by linarith⟩
      · rename_i hge
        have hge := not_lt.mp hge
        have hpos : 0 < dist x y := by linarith
        refine ⟨(d - cum) / dist x y * dist x y, .seg x y l _ (div_nonneg (by linarith) hd) ((div_le_one hpos).mpr (by linarith)), ?_, ?_⟩
        · rw [div_mul_cancel₀ _ hpos.ne']
        · rw [div_mul_cancel₀ _ hpos.ne']; linarith
    · rename_i hle
      have hle := not_le.mp hle
      obtain ⟨s, h1, h2, h3⟩ := ih y (cum + dist x y) hle.le
      refine ⟨dist x y + s, .later _ _ _ _ _ h1, ?_, ?_⟩
      · rw [lineLen]
        refine le_min ?_ ?_
        · have := le_trans h2 (min_le_left _ _); linarith
        · have := le_trans h2 (min_le_right _ _); linarith
      · rw [lineLen]
        have : min (d - cum) (dist x y + lineLen (y :: l)) = dist x y + min (d - (cum + dist x y)) (lineLen (y :: l)) := by
          rw [← min_add_add_left]
          congr 1
          ring
        rw [this]; linarith

/-- C43: the point is on the linestring, at the wanted length from the start, at most `eps` before it; beyond the end it is the end. -/
theorem interpolated_at {eps d : F} (heps : 0 < eps) {l : List V} (hl : l ≠ []) (hd : 0 ≤ d) :
    ∃ p s, interpolatedPointAtDistance eps l d = .ok p ∧ At l s p ∧ s ≤ min d (lineLen l) ∧ min d (lineLen l) - eps < s := by
  cases l with
  | nil => exact absurd rfl hl
  | cons x l =>
    obtain ⟨s, h1, h2, h3⟩ := interpLoop_at heps l x 0 hd
    rw [sub_zero] at h2 h3
    refine ⟨_, s, ?_, h1, h2, h3⟩
    unfold interpolatedPointAtDistance
    rw [if_neg (not_lt.mpr hd), if_neg (not_lt.mpr hd)]

/-- C43: for negative distances the length is counted from the end. -/
theorem interpolated_at_neg {eps d : F} (heps : 0 < eps) {l : List V} (hl : l ≠ []) (hd : d < 0) :
    ∃ p s, interpolatedPointAtDistance eps l d = .ok p ∧ At l s p ∧ max (lineLen l + d) 0 ≤ s ∧ s < max (lineLen l + d) 0 + eps := by
  have hr : l.reverse ≠ [] := by simpa using hl
  unfold interpolatedPointAtDistance
  rw [if_pos hd, if_pos hd]
  cases hc : l.reverse with
  | nil => exact absurd hc hr
  | cons x r =>
    obtain ⟨s, h1, h2, h3⟩ := interpLoop_at heps r x 0 (d := -d) (by linarith)
    rw [sub_zero] at h2 h3
    rw [← hc] at h1 h2 h3
    have h4 := at_reverse h1
    rw [List.reverse_reverse] at h4
    rw [lineLen_reverse] at h2 h3 h4
    refine ⟨_, _, rfl, h4, ?_, ?_⟩
    · refine max_le ?_ ?_
      · have := le_trans h2 (min_le_left _ _); linarith
      · have := le_trans h2 (min_le_right _ _); linarith
    · rcases le_total (-d) (lineLen l) with h | h
      · rw [min_eq_left h] at h3
        have := le_max_left (lineLen l + d) 0
        linarith
      · rw [min_eq_right h] at h3
        have := le_max_right (lineLen l + d) 0
        linarith

theorem vertexAt_at {l : List V} {s : F} {p : V} (h : VertexAt l s p) : At l s p ∧ p ∈ l := by
  induction h with
  | head x l => exact ⟨at_head x l, by simp⟩
  | later x y l s p _ ih => exact ⟨.later _ _ _ _ _ ih.1, List.mem_cons_of_mem _ ih.2⟩

theorem mem_vertexAt {l : List V} {p : V} (h : p ∈ l) : ∃ s, VertexAt l s p := by
  induction l with
  | nil => cases h
  | cons x l ih =>
    rcases List.mem_cons.mp h with rfl | h
    · exact ⟨0, .head _ l⟩
    · cases l with
      | nil => cases h
      | cons y l =>
        obtain ⟨s, h⟩ := ih h
        exact ⟨_, .later _ _ _ _ _ h⟩

theorem nearestLoop_spec {d : F} : ∀ (l : List V) (x : V) (cum : F), cum ≤ d → ∃ s,
    VertexAt (x :: l) s (nearestLoop d cum x l) ∧ ∀ s' p', VertexAt (x :: l) s' p' → |s - (d - cum)| ≤ |s' - (d - cum)| := by
  intro l
  induction l with
  | nil =>
    intro x cum h
    refine ⟨0, .head x [], ?_⟩
    intro s' p' h'
    cases h' with
    | head => exact le_refl _
  | cons y l ih =>
    intro x cum h
    have hd := dist_nonneg x y
    rw [nearestLoop]
    simp only
    split
    · rename_i hle
      have e : d - (cum + dist x y - dist x y) = d - cum := by ring
      rw [e]
      have habs : |dist x y - (d - cum)| = dist x y - (d - cum) := abs_of_nonneg (by linarith)
      have habs0 : |0 - (d - cum)| = d - cum := by rw [zero_sub, abs_neg, abs_of_nonneg (by linarith)]
      -- all other points are behind y
      have hothers : ∀ s' p', VertexAt (x :: y :: l) s' p' → s' = 0 ∨ dist x y - (d - cum) ≤ |s' - (d - cum)| := by
        intro s' p' h'
        cases h' with
        | head => exact .inl rfl
        | later _ _ _ s _ h'' =>
          have := (at_range (vertexAt_at h'').1).1
          right
          rw [abs_of_nonneg (by linarith)]; linarith
      split
      · rename_i hlt
        refine ⟨dist x y + 0, .later _ _ _ _ _ (.head y l), ?_⟩
        intro s' p' h'
        rw [add_zero, habs]
        rcases hothers s' p' h' with rfl | h
        · rw [habs0]; linarith
        · exact h
      · rename_i hlt
        refine ⟨0, .head x _, ?_⟩
        intro s' p' h'
        rw [habs0]
        rcases hothers s' p' h' with rfl | h
        · rw [habs0]
        · have hlt := not_lt.mp hlt; linarith
    · rename_i hle
      have hle := not_le.mp hle
      obtain ⟨s, h1, h2⟩ := ih y (cum + dist x y) hle.le
      refine ⟨dist x y + s, .later _ _ _ _ _ h1, ?_⟩
      intro s' p' h'
      have e : dist x y + s - (d - cum) = s - (d - (cum + dist x y)) := by ring
      rw [e]
      cases h' with
      | head =>
        have := h2 0 y (.head y l)
        refine le_trans this ?_
        rw [zero_sub, abs_neg, zero_sub, abs_neg, abs_of_nonneg (by linarith), abs_of_nonneg (by linarith)]
        linarith
      | later _ _ _ s0 _ h'' =>
        have := h2 s0 p' h''
        rw [show dist x y + s0 - (d - cum) = s0 - (d - (cum + dist x y)) by ring]
        exact this

/-- C43: nearestPointAtDistance returns a point of the linestring whose length from the start is closest to the wanted one. -/
theorem nearestPoint_spec {d : F} {l : List V} (hl : l ≠ []) (hd : 0 ≤ d) :
    ∃ p s, nearestPointAtDistance l d = .ok p ∧ VertexAt l s p ∧ ∀ s' p', VertexAt l s' p' → |s - d| ≤ |s' - d| := by
  cases l with
  | nil => exact absurd rfl hl
  | cons x l =>
    obtain ⟨s, h1, h2⟩ := nearestLoop_spec l x 0 hd
    rw [sub_zero] at h2
    refine ⟨_, s, ?_, h1, h2⟩
    unfold nearestPointAtDistance
    rw [if_neg (not_lt.mpr hd), if_neg (not_lt.mpr hd)]

/-- C43: negative distances are counted from the end. -/
theorem nearestPoint_neg {d : F} (l : List V) (hd : d < 0) : nearestPointAtDistance l d = nearestPointAtDistance l.reverse (-d) := by
  unfold nearestPointAtDistance
  rw [if_pos hd, if_pos hd, if_neg (by linarith), if_neg (by linarith)]

theorem sum_zip (l : List V) : ((l.zip l.tail).map fun s => dist s.1 s.2).sum = lineLen l := by
  induction l with
  | nil => rfl
  | cons x l ih =>
    cases l with
    | nil => rfl
    | cons y l =>
      rw [lineLen, ← ih]
      simp

/-- C43: one ratio per segment; they are not negative and sum to one. -/
theorem lengthRatios_spec {l : List V} (h : 0 < lineLen l) :
    (lengthRatios l).length = l.length - 1 ∧ (∀ r ∈ lengthRatios l, 0 ≤ r) ∧ (lengthRatios l).sum = 1 ∧
      ∀ i (a b : V), l[i]? = some a → l[i + 1]? = some b → (lengthRatios l)[i]? = some (dist a b / lineLen l) := by
  have hlen : ¬ l.length ≤ 1 := by
    intro hc
    match l, hc with
    | [], _ => exact absurd h (lt_irrefl _)
    | [_], _ => exact absurd h (lt_irrefl _)
  unfold lengthRatios
  rw [if_neg hlen]
  split
  · rename_i h2
    match l, h2 with
    | [x, y], _ =>
      refine ⟨rfl, by simp, by simp, ?_⟩
      intro i a b h1 h3
      cases i with
      | zero =>
        simp at h1 h3
        subst h1; subst h3
        have h : 0 < dist x y + 0 := h
        rw [add_zero] at h
        simp [lineLen, div_self h.ne']
      | succ i => simp at h3
  · refine ⟨by simp, ?_, ?_, ?_⟩
    · intro r hr
      obtain ⟨s, -, rfl⟩ := List.mem_map.mp hr
      exact div_nonneg (dist_nonneg _ _) h.le
    · have : ((l.zip l.tail).map fun s => dist s.1 s.2 / lineLen l) =
          ((l.zip l.tail).map fun s => dist s.1 s.2).map fun x => x / lineLen l := by simp
      rw [this]
      have key : ∀ (xs : List F) (c : F), (xs.map fun x => x / c).sum = xs.sum / c := by
        intro xs c
        induction xs with
        | nil => simp
        | cons x xs ih => rw [List.map_cons, List.sum_cons, List.sum_cons, ih]; ring
      rw [key, sum_zip, div_self h.ne']
    · intro i a b h1 h3
      rw [List.getElem?_map]
      have : (l.zip l.tail)[i]? = some (a, b) := by
        rw [List.getElem?_zip_eq_some]
        exact ⟨h1, by rw [List.getElem?_tail]; exact h3⟩
      rw [this]; rfl

theorem accFrom_spec : ∀ (l : List F) (a : F), (accFrom a l).length = l.length ∧
    ∀ i c, (accFrom a l)[i]? = some c → c = a + (l.take (i + 1)).sum := by
  intro l
  induction l with
  | nil => intro a; exact ⟨rfl, by simp [accFrom]⟩
  | cons x l ih =>
    intro a
    obtain ⟨h1, h2⟩ := ih (x + a)
    refine ⟨by simp [accFrom, h1], ?_⟩
    intro i c h
    cases i with
    | zero => simp [accFrom] at h; rw [← h]; simp [add_comm]
    | succ i =>
      rw [accFrom, List.getElem?_cons_succ] at h
      rw [h2 i c h, List.take_succ_cons, List.sum_cons]; ring

/-- the accumulated ratios are the sums of the first ratios -/
theorem accumulated_eq (l : List V) : (accumulatedLengthRatios l).length = (lengthRatios l).length ∧
    ∀ i c, (accumulatedLengthRatios l)[i]? = some c → c = ((lengthRatios l).take (i + 1)).sum := by
  unfold accumulatedLengthRatios
  cases lengthRatios l with
  | nil => exact ⟨rfl, by simp⟩
  | cons x r =>
    simp only
    obtain ⟨h1, h2⟩ := accFrom_spec r x
    refine ⟨by simp [h1], ?_⟩
    intro i c h
    cases i with
    | zero => simp at h; rw [← h]; simp
    | succ i =>
      rw [List.getElem?_cons_succ] at h
      rw [h2 i c h, List.take_succ_cons, List.sum_cons]

theorem sum_take_le {xs : List F} (h : ∀ x ∈ xs, 0 ≤ x) : ∀ {i j : Nat}, i ≤ j → (xs.take i).sum ≤ (xs.take j).sum := by
  induction xs with
  | nil => intro i j _; simp
  | cons x xs ih =>
    intro i j hij
    have hx := h x (by simp)
    have h' : ∀ y ∈ xs, 0 ≤ y := fun y hy => h y (by simp [hy])
    cases i with
    | zero =>
      cases j with
      | zero => exact le_refl _
      | succ j =>
        have := ih h' (Nat.zero_le j)
        simp only [List.take_zero, List.sum_nil, List.take_succ_cons, List.sum_cons] at this ⊢
        linarith
    | succ i =>
      cases j with
      | zero => omega
      | succ j =>
        have := ih h' (Nat.le_of_succ_le_succ hij)
        simp only [List.take_succ_cons, List.sum_cons]
        linarith

/-- C43: the accumulated ratios do not decrease and end in one. -/
theorem accumulated_spec {l : List V} (h : 0 < lineLen l) :
    (accumulatedLengthRatios l).length = l.length - 1 ∧ (accumulatedLengthRatios l).getLast? = some 1 ∧
    ∀ (i j : Nat) (a b : F), i ≤ j → (accumulatedLengthRatios l)[i]? = some a → (accumulatedLengthRatios l)[j]? = some b → a ≤ b := by
  obtain ⟨h1, h2⟩ := accumulated_eq l
  obtain ⟨h3, h4, h5, -⟩ := lengthRatios_spec h
  refine ⟨by rw [h1, h3], ?_, ?_⟩
  · have hne : lengthRatios l ≠ [] := by intro hc; rw [hc] at h5; simp at h5
    have hpos : 0 < (lengthRatios l).length := List.length_pos_iff.mpr hne
    rw [List.getLast?_eq_getElem?, h1]
    have hlt : (lengthRatios l).length - 1 < (accumulatedLengthRatios l).length := by rw [h1]; omega
    rw [List.getElem?_eq_getElem hlt]
    have := h2 _ _ (List.getElem?_eq_getElem hlt)
    rw [this, Nat.sub_add_cancel hpos, List.take_length, h5]
  · intro i j a b hij ha hb
    rw [h2 i a ha, h2 j b hb]
    exact sum_take_le h4 (by omega)

/-! ### examples -/

example : interpolatedPointAtDistance (1 / 10 ^ 8) [(0 : ℚ), 4, 4, 10] 7 = .ok 7 ∧
    interpolatedPointAtDistance (1 / 10 ^ 8) [(0 : ℚ), 4, 4, 10] (-1) = .ok 9 ∧
    interpolatedPointAtDistance (1 / 10 ^ 8) [(0 : ℚ), 4, 4, 10] 70 = .ok 10 := by decide +kernel

example : nearestPointAtDistance [(0 : ℚ), 4, 4, 10] 7 = .ok 4 ∧ nearestPointAtDistance [(0 : ℚ), 4, 4, 10] (-2) = .ok 10 := by
  decide +kernel

example : accumulatedLengthRatios [(0 : ℚ), 4, 4, 10] = [4 / 10, 4 / 10, 1] := by decide +kernel

end
end Verif.Geo
