import Verif.Compound.Lemmas

/-!
# C12: compound linestrings show the concatenation without repeated points

Specification: `noRep` reduces every run of equal successive elements to one element. The sequence a
compound linestring is supposed to show is `view`.
-/
set_option linter.unusedSectionVars false

namespace Verif.Compound
variable {α : Type} [DecidableEq α]

/-- every run of equal successive elements is reduced to one -/
def noRep : List α → List α
  | [] => []
  | [a] => [a]
  | a :: b :: l => if a = b then noRep (b :: l) else a :: noRep (b :: l)

/-- What a compound linestring shows: the concatenation of its elements without repetitions,
backwards if it is inverted. -/
def view (s : CLS α) : List α :=
  if s.inverted then (noRep s.ls.flatten).reverse else noRep s.ls.flatten

theorem noRep_eq_dd (l : List α) : noRep l = dd l := by
  fun_induction noRep l with
  | case1 => rfl
  | case2 => rfl
  | case3 b l ih => rw [dd_cons_cons, if_pos rfl, ih]
  | case4 a b l h ih => rw [dd_cons_cons, if_neg h, ih]

theorem view_eq_vw (s : CLS α) : view s = vw s := by simp only [view, vw, noRep_eq_dd]

/-- sanity of the specification: no two successive elements of `noRep l` are equal -/
theorem noRep_noRepetition (l : List α) (i : Nat) (a b : α)
    (ha : (noRep l)[i]? = some a) (hb : (noRep l)[i + 1]? = some b) : a ≠ b := by
  fun_induction noRep l generalizing i a b with
  | case1 => simp at ha
  | case2 x => simp at hb
  | case3 y l ih => exact ih i a b ha hb
  | case4 x y l h ih =>
    cases i with
    | zero =>
      simp only [List.getElem?_cons_zero, Option.some.injEq] at ha
      subst ha
      simp only [List.getElem?_cons_succ, Nat.zero_add] at hb
      have : (noRep (y :: l))[0]? = some y := by
        rw [noRep_eq_dd]; obtain ⟨t, ht⟩ := dd_head y l; rw [ht]; rfl
      rw [this] at hb
      simp only [Option.some.injEq] at hb
      rw [← hb]; exact h
    | succ i => exact ih i a b ha hb

/-- C12: walking from `begin()` to `end()` terminates, never leaves the containers, and yields the
view (covers empty elements and any repetition, both orientations). -/
theorem compound_points (s : CLS α) : s.points = some (view s) := by
  rw [view_eq_vw]
  have := rf_collect (s := s) (vw s).length (rf_begin s) (by omega)
  simpa [CLS.points] using this

/-- C12: `size()` is the length of the view. -/
theorem compound_size (s : CLS α) : s.size = some (view s).length := by
  rw [view_eq_vw]
  have := rf_distance (rf_begin s) (rf_end s)
  simp only [CLS.size, this, Option.bind_eq_bind, Option.bind_some]
  rw [if_neg (by omega)]
  congr 1

/-- C12: `numSegments()`: one less than the number of points, 0 for an empty linestring -/
theorem compound_numSegments (s : CLS α) : s.numSegments = some ((view s).length - 1) := by
  simp only [CLS.numSegments, compound_size, Option.bind_eq_bind, Option.bind_some, Option.pure_def]
  congr 1
  omega

/-- C12: `empty()` -/
theorem compound_empty (s : CLS α) : s.empty = some (decide (view s = [])) := by
  simp only [CLS.empty, compound_size, Option.bind_eq_bind, Option.bind_some]
  cases view s <;> rfl

/-- C12: random access. -/
theorem compound_at (s : CLS α) (i : Nat) (h : i < (view s).length) :
    s.at i = some (view s)[i] := by
  rw [← List.getElem?_eq_getElem h]
  rw [view_eq_vw] at *
  obtain ⟨it, hit⟩ := rf_exists (s := s) (k := i) (by omega)
  have := rf_advance (rf_begin s) hit
  simp only [Int.ofNat_zero, Int.sub_zero, Int.natCast_zero] at this
  simp only [CLS.at, this, Option.bind_eq_bind, Option.bind_some, rf_deref hit h]

/-- C12: `front()` and `back()` of a non-empty compound linestring. -/
theorem compound_front_back (s : CLS α) (h : view s ≠ []) :
    s.front = some ((view s).head h) ∧ s.back = some ((view s).getLast h) := by
  have hpos : 0 < (view s).length := List.length_pos_iff.mpr h
  rw [← List.head?_eq_some_head, ← List.getLast?_eq_some_getLast, List.head?_eq_getElem?,
    List.getLast?_eq_getElem?]
  rw [view_eq_vw] at *
  refine ⟨rf_deref (rf_begin s) hpos, ?_⟩
  obtain ⟨it, hit⟩ := rf_exists (s := s) (k := (vw s).length - 1) (by omega)
  have := rf_dec hit (by rw [Nat.sub_add_cancel hpos]; exact rf_end s)
  simp only [CLS.back, this, Option.bind_eq_bind, Option.bind_some]
  exact rf_deref hit (by omega)

/-- C12: `segment(i)` joins the `i`-th point and its successor; the last one joins back to front. -/
theorem compound_segment (s : CLS α) (i : Nat) (h : i < (view s).length) :
    s.segment i = some ((view s)[i],
      if h' : i + 1 < (view s).length then (view s)[i + 1] else (view s)[0]) := by
  have h1 : (view s)[i]? = some (view s)[i] := List.getElem?_eq_getElem h
  have h2 : (view s)[if i + 1 < (view s).length then i + 1 else 0]? =
      some (if h' : i + 1 < (view s).length then (view s)[i + 1] else (view s)[0]) := by
    split
    · rename_i h'; exact List.getElem?_eq_getElem h'
    · exact List.getElem?_eq_getElem _
  have hs := compound_size s
  generalize (if h' : i + 1 < (view s).length then (view s)[i + 1] else (view s)[0]) = y at *
  generalize (view s)[i] = x at *
  rw [view_eq_vw] at *
  obtain ⟨it, hit⟩ := rf_exists (s := s) (k := i) (by omega)
  have e1 := rf_advance (rf_begin s) hit
  simp only [Int.ofNat_zero, Int.sub_zero, Int.natCast_zero] at e1
  simp only [CLS.segment, e1, hs, Option.bind_eq_bind, Option.bind_some]
  by_cases hl : i + 1 = (vw s).length
  · rw [if_pos hl]
    rw [if_neg (by omega)] at h2
    simp only [Option.bind_some, rf_deref hit (by omega), h1, rf_deref (rf_begin s) (show 0 < _ by omega),
      h2]; rfl
  · rw [if_neg hl]
    rw [if_pos (by omega)] at h2
    obtain ⟨it', hit'⟩ := rf_exists (s := s) (k := i + 1) (by omega)
    have e2 := rf_advance hit hit'
    rw [show ((i + 1 : Nat) : Int) - i = 1 by omega] at e2
    simp only [e2, Option.bind_some, rf_deref hit (by omega), h1, rf_deref hit' (by omega), h2]; rfl

/-- C12: iterators. For each `k` up to the size there is a `k`-th iterator; `++`, `--`, `+=`,
difference and `*` on these iterators behave like on indices into the view. -/
theorem compound_iterators (s : CLS α) :
    ∃ nth : Nat → RFIt,
      nth 0 = s.begin ∧ nth (view s).length = s.endIt ∧
      (∀ k (h : k < (view s).length), (nth k).deref s.ls = some (view s)[k]) ∧
      (∀ k, k < (view s).length → (nth k).increment s.ls = some (nth (k + 1))) ∧
      (∀ k, k < (view s).length → (nth (k + 1)).decrement s.ls = some (nth k)) ∧
      (∀ j k, j ≤ (view s).length → k ≤ (view s).length →
        (nth j).advance s.ls ((k : Int) - j) = some (nth k) ∧
        (nth j).distanceTo s.ls (nth k) = some ((k : Int) - j) ∧
        (nth j = nth k ↔ j = k)) := by
  rw [view_eq_vw]
  have ex : ∀ k, ∃ it, k ≤ (vw s).length → IsNthRF s k it := by
    intro k
    by_cases hk : k ≤ (vw s).length
    · obtain ⟨it, h⟩ := rf_exists hk; exact ⟨it, fun _ => h⟩
    · exact ⟨s.begin, fun h => absurd h hk⟩
  refine ⟨fun k => Classical.choose (ex k), ?_⟩
  have hn : ∀ k, k ≤ (vw s).length → IsNthRF s k (Classical.choose (ex k)) :=
    fun k => Classical.choose_spec (ex k)
  refine ⟨rf_unique (hn 0 (by omega)) (rf_begin s),
    rf_unique (hn _ (Nat.le_refl _)) (rf_end s), ?_, ?_,
    ?_, ?_⟩
  · intro k h
    rw [rf_deref (hn k (by omega)) h, List.getElem?_eq_getElem h]
  · intro k h; exact rf_inc (hn k (by omega)) (hn (k + 1) (by omega))
  · intro k h; exact rf_dec (hn k (by omega)) (hn (k + 1) (by omega))
  · intro j k hj hk
    refine ⟨rf_advance (hn j hj) (hn k hk), rf_distance (hn j hj) (hn k hk), ?_, ?_⟩
    · intro h
      have h1 := hn j hj
      simp only at h
      rw [h] at h1
      exact rf_inj h1 (hn k hk)
    · rintro rfl; rfl

theorem noRep_reverse (l : List α) : noRep l.reverse = (noRep l).reverse := by
  simp only [noRep_eq_dd]
  -- split off the first run
  suffices h : ∀ n (l : List α), l.length ≤ n → dd l.reverse = (dd l).reverse from h _ l (Nat.le_refl _)
  intro n
  induction n with
  | zero => intro l h; cases l with
    | nil => rfl
    | cons a l => simp at h
  | succ n ih =>
    intro l hl
    cases l with
    | nil => rfl
    | cons a l =>
      obtain ⟨m, t, h1, h2⟩ := run_split a l
      rw [h1]
      have hb1 : Bnd (List.replicate (m + 1) a) t := by
        rcases h2 with h2 | h2
        · exact Or.inr (Or.inl h2)
        · right; right
          rw [List.getLast?_replicate]
          simp only [Nat.add_one_ne_zero, if_false]
          exact fun h => h2 h.symm
      have hb2 : Bnd t.reverse (List.replicate (m + 1) a).reverse := by
        rcases h2 with h2 | h2
        · left; simp [h2]
        · right; right
          simp only [List.getLast?_reverse, List.reverse_replicate, List.head?_replicate,
            Nat.add_one_ne_zero, if_false]
          exact h2
      have hlen : t.length ≤ n := by
        have := congrArg List.length h1
        simp at this hl; omega
      rw [dd_append hb1, List.reverse_append, dd_append hb2, ih t hlen, List.reverse_append,
        List.reverse_replicate, dd_run]
      simp

/-- C12: `invert()` shows the reverse, twice is the identity, and the list returned by
`lineStrings()` of an inverted compound linestring describes the same view. -/
theorem compound_invert (s : CLS α) :
    view s.invert = (view s).reverse ∧ s.invert.invert = s ∧
      view (⟨s.lineStrings, false⟩ : CLS α) = view s := by
  refine ⟨?_, ?_, ?_⟩
  · obtain ⟨ls, inv⟩ := s
    simp only [view, CLS.invert]; cases inv <;> simp
  · simp [CLS.invert]
  · simp only [view, CLS.lineStrings]
    obtain ⟨ls, inv⟩ := s
    cases inv with
    | false => simp
    | true =>
      simp only [if_true, Bool.false_eq_true, if_false]
      rw [← noRep_reverse, ← List.reverse_flatten]

/-- non-triviality: empty elements in front, between and at the end, runs that cross elements -/
example : view (⟨[[], [1, 1], [], [1, 2], [2], [], [1], []], false⟩ : CLS Nat) = [1, 2, 1] := by
  decide
example : view (⟨[[], [1, 1, 3], [], [1, 2], [2], []], true⟩ : CLS Nat) = [2, 1, 3, 1] := by
  decide
example : (⟨[[], [1, 1], [], [1, 2], [2], [], [1], []], false⟩ : CLS Nat).at 2 = some 1 :=
  compound_at _ 2 (by decide)

end Verif.Compound
