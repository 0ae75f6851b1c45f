import Verif.Tri.Model
import Mathlib.Algebra.BigOperators.Group.List.Basic
import Mathlib.Tactic.Abel
import Mathlib.Tactic.ByContra
import Mathlib.Data.List.GetD

/-!
Cyclic lists, and the helper functions of the convex partition.
-/
namespace Verif.Tri

/-! ### specification -/

/-- the directed sides of a polygon -/
def sides (p : List Nat) : List Seg := p.zip (p.rotate 1)

/-- the sum of a quantity of the sides over a polygon, e.g. twice the signed area -/
def around {G : Type} [AddCommGroup G] (f : Nat → Nat → G) (p : List Nat) : G := ((sides p).map fun s => f s.1 s.2).sum

/-! ### cyclic lists -/

theorem segments_eq (p : List Nat) : segments p = sides p := by
  unfold segments sides
  apply List.ext_getElem
  · simp
  · intro i h1 h2
    have hi : i < p.length := by simpa using h1
    have hm : (i + 1) % p.length < p.length := Nat.mod_lt _ (by omega)
    simp only [List.getElem_map, List.getElem_range, List.getElem_zip, List.getElem_rotate]
    rw [List.getD_eq_getElem _ _ hi, List.getD_eq_getElem _ _ hm]

theorem mem_sides {p : List Nat} {s : Seg} : s ∈ sides p ↔ ∃ (i : Nat) (h : i < p.length), p[i] = s.1 ∧ p[(i + 1) % p.length]'(Nat.mod_lt _ (by omega)) = s.2 := by
  unfold sides
  constructor
  · intro h
    obtain ⟨i, hi, rfl⟩ := List.mem_iff_getElem.mp h
    have hi' : i < p.length := by simpa using hi
    exact ⟨i, hi', by simp [List.getElem_rotate]⟩
  · rintro ⟨i, hi, h1, h2⟩
    apply List.mem_iff_getElem.mpr
    refine ⟨i, by simpa using hi, ?_⟩
    simp only [List.getElem_zip, List.getElem_rotate]
    rw [h1, h2]

theorem sides_rotate (p : List Nat) (k : Nat) : sides (p.rotate k) = (sides p).rotate k := by
  unfold sides
  rw [List.zip_eq_zipWith, List.zip_eq_zipWith, List.zipWith_rotate_distrib _ _ _ _ (by simp), List.rotate_rotate, List.rotate_rotate, Nat.add_comm]

theorem sides_isRotated {p q : List Nat} (h : p ~r q) : sides p ~r sides q := by
  obtain ⟨k, rfl⟩ := h
  exact ⟨k, (sides_rotate p k).symm⟩

theorem mem_sides_rotated {p q : List Nat} (h : p ~r q) {s : Seg} : s ∈ sides p ↔ s ∈ sides q := (sides_isRotated h).mem_iff

/-- the pairs of successive elements -/
def pairs (l : List Nat) : List Seg := l.zip l.tail

theorem pairs_cons_cons (x y : Nat) (l : List Nat) : pairs (x :: y :: l) = (x, y) :: pairs (y :: l) := rfl

theorem pairs_append (l : List Nat) (x : Nat) (l' : List Nat) : pairs (l ++ x :: l') = pairs (l ++ [x]) ++ pairs (x :: l') := by
  induction l with
  | nil => simp [pairs]
  | cons a l ih =>
    cases l with
    | nil => simp [pairs]
    | cons b l =>
      simp only [List.cons_append, pairs_cons_cons] at ih ⊢
      rw [ih]

theorem zip_concat {α β : Type} (x : α) : ∀ (l : List α) (l' : List β), l'.length ≤ l.length → (l ++ [x]).zip l' = l.zip l' := by
  intro l
  induction l with
  | nil => intro l' h; cases l' with
    | nil => rfl
    | cons b l' => simp at h
  | cons a l ih =>
    intro l' h
    cases l' with
    | nil => simp
    | cons b l' => simp only [List.cons_append, List.zip_cons_cons, ih l' (by simpa using h)]

theorem sides_cons (x : Nat) (l : List Nat) : sides (x :: l) = pairs (x :: l ++ [x]) := by
  unfold sides pairs
  rw [List.rotate_cons_succ, List.rotate_zero, List.cons_append, List.tail_cons, ← List.cons_append, zip_concat x (x :: l) (l ++ [x]) (by simp)]

theorem pairs_left {l : List Nat} {x : Nat} {s : Seg} (h : s ∈ pairs (l ++ [x])) : s.1 ∈ l := by
  induction l with
  | nil => simp [pairs] at h
  | cons a l ih =>
    cases l with
    | nil => simp [pairs] at h; subst h; simp
    | cons b l =>
      simp only [List.cons_append, pairs_cons_cons, List.mem_cons] at h
      rcases h with rfl | h
      · simp
      · exact List.mem_cons_of_mem _ (ih h)

theorem pairs_right {l : List Nat} {x : Nat} {s : Seg} (h : s ∈ pairs (x :: l)) : s.2 ∈ l := (List.of_mem_zip h).2

theorem sides_mem {p : List Nat} {s : Seg} (h : s ∈ sides p) : s.1 ∈ p ∧ s.2 ∈ p := by
  obtain ⟨i, hi, h1, h2⟩ := mem_sides.mp h
  exact ⟨h1 ▸ List.getElem_mem _, h2 ▸ List.getElem_mem _⟩

theorem next_unique {p : List Nat} (hn : p.Nodup) {x y z : Nat} (h1 : (x, y) ∈ sides p) (h2 : (x, z) ∈ sides p) : y = z := by
  obtain ⟨i, hi, a1, a2⟩ := mem_sides.mp h1
  obtain ⟨j, hj, b1, b2⟩ := mem_sides.mp h2
  have : i = j := (List.Nodup.getElem_inj_iff hn).mp (a1.trans b1.symm)
  subst this
  exact a2.symm.trans b2

theorem prev_unique {p : List Nat} (hn : p.Nodup) {x y z : Nat} (h1 : (y, x) ∈ sides p) (h2 : (z, x) ∈ sides p) : y = z := by
  obtain ⟨i, hi, a1, a2⟩ := mem_sides.mp h1
  obtain ⟨j, hj, b1, b2⟩ := mem_sides.mp h2
  have h : (i + 1) % p.length = (j + 1) % p.length := (List.Nodup.getElem_inj_iff hn).mp (a2.trans b2.symm)
  have : i = j := by
    by_cases h1 : i + 1 = p.length
    · by_cases h2 : j + 1 = p.length
      · omega
      · rw [h1, Nat.mod_self, Nat.mod_eq_of_lt (by omega)] at h; omega
    · by_cases h2 : j + 1 = p.length
      · rw [h2, Nat.mod_self, Nat.mod_eq_of_lt (by omega)] at h; omega
      · rw [Nat.mod_eq_of_lt (by omega), Nat.mod_eq_of_lt (by omega)] at h; omega
  subst this
  exact a1.symm.trans b1

/-- sums along a list -/
def along {G : Type} [AddCommGroup G] (f : Nat → Nat → G) (l : List Nat) : G := ((pairs l).map fun s => f s.1 s.2).sum

theorem around_cons {G : Type} [AddCommGroup G] (f : Nat → Nat → G) (x : Nat) (l : List Nat) : around f (x :: l) = along f (x :: l ++ [x]) := by
  unfold around along
  rw [sides_cons]

theorem along_append {G : Type} [AddCommGroup G] (f : Nat → Nat → G) (l : List Nat) (x : Nat) (l' : List Nat) :
    along f (l ++ x :: l') = along f (l ++ [x]) + along f (x :: l') := by
  unfold along
  rw [pairs_append, List.map_append, List.sum_append]

theorem along_cons_cons {G : Type} [AddCommGroup G] (f : Nat → Nat → G) (x y : Nat) (l : List Nat) :
    along f (x :: y :: l) = f x y + along f (y :: l) := by
  unfold along
  rw [pairs_cons_cons, List.map_cons, List.sum_cons]

theorem around_rotated {G : Type} [AddCommGroup G] (f : Nat → Nat → G) {p q : List Nat} (h : p ~r q) : around f p = around f q := by
  unfold around
  exact List.Perm.sum_eq ((sides_isRotated h).perm.map _)

/-! ### positions of a border -/

theorem getAligned_spec {p : List Nat} (hn : p.Nodup) (h3 : 3 ≤ p.length) {i : Nat} (hi : i < p.length) :
    getAligned p (p[i], p[(i + 1) % p.length]'(Nat.mod_lt _ (by omega))) = .ok (i, (i + 1) % p.length) ∧
    getAligned p (p[(i + 1) % p.length]'(Nat.mod_lt _ (by omega)), p[i]) = .ok (i, (i + 1) % p.length) := by
  have hm : (i + 1) % p.length < p.length := Nat.mod_lt _ (by omega)
  have e1 : p.idxOf p[i] = i := List.Nodup.idxOf_getElem hn i hi
  have e2 : p.idxOf (p[(i + 1) % p.length]'hm) = (i + 1) % p.length := List.Nodup.idxOf_getElem hn _ hm
  unfold getAligned
  simp only [e1, e2]
  have c1 : ¬ p.length < 3 := by omega
  have c2 : ¬ (i = p.length ∨ (i + 1) % p.length = p.length) := by omega
  have c3 : ¬ ((i + 1) % p.length = p.length ∨ i = p.length) := by omega
  rw [if_neg c1, if_neg c2, if_neg c1, if_neg c3]
  by_cases h : i + 1 = p.length
  · rw [h, Nat.mod_self]
    rw [if_neg (by omega), if_pos (by omega)]
    exact ⟨rfl, rfl⟩
  · rw [Nat.mod_eq_of_lt (by omega)]
    rw [if_neg (by omega), if_pos (by omega)]
    exact ⟨rfl, rfl⟩

theorem getAligned_side {p : List Nat} (hn : p.Nodup) (h3 : 3 ≤ p.length) {a b : Nat} (h : (a, b) ∈ sides p) :
    ∃ (i : Nat) (hi : i < p.length), p[i] = a ∧ p[(i + 1) % p.length]'(Nat.mod_lt _ (by omega)) = b ∧
      getAligned p (a, b) = .ok (i, (i + 1) % p.length) ∧ getAligned p (b, a) = .ok (i, (i + 1) % p.length) := by
  obtain ⟨i, hi, h1, h2⟩ := mem_sides.mp h
  have := getAligned_spec hn h3 hi
  simp only at h1 h2
  rw [h1, h2] at this
  exact ⟨i, hi, h1, h2, this⟩

theorem getAdjacent_spec {p : List Nat} (hn : p.Nodup) (h3 : 3 ≤ p.length) {a b : Nat} (h : (a, b) ∈ sides p) :
    ∃ x y, getAdjacent p (a, b) = .ok ((a, x), (b, y)) ∧ getAdjacent p (b, a) = .ok ((a, x), (b, y)) ∧ (x, a) ∈ sides p ∧ (b, y) ∈ sides p := by
  obtain ⟨i, hi, h1, h2, h4, h5⟩ := getAligned_side hn h3 h
  have hm : (i + 1) % p.length < p.length := Nat.mod_lt _ (by omega)
  refine ⟨if i = 0 then p.getD (p.length - 1) 0 else p.getD (i - 1) 0,
    if (i + 1) % p.length + 1 = p.length then p.getD 0 0 else p.getD ((i + 1) % p.length + 1) 0, ?_, ?_, ?_, ?_⟩
  · unfold getAdjacent
    rw [h4]
    simp only [bind, Except.bind, pure, Except.pure]
    rw [List.getD_eq_getElem _ _ hi, List.getD_eq_getElem _ _ hm, h1, h2]
  · unfold getAdjacent
    rw [h5]
    simp only [bind, Except.bind, pure, Except.pure]
    rw [List.getD_eq_getElem _ _ hi, List.getD_eq_getElem _ _ hm, h1, h2]
  · apply mem_sides.mpr
    by_cases h0 : i = 0
    · subst h0
      refine ⟨p.length - 1, by omega, ?_, ?_⟩
      · rw [if_pos rfl, List.getD_eq_getElem _ _ (by omega)]
      · simp only [show p.length - 1 + 1 = p.length by omega, Nat.mod_self]
        exact h1
    · refine ⟨i - 1, by omega, ?_, ?_⟩
      · rw [if_neg h0, List.getD_eq_getElem _ _ (by omega)]
      · simp only [show i - 1 + 1 = i by omega, Nat.mod_eq_of_lt hi]
        exact h1
  · apply mem_sides.mpr
    refine ⟨(i + 1) % p.length, hm, h2, ?_⟩
    by_cases h0 : (i + 1) % p.length + 1 = p.length
    · rw [if_pos h0, List.getD_eq_getElem _ _ (by omega)]
      simp only [h0, Nat.mod_self]
    · rw [if_neg h0, List.getD_eq_getElem _ _ (by omega)]
      simp only [Nat.mod_eq_of_lt (show (i + 1) % p.length + 1 < p.length by omega)]

/-! ### merging two polygons -/

/-- cut a list before the position `k` -/
theorem take_drop_rotated (p : List Nat) (k : Nat) : p ~r p.drop k ++ p.take k := by
  conv_lhs => rw [← List.take_append_drop k p]
  exact List.isRotated_append

theorem merge_spec {p q : List Nat} (hp : p.Nodup) (hq : q.Nodup) (p3 : 3 ≤ p.length) (q3 : 3 ≤ q.length) {a b : Nat}
    (h1 : (a, b) ∈ sides p) (h2 : (b, a) ∈ sides q) :
    ∃ mid rest m, merge p q (a, b) = .ok m ∧ p ~r a :: b :: rest ∧ q ~r b :: a :: mid ∧ m ~r a :: mid ++ b :: rest := by
  obtain ⟨i, hi, pi, pi', ap, -⟩ := getAligned_side hp p3 h1
  obtain ⟨j, hj, qj, qj', -, aq⟩ := getAligned_side hq q3 h2
  -- the rest of q
  have hq' : ∃ mid, q ~r b :: a :: mid ∧ (if j + 1 = q.length then (q.take j).drop ((j + 1) % q.length + 1)
      else q.drop ((j + 1) % q.length + 1) ++ q.take j) = mid := by
    by_cases h : j + 1 = q.length
    · rw [if_pos h, h, Nat.mod_self]
      simp only [h, Nat.mod_self] at qj'
      refine ⟨_, ?_, rfl⟩
      have e : q = a :: ((q.take j).drop (0 + 1) ++ [b]) := by
        have e1 : q = q.take j ++ [b] := by
          conv_lhs => rw [← List.take_append_drop j q, List.drop_eq_getElem_cons hj, qj, h, List.drop_length]
        have e2 : q.take j = a :: (q.take j).drop 1 := by
          cases hq0 : q.take j with
          | nil => have := congrArg List.length hq0; simp only [List.length_take, List.length_nil] at this; omega
          | cons c l =>
            have : (q.take j)[0]? = some c := by rw [hq0]; rfl
            rw [List.getElem?_take_of_lt (by omega), List.getElem?_eq_getElem (by omega)] at this
            rw [qj'] at this
            cases this
            rfl
        conv_lhs => rw [e1, e2]
        rfl
      conv_lhs => rw [e]
      rw [← List.cons_append]
      exact List.isRotated_append.trans (by simp [List.IsRotated.refl])
    · rw [if_neg h]
      have hlt : (j + 1) % q.length = j + 1 := Nat.mod_eq_of_lt (by omega)
      simp only [hlt] at qj' ⊢
      refine ⟨_, ?_, rfl⟩
      have e : q.drop j = b :: a :: q.drop (j + 1 + 1) := by
        rw [List.drop_eq_getElem_cons hj, List.drop_eq_getElem_cons (by omega), qj, qj']
      have := take_drop_rotated q j
      rw [e] at this
      simpa using this
  obtain ⟨mid, hmid, hX⟩ := hq'
  -- the result
  have hres : merge p q (a, b) = .ok (p.take ((i + 1) % p.length) ++ mid ++ p.drop ((i + 1) % p.length)) := by
    unfold merge insertPolygonExcept
    rw [aq, ap]
    simp only [bind, Except.bind, pure, Except.pure]
    by_cases h : j + 1 = q.length
    · rw [if_pos h] at hX ⊢
      rw [if_pos h, hX]
    · rw [if_neg h] at hX ⊢
      rw [if_neg h, ← hX]
      have hm : (i + 1) % p.length ≤ p.length := Nat.le_of_lt (Nat.mod_lt _ (by omega))
      have hl : (i + 1) % p.length + (q.length - ((j + 1) % q.length + 1)) =
          (p.take ((i + 1) % p.length) ++ q.drop ((j + 1) % q.length + 1)).length := by
        simp; omega
      rw [hl, List.take_left, List.drop_left]
      simp
  have hp' : ∃ rest, p ~r a :: b :: rest ∧ p.take ((i + 1) % p.length) ++ mid ++ p.drop ((i + 1) % p.length) ~r a :: mid ++ b :: rest := by
    by_cases h : i + 1 = p.length
    · simp only [h, Nat.mod_self] at pi' ⊢
      have e : ∃ rest, p = b :: rest ++ [a] := by
        refine ⟨(p.take i).drop 1, ?_⟩
        have e1 : p = p.take i ++ [a] := by
          conv_lhs => rw [← List.take_append_drop i p, List.drop_eq_getElem_cons hi, pi, h, List.drop_length]
        have e2 : p.take i = b :: (p.take i).drop 1 := by
          cases hq0 : p.take i with
          | nil => have := congrArg List.length hq0; simp only [List.length_take, List.length_nil] at this; omega
          | cons c l =>
            have : (p.take i)[0]? = some c := by rw [hq0]; rfl
            rw [List.getElem?_take_of_lt (by omega), List.getElem?_eq_getElem (by omega)] at this
            rw [pi'] at this
            cases this
            rfl
        conv_lhs => rw [e1, e2]
      obtain ⟨rest, e⟩ := e
      refine ⟨rest, ?_, ?_⟩
      · rw [e]; exact List.isRotated_append
      · rw [List.take_zero, List.drop_zero, List.nil_append, e, ← List.append_assoc]
        exact List.isRotated_append.trans (by simp [List.IsRotated.refl])
    · have hlt : (i + 1) % p.length = i + 1 := Nat.mod_eq_of_lt (by omega)
      simp only [hlt] at pi' ⊢
      have e1 : p.take (i + 1) = p.take i ++ [a] := by rw [List.take_succ_eq_append_getElem hi, pi]
      have e2 : p.drop (i + 1) = b :: p.drop (i + 1 + 1) := by rw [List.drop_eq_getElem_cons (by omega), pi']
      refine ⟨p.drop (i + 1 + 1) ++ p.take i, ?_, ?_⟩
      · have := take_drop_rotated p i
        rw [List.drop_eq_getElem_cons hi, pi, e2] at this
        simpa using this
      · rw [e1, e2, List.append_assoc, List.append_assoc]
        exact List.isRotated_append.trans (by simp [List.IsRotated.refl])
  obtain ⟨rest, hr1, hr2⟩ := hp'
  exact ⟨mid, rest, _, hres, hr1, hmid, hr2⟩

theorem sides_first (a b : Nat) (rest : List Nat) : sides (a :: b :: rest) = (a, b) :: pairs (b :: rest ++ [a]) := by
  rw [sides_cons]; rfl

theorem sides_merged (a b : Nat) (mid rest : List Nat) : sides (a :: mid ++ b :: rest) = pairs (a :: mid ++ [b]) ++ pairs (b :: rest ++ [a]) := by
  rw [List.cons_append, sides_cons]
  rw [show a :: (mid ++ b :: rest) ++ [a] = (a :: mid) ++ b :: (rest ++ [a]) by simp, pairs_append]
  rfl

/-- sides of the merged polygon -/
theorem merged_sides {m mid rest : List Nat} {a b : Nat} (hm : m ~r a :: mid ++ b :: rest) {s : Seg} : s ∈ sides m ↔ s ∈ pairs (b :: rest ++ [a]) ∨ s ∈ pairs (a :: mid ++ [b]) := by
  rw [mem_sides_rotated hm, sides_merged, List.mem_append, or_comm]

theorem around_merged {G : Type} [AddCommGroup G] (f : Nat → Nat → G) (hf : ∀ x y, f x y = - f y x) {p q m mid rest : List Nat} {a b : Nat}
    (hp : p ~r a :: b :: rest) (hq : q ~r b :: a :: mid) (hm : m ~r a :: mid ++ b :: rest) : around f m = around f p + around f q := by
  rw [around_rotated f hp, around_rotated f hq, around_rotated f hm]
  unfold around
  rw [sides_merged, sides_first, sides_first]
  simp only [List.map_append, List.sum_append, List.map_cons, List.sum_cons]
  rw [hf a b]
  abel

theorem merged_nodup {p q m mid rest : List Nat} {a b : Nat} (np : p.Nodup) (nq : q.Nodup) (hp : p ~r a :: b :: rest) (hq : q ~r b :: a :: mid)
    (hm : m ~r a :: mid ++ b :: rest) (hc : ∀ v ∈ p, v ∈ q → v = a ∨ v = b) : m.Nodup := by
  rw [hm.nodup_iff]
  rw [hp.nodup_iff] at np
  rw [hq.nodup_iff] at nq
  have hp' : ∀ v ∈ rest, v ∈ p := fun v hv => hp.mem_iff.mpr (by simp [hv])
  have hq' : ∀ v ∈ mid, v ∈ q := fun v hv => hq.mem_iff.mpr (by simp [hv])
  simp only [List.nodup_cons, List.mem_cons, not_or] at np nq
  rw [List.nodup_append]
  refine ⟨List.nodup_cons.mpr ⟨nq.2.1, nq.2.2⟩, List.nodup_cons.mpr ⟨np.2.1, np.2.2⟩, ?_⟩
  intro x hx y hy hxy
  subst hxy
  rcases List.mem_cons.mp hx with rfl | hx
  · rcases List.mem_cons.mp hy with rfl | hy
    · exact np.1.1 rfl
    · exact np.1.2 hy
  · rcases List.mem_cons.mp hy with rfl | hy
    · exact nq.1.2 hx
    · rcases hc x (hp' x hy) (hq' x hx) with rfl | rfl
      · exact nq.2.1 ‹_›
      · exact nq.1.2 ‹_›

theorem merged_mem {p q m mid rest : List Nat} {a b : Nat} (hp : p ~r a :: b :: rest) (hq : q ~r b :: a :: mid)
    (hm : m ~r a :: mid ++ b :: rest) {v : Nat} : v ∈ m ↔ v ∈ p ∨ v ∈ q := by
  rw [hp.mem_iff, hq.mem_iff, hm.mem_iff]
  simp only [List.mem_cons, List.mem_append, List.cons_append]
  tauto

end Verif.Tri
