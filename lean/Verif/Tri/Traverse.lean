import Verif.Tri.Lemmas

/-!
The traversal of the convex partition: every gate is a diagonal that cuts off an arc of the polygon, and the traversal stays in these arcs.
-/
namespace Verif.Tri

/-! ### specification -/

/-- the sides of the polygon, in both directions -/
def Border (n : Nat) (s : Seg) : Prop := s.2 = (s.1 + 1) % n ∨ s.1 = (s.2 + 1) % n

/-- a polygon of at least three corners of the polygon `0 … n - 1` that runs in the same direction -/
def Inside (n : Nat) (p : List Nat) : Prop := 3 ≤ p.length ∧ (∀ v ∈ p, v < n) ∧ ∃ l, p ~r l ∧ l.Pairwise (· < ·)

/-- every corner passes the test -/
def Convex (turn : Seg → Seg → Bool) (p : List Nat) : Prop :=
  ∀ x y z, (x, y) ∈ sides p → (y, z) ∈ sides p → turn (x, y) (y, z) = true

/-- the diagram contains all sides of the polygon: what borders on an inner part is an inner part or the outside -/
structure Conforming (n : Nat) (polys : List (List Nat)) : Prop where
  first : ∃ p ∈ polys, (0, 1) ∈ sides p
  first_inside : ∀ p ∈ polys, (0, 1) ∈ sides p → Inside n p
  next : ∀ p ∈ polys, Inside n p → ∀ s ∈ sides p, ¬ Border n s → ∃ q ∈ polys, flip s ∈ sides q
  next_inside : ∀ p ∈ polys, Inside n p → ∀ s ∈ sides p, ¬ Border n s → ∀ q ∈ polys, flip s ∈ sides q → Inside n q

/-! ### the order of the corners, beginning with 1 -/

/-- Helper of the proofs. -/
def rank (n v : Nat) : Nat := if v = 0 then n else v

theorem rank_inj {n u v : Nat} (hu : u < n) (hv : v < n) (h : rank n u = rank n v) : u = v := by
  unfold rank at h
  split at h <;> split at h <;> omega

theorem rank_le {n v : Nat} (hv : v < n) : 1 ≤ rank n v ∧ rank n v ≤ n := by
  unfold rank
  split <;> omega

theorem rank_mod {n v : Nat} (hv : v < n) : rank n v % n = v := by
  unfold rank
  split
  · subst_vars; simp
  · exact Nat.mod_eq_of_lt hv

/-- `l` ascends -/
abbrev Asc (n : Nat) (l : List Nat) : Prop := l.Pairwise fun x y => rank n x < rank n y

theorem inside_asc {n : Nat} {p : List Nat} (h : Inside n p) : ∃ l, p ~r l ∧ Asc n l := by
  obtain ⟨-, h2, l, h3, h4⟩ := h
  have hb : ∀ v ∈ l, v < n := fun v hv => h2 v (h3.mem_iff.mpr hv)
  by_cases h0 : ∃ t, l = 0 :: t
  · obtain ⟨t, rfl⟩ := h0
    refine ⟨t ++ [0], h3.trans (List.isRotated_append (l := [0]) (l' := t)), ?_⟩
    rw [List.pairwise_cons] at h4
    rw [Asc, List.pairwise_append]
    refine ⟨?_, List.pairwise_singleton _ _, ?_⟩
    · refine h4.2.imp_of_mem ?_
      intro x y hx hy hxy
      have := h4.1 x hx
      have := h4.1 y hy
      unfold rank
      rw [if_neg (by omega), if_neg (by omega)]
      exact hxy
    · intro x hx y hy
      have := h4.1 x hx
      have := hb x (by simp [hx])
      simp only [List.mem_singleton] at hy
      subst hy
      unfold rank
      rw [if_neg (by omega), if_pos rfl]
      exact this
  · refine ⟨l, h3, ?_⟩
    have hne : ∀ v ∈ l, v ≠ 0 := by
      intro v hv h
      subst h
      cases l with
      | nil => cases hv
      | cons c t =>
        rcases List.mem_cons.mp hv with rfl | hv
        · exact h0 ⟨t, rfl⟩
        · have := (List.pairwise_cons.mp h4).1 0 hv
          omega
    refine h4.imp_of_mem ?_
    intro x y hx hy hxy
    unfold rank
    rw [if_neg (hne x hx), if_neg (hne y hy)]
    exact hxy

theorem asc_nodup {n : Nat} {l : List Nat} (h : Asc n l) : l.Nodup := by
  refine List.Pairwise.imp ?_ h
  intro x y hxy h
  subst h
  exact Nat.lt_irrefl _ hxy

theorem inside_nodup {n : Nat} {p : List Nat} (h : Inside n p) : p.Nodup := by
  obtain ⟨l, h1, h2⟩ := inside_asc h
  rw [h1.nodup_iff]
  exact asc_nodup h2

/-- a polygon that borders on an arc lies in it -/
theorem inside_arc {n : Nat} {p : List Nat} (h : Inside n p) {a b : Nat} (hs : (b, a) ∈ sides p) (hab : rank n a < rank n b) :
    ∃ mid, p ~r a :: mid ++ [b] ∧ Asc n (a :: mid ++ [b]) ∧ mid ≠ [] := by
  obtain ⟨l, h1, h2⟩ := inside_asc h
  rw [mem_sides_rotated h1] at hs
  have h3 : 3 ≤ l.length := by rw [← h1.perm.length_eq]; exact h.1
  obtain ⟨i, hi, e1, e2⟩ := mem_sides.mp hs
  simp only at e1 e2
  have hlast : i + 1 = l.length := by
    by_contra hne
    have hlt : i + 1 < l.length := by omega
    simp only [Nat.mod_eq_of_lt hlt] at e2
    have := List.pairwise_iff_getElem.mp h2 i (i + 1) hi hlt (by omega)
    rw [e1, e2] at this
    omega
  simp only [hlast, Nat.mod_self] at e2
  cases l with
  | nil => cases hi
  | cons c t =>
    simp only [List.getElem_cons_zero] at e2
    subst e2
    have ht : t ≠ [] := by intro h; subst h; simp at h3
    have : t = t.dropLast ++ [b] := by
      have hl : t.getLast ht = b := by
        rw [← e1, List.getLast_eq_getElem]
        simp only [List.length_cons] at hlast
        obtain ⟨k, rfl⟩ : ∃ k, i = k + 1 := ⟨i - 1, by simp at h3; omega⟩
        simp only [List.getElem_cons_succ]
        congr 1
        omega
      rw [← hl]
      exact (List.dropLast_append_getLast ht).symm
    refine ⟨t.dropLast, ?_, ?_, ?_⟩
    · rw [List.cons_append, ← this]; exact h1
    · rw [List.cons_append, ← this]; exact h2
    · intro h
      have := congrArg List.length h
      simp at this h3
      omega

theorem asc_mem {n a b : Nat} {mid : List Nat} (h : Asc n (a :: mid ++ [b])) {v : Nat} (hv : v ∈ a :: mid ++ [b]) :
    rank n a ≤ rank n v ∧ rank n v ≤ rank n b := by
  rw [Asc, List.pairwise_append] at h
  obtain ⟨h1, -, h3⟩ := h
  rcases List.mem_append.mp hv with hv | hv
  · constructor
    · rcases List.mem_cons.mp hv with rfl | hv
      · exact Nat.le_refl _
      · exact Nat.le_of_lt ((List.pairwise_cons.mp h1).1 v hv)
    · exact Nat.le_of_lt (h3 v hv b (by simp))
  · simp only [List.mem_singleton] at hv
    subst hv
    exact ⟨Nat.le_of_lt (h3 a (by simp) v (by simp)), Nat.le_refl _⟩

/-! ### arcs -/

/-- the arcs have no common inner corner -/
def Apart (n : Nat) (s t : Seg) : Prop := rank n s.2 ≤ rank n t.1 ∨ rank n t.2 ≤ rank n s.1

theorem apart_symm {n : Nat} {s t : Seg} (h : Apart n s t) : Apart n t s := Or.symm h

/-- successive elements of an ascending list -/
theorem pairs_asc {n : Nat} : ∀ {l : List Nat}, Asc n l → (∀ s ∈ pairs l, rank n s.1 < rank n s.2) ∧ (pairs l).Pairwise (Apart n) ∧
    (∀ s ∈ pairs l, ∀ v ∈ l, rank n v ≤ rank n s.1 ∨ rank n s.2 ≤ rank n v) := by
  intro l
  induction l with
  | nil => intro _; simp [pairs]
  | cons x l ih =>
    intro h
    cases l with
    | nil => simp [pairs]
    | cons y l =>
      obtain ⟨hx, hl⟩ := List.pairwise_cons.mp h
      obtain ⟨i1, i2, i3⟩ := ih hl
      have hy : ∀ v ∈ y :: l, rank n y ≤ rank n v := by
        intro v hv
        rcases List.mem_cons.mp hv with rfl | hv
        · exact Nat.le_refl _
        · exact Nat.le_of_lt ((List.pairwise_cons.mp hl).1 v hv)
      rw [pairs_cons_cons]
      refine ⟨?_, ?_, ?_⟩
      · intro s hs
        rcases List.mem_cons.mp hs with rfl | hs
        · exact hx y (by simp)
        · exact i1 s hs
      · rw [List.pairwise_cons]
        refine ⟨?_, i2⟩
        intro s hs
        exact .inl (hy s.1 (List.of_mem_zip hs).1)
      · intro s hs v hv
        rcases List.mem_cons.mp hs with rfl | hs
        · rcases List.mem_cons.mp hv with rfl | hv
          · exact .inl (Nat.le_refl _)
          · exact .inr (hy v hv)
        · rcases List.mem_cons.mp hv with rfl | hv
          · exact .inl (Nat.le_of_lt (hx s.1 (List.of_mem_zip (show s ∈ pairs (y :: l) by assumption)).1))
          · exact i3 s hs v hv

/-- the gates of a polygon that was entered over a border -/
theorem gates_perm {n a b : Nat} {p mid : List Nat} (h1 : p ~r a :: mid ++ [b]) (h2 : Asc n (a :: mid ++ [b])) (h3 : mid ≠ []) :
    List.Perm (getSegmentsExcept p (a, b)) (pairs (a :: mid ++ [b])) := by
  unfold getSegmentsExcept
  rw [segments_eq]
  have hs : sides (a :: mid ++ [b]) = pairs (a :: mid ++ [b]) ++ [(b, a)] := by
    rw [sides_merged]; rfl
  have hperm := (sides_isRotated h1).perm
  rw [hs] at hperm
  refine (hperm.filter _).trans ?_
  rw [List.filter_append]
  have hasc := pairs_asc h2
  have hab : rank n a < rank n b := by
    rw [Asc, List.pairwise_append] at h2
    exact h2.2.2 a (by simp) b (by simp)
  have e1 : (pairs (a :: mid ++ [b])).filter (fun s => s != (a, b) && s != flip (a, b)) = pairs (a :: mid ++ [b]) := by
    apply List.filter_eq_self.mpr
    intro s hs
    simp only [Bool.and_eq_true, bne_iff_ne, ne_eq]
    constructor
    · rintro rfl
      obtain ⟨c, t, rfl⟩ := List.exists_cons_of_ne_nil h3
      have := hasc.2.2 _ hs c (by simp)
      rw [Asc, List.cons_append, List.pairwise_cons] at h2
      have k1 := h2.1 c (by simp)
      have k2 := (List.pairwise_append.mp h2.2).2.2 c (by simp) b (by simp)
      simp only at this
      omega
    · rintro rfl
      have := hasc.1 _ hs
      simp only [flip] at this
      omega
  rw [e1]
  simp [flip]

/-! ### invariants -/

section
variable (d : Data)

/-- an arc that is not the whole polygon -/
def ArcOk (s : Seg) : Prop := s.1 < d.size ∧ s.2 < d.size ∧ rank d.size s.1 < rank d.size s.2 ∧ rank d.size s.2 < rank d.size s.1 + (d.size - 1)

/-- a gate is a side of an inner polygon -/
def GateOk (s : Seg) : Prop := ∃ p ∈ d.polys, Inside d.size p ∧ s ∈ sides p

/-- the head has the arcs as sides and no corner within -/
def HeadInv (p : List Nat) (arcs : List Seg) : Prop :=
  ∀ s ∈ arcs, s ∈ sides p ∧ ∀ v ∈ p, rank d.size v ≤ rank d.size s.1 ∨ rank d.size s.2 ≤ rank d.size v

/-- no visited polygon lies in one of the arcs -/
def VisInv (vis : List Nat) (arcs : List Seg) : Prop :=
  ∀ i ∈ vis, ∀ q, d.polys[i]? = some q → ∀ s ∈ arcs, ∃ v ∈ q, rank d.size v < rank d.size s.1 ∨ rank d.size s.2 < rank d.size v

/-- a possible part -/
def Good (p : List Nat) : Prop := p.Nodup ∧ 3 ≤ p.length ∧ (∀ v ∈ p, v < d.size) ∧ Convex d.turn p

/-- a connection to a polygon beyond an arc -/
structure ConnOk (c : Connection) : Prop where
  arc : ArcOk d c.border
  poly : ∃ q, d.polys[c.newPoly]? = some q ∧ Inside d.size q ∧ flip c.border ∈ sides q ∧ getAdjacent q c.border = .ok c.connectors

variable {G : Type} [AddCommGroup G] (f : Nat → Nat → G)

/-- the sum over the first sides of the polygon -/
def upTo (k : Nat) : G := ((List.range k).map fun i => f (i % d.size) ((i + 1) % d.size)).sum

/-- what an arc adds if its side is replaced by the sides of the polygon -/
def gain (s : Seg) : G := upTo d f (rank d.size s.2) - upTo d f (rank d.size s.1) - f s.1 s.2

end

theorem border_iff {n : Nat} (h3 : 3 ≤ n) {s : Seg} (h1 : s.1 < n) (h2 : s.2 < n) : isBorder s n = true ↔ Border n s := by
  unfold isBorder Border
  have e1 : (s.1 + 1) % n = if s.1 + 1 = n then 0 else s.1 + 1 := by
    split
    · rename_i h; rw [h, Nat.mod_self]
    · exact Nat.mod_eq_of_lt (by omega)
  have e2 : (s.2 + 1) % n = if s.2 + 1 = n then 0 else s.2 + 1 := by
    split
    · rename_i h; rw [h, Nat.mod_self]
    · exact Nat.mod_eq_of_lt (by omega)
  rw [e1, e2]
  simp only [beq_iff_eq]
  split_ifs <;> simp <;> omega

theorem arc_border {d : Data} (h3 : 3 ≤ d.size) {s : Seg} (h : ArcOk d s) (hb : Border d.size s) : rank d.size s.2 = rank d.size s.1 + 1 := by
  obtain ⟨h1, h2, h4, h5⟩ := h
  unfold Border at hb
  unfold rank at *
  have e1 : (s.1 + 1) % d.size = if s.1 + 1 = d.size then 0 else s.1 + 1 := by
    split
    · rename_i h; rw [h, Nat.mod_self]
    · exact Nat.mod_eq_of_lt (by omega)
  have e2 : (s.2 + 1) % d.size = if s.2 + 1 = d.size then 0 else s.2 + 1 := by
    split
    · rename_i h; rw [h, Nat.mod_self]
    · exact Nat.mod_eq_of_lt (by omega)
  rw [e1, e2] at hb
  split_ifs at * <;> omega

section
variable {d : Data} {G : Type} [AddCommGroup G] {f : Nat → Nat → G}

theorem upTo_succ (k : Nat) : upTo d f (k + 1) = upTo d f k + f (k % d.size) ((k + 1) % d.size) := by
  unfold upTo
  rw [List.range_succ, List.map_append, List.sum_append]
  simp

theorem gain_border (h3 : 3 ≤ d.size) {s : Seg} (h : ArcOk d s) (hb : Border d.size s) : gain d f s = 0 := by
  have hr := arc_border h3 h hb
  unfold gain
  rw [hr, upTo_succ, rank_mod h.1, ← hr, rank_mod h.2.1]
  abel

theorem gain_pairs : ∀ (l : List Nat) (a b : Nat), ((pairs (a :: l ++ [b])).map (gain d f)).sum =
    upTo d f (rank d.size b) - upTo d f (rank d.size a) - along f (a :: l ++ [b]) := by
  intro l
  induction l with
  | nil =>
    intro a b
    simp [pairs, gain, along]
  | cons c l ih =>
    intro a b
    simp only [List.cons_append, pairs_cons_cons, along_cons_cons, List.map_cons, List.sum_cons]
    have := ih c b
    simp only [List.cons_append] at this
    rw [this, gain]
    abel

/-- the sum for a polygon beyond an arc with its own gates -/
theorem gain_arc (hf : ∀ x y, f x y = - f y x) {p mid : List Nat} {a b : Nat} (h1 : p ~r a :: mid ++ [b]) {n : Nat} (h2 : Asc n (a :: mid ++ [b]))
    (h3 : mid ≠ []) : around f p + ((getSegmentsExcept p (a, b)).map (gain d f)).sum = gain d f (a, b) := by
  rw [List.Perm.sum_eq ((gates_perm h1 h2 h3).map _), gain_pairs, around_rotated f h1, List.cons_append, around_cons]
  rw [show a :: (mid ++ [b]) ++ [a] = (a :: mid) ++ b :: [a] by simp, along_append]
  have : along f [b, a] = f b a := by simp [along, pairs]
  rw [this, hf b a, gain]
  simp only [List.cons_append]
  abel

/-! ### one polygon beyond an arc -/

/-- the gates of the polygon are arcs within the arc -/
theorem new_gates {s : Seg} (ha : rank d.size s.1 < rank d.size s.2) {q : List Nat} (hq : q ∈ d.polys) (hi : Inside d.size q) (hs : flip s ∈ sides q) :
    ∃ mid, q ~r s.1 :: mid ++ [s.2] ∧ Asc d.size (s.1 :: mid ++ [s.2]) ∧ mid ≠ [] ∧
      (getSegmentsExcept q s).Pairwise (Apart d.size) ∧
      (∀ t ∈ getSegmentsExcept q s, ArcOk d t ∧ GateOk d t ∧ t ∈ pairs (s.1 :: mid ++ [s.2]) ∧
        rank d.size s.1 ≤ rank d.size t.1 ∧ rank d.size t.2 ≤ rank d.size s.2 ∧ rank d.size t.2 - rank d.size t.1 < rank d.size s.2 - rank d.size s.1 ∧
        (∃ v ∈ q, rank d.size v < rank d.size t.1 ∨ rank d.size t.2 < rank d.size v) ∧
        ∀ v ∈ q, rank d.size v ≤ rank d.size t.1 ∨ rank d.size t.2 ≤ rank d.size v) := by
  obtain ⟨mid, h1, h2, h3⟩ := inside_arc hi (a := s.1) (b := s.2) hs ha
  have hp := gates_perm h1 h2 h3
  have hasc := pairs_asc h2
  refine ⟨mid, h1, h2, h3, (hp.pairwise_iff (fun h => apart_symm h)).mpr hasc.2.1, ?_⟩
  intro t ht
  have ht' : t ∈ pairs (s.1 :: mid ++ [s.2]) := hp.mem_iff.mp ht
  have hts : t ∈ sides q := by
    unfold getSegmentsExcept at ht
    rw [segments_eq] at ht
    exact List.mem_of_mem_filter ht
  have m1 : t.1 ∈ s.1 :: mid ++ [s.2] := h1.mem_iff.mp (sides_mem hts).1
  have m2 : t.2 ∈ s.1 :: mid ++ [s.2] := h1.mem_iff.mp (sides_mem hts).2
  have r1 := asc_mem h2 m1
  have r2 := asc_mem h2 m2
  have hlt := hasc.1 t ht'
  -- a corner outside
  have hout : ∃ v ∈ q, rank d.size v < rank d.size t.1 ∨ rank d.size t.2 < rank d.size v := by
    obtain ⟨c, l, rfl⟩ := List.exists_cons_of_ne_nil h3
    have hc := hasc.2.2 t ht' c (by simp)
    have k : rank d.size s.1 < rank d.size c ∧ rank d.size c < rank d.size s.2 := by
      rw [Asc, List.cons_append, List.pairwise_cons] at h2
      exact ⟨h2.1 c (by simp), (List.pairwise_append.mp h2.2).2.2 c (by simp) s.2 (by simp)⟩
    rcases hc with hc | hc
    · exact ⟨s.1, h1.mem_iff.mpr (by simp), .inl (by omega)⟩
    · exact ⟨s.2, h1.mem_iff.mpr (by simp), .inr (by omega)⟩
  have hsmall : rank d.size t.2 - rank d.size t.1 < rank d.size s.2 - rank d.size s.1 := by
    obtain ⟨v, hv, hv'⟩ := hout
    have := asc_mem h2 (h1.mem_iff.mp hv)
    omega
  refine ⟨⟨hi.2.1 _ (sides_mem hts).1, hi.2.1 _ (sides_mem hts).2, hlt, ?_⟩, ⟨q, hq, hi, hts⟩, ht', r1.1, r2.2, hsmall, hout, ?_⟩
  · have k1 := rank_le (hi.2.1 _ (sides_mem hs).1)
    have k2 := rank_le (hi.2.1 _ (sides_mem hs).2)
    simp only [flip] at k1 k2
    omega
  · intro v hv
    exact hasc.2.2 t ht' v (h1.mem_iff.mp hv)

/-- a visited polygon is not beyond an arc -/
theorem not_visited {s : Seg} {vis : List Nat} {V : List Seg} (hv : VisInv d vis V) (hs : s ∈ V) {i : Nat} {q mid : List Nat}
    (hq : d.polys[i]? = some q) (h1 : q ~r s.1 :: mid ++ [s.2]) (h2 : Asc d.size (s.1 :: mid ++ [s.2])) : i ∉ vis := by
  intro hi
  obtain ⟨v, hv, h⟩ := hv i hi q hq s hs
  have := asc_mem h2 (h1.mem_iff.mp hv)
  omega

/-! ### the traversal -/

theorem lift_ok {α : Type} (x : α) : lift (.ok x) = pure x := rfl

/-- what is to be shown about a call -/
def Spec (d : Data) (f : Nat → Nat → G) (L : Nat) : Prop :=
  ∀ (head : Head) (res : Result) (o : Bool) (O V : List Seg),
    (∀ s ∈ head.gates, ArcOk d s ∧ GateOk d s ∧ rank d.size s.2 - rank d.size s.1 ≤ L) → head.gates.Pairwise (Apart d.size) →
    (∀ s ∈ head.gates, ∀ t ∈ O, Apart d.size s t) → (∀ s ∈ head.gates, ∀ t ∈ V, Apart d.size s t) →
    Good d head.poly → HeadInv d head.poly (head.gates ++ O) → VisInv d res.visited (head.gates ++ V) → (∀ t ∈ O ++ V, rank d.size t.1 < rank d.size t.2) →
    ∃ head' new vis', d.traverse head res o = pure (head', { convex := res.convex ++ new, visited := vis' }) ∧
      Good d head'.poly ∧ HeadInv d head'.poly O ∧ VisInv d vis' V ∧ (∀ p ∈ new, Good d p) ∧
      (if o then 0 else around f head'.poly) + (new.map (around f)).sum = around f head.poly + (head.gates.map (gain d f)).sum

/-- merging a polygon beyond an arc into the head -/
theorem open_step (hf : ∀ x y, f x y = - f y x) (hconv : ∀ p ∈ d.polys, Inside d.size p → Convex d.turn p) {p : List Nat} {c : Connection} {R : List Seg}
    (hc : ConnOk d c) (hg : Good d p) (hh : HeadInv d p (c.border :: R)) (hR : ∀ t ∈ R, Apart d.size c.border t)
    (hRlt : ∀ t ∈ R, rank d.size t.1 < rank d.size t.2) {loc : Seg × Seg} (hloc : getAdjacent p c.border = .ok loc)
    (htest : connectionConvex d.turn loc c.connectors = true) :
    ∃ q m, d.polys[c.newPoly]? = some q ∧ Inside d.size q ∧ flip c.border ∈ sides q ∧ merge p q c.border = .ok m ∧ Good d m ∧
      HeadInv d m (getSegmentsExcept q c.border ++ R) ∧ around f m = around f p + around f q := by
  obtain ⟨q, hq, hi, hs, hadj⟩ := hc.poly
  have hqm : q ∈ d.polys := List.mem_of_getElem? hq
  obtain ⟨mid', h1, h2, h3, -, hgates⟩ := new_gates hc.arc.2.2.1 hqm hi hs
  have hside := (hh c.border (by simp)).1
  obtain ⟨⟨a, b⟩, conn, i⟩ := c
  simp only [flip] at *
  have nq := inside_nodup hi
  obtain ⟨mid, rest, m, hm, r1, r2, r3⟩ := merge_spec hg.1 nq hg.2.1 hi.1 hside hs
  have hcommon : ∀ v ∈ p, v ∈ q → v = a ∨ v = b := by
    intro v hv hv'
    have k1 := (hh (a, b) (by simp)).2 v hv
    have k2 := asc_mem h2 (h1.mem_iff.mp hv')
    simp only at k1
    rcases k1 with k1 | k1
    · exact .inl (rank_inj (hg.2.2.1 v hv) hc.arc.1 (by omega))
    · exact .inr (rank_inj (hg.2.2.1 v hv) hc.arc.2.1 (by omega))
  have nm := merged_nodup hg.1 nq r1 r2 r3 hcommon
  have hmem : ∀ {v : Nat}, v ∈ m ↔ v ∈ p ∨ v ∈ q := fun {v} => merged_mem r1 r2 r3
  have sub1 : ∀ s ∈ pairs (b :: rest ++ [a]), s ∈ sides p := by
    intro s hs
    rw [mem_sides_rotated r1, sides_first]
    exact List.mem_cons_of_mem _ hs
  have sub2 : ∀ s ∈ pairs (a :: mid ++ [b]), s ∈ sides q := by
    intro s hs
    rw [mem_sides_rotated r2, sides_first]
    exact List.mem_cons_of_mem _ hs
  have in1 : ∀ s ∈ sides p, s ≠ (a, b) → s ∈ sides m := by
    intro s hs hne
    rw [mem_sides_rotated r1, sides_first] at hs
    rw [merged_sides r3]
    rcases List.mem_cons.mp hs with rfl | hs
    · exact absurd rfl hne
    · exact .inl hs
  have in2 : ∀ s ∈ sides q, s ≠ (b, a) → s ∈ sides m := by
    intro s hs hne
    rw [mem_sides_rotated r2, sides_first] at hs
    rw [merged_sides r3]
    rcases List.mem_cons.mp hs with rfl | hs
    · exact absurd rfl hne
    · exact .inr hs
  refine ⟨q, m, hq, hi, hs, hm, ⟨nm, ?_, ?_, ?_⟩, ?_, around_merged f hf r1 r2 r3⟩
  · have e1 := r3.perm.length_eq
    have e2 := r1.perm.length_eq
    have := hg.2.1
    simp at e1 e2
    omega
  · intro v hv
    rcases hmem.mp hv with hv | hv
    · exact hg.2.2.1 v hv
    · exact hi.2.1 v hv
  · -- the corners
    obtain ⟨x1, y1, g1, -, g2, g3⟩ := getAdjacent_spec hg.1 hg.2.1 hside
    rw [g1] at hloc
    cases hloc
    obtain ⟨x2, y2, -, g4, g5, g6⟩ := getAdjacent_spec nq hi.1 hs
    rw [g4] at hadj
    cases hadj
    simp only [connectionConvex, flip, Bool.and_eq_true] at htest
    have hab : a ≠ b := by
      intro h
      subst h
      exact absurd hc.arc.2.2.1 (Nat.lt_irrefl _)
    intro x y z hxy hyz
    rw [merged_sides r3] at hxy hyz
    rcases hxy with hxy | hxy
    · rcases hyz with hyz | hyz
      · exact hg.2.2.2 x y z (sub1 _ hxy) (sub1 _ hyz)
      · -- the corner a
        have hy := hcommon y (sides_mem (sub1 _ hxy)).2 (sides_mem (sub2 _ hyz)).1
        have hya : y ∈ a :: mid := pairs_left hyz
        have hya : y = a := by
          rcases hy with rfl | rfl
          · rfl
          · have := r2.nodup_iff.mp nq
            rw [List.nodup_cons] at this
            exact absurd hya this.1
        subst hya
        have e1 := prev_unique hg.1 (sub1 _ hxy) g2
        have e2 := next_unique nq (sub2 _ hyz) g6
        subst e1 e2
        exact htest.1
    · rcases hyz with hyz | hyz
      · -- the corner b
        have hy := hcommon y (sides_mem (sub1 _ hyz)).1 (sides_mem (sub2 _ hxy)).2
        have hyb : y ∈ b :: rest := pairs_left hyz
        have hyb : y = b := by
          rcases hy with rfl | rfl
          · have := r1.nodup_iff.mp hg.1
            rw [List.nodup_cons] at this
            exact absurd hyb this.1
          · rfl
        subst hyb
        have e1 := prev_unique nq (sub2 _ hxy) g5
        have e2 := next_unique hg.1 (sub1 _ hyz) g3
        subst e1 e2
        exact htest.2
      · exact hconv q hqm hi x y z (sub2 _ hxy) (sub2 _ hyz)
  · intro t ht
    rcases List.mem_append.mp ht with ht | ht
    · obtain ⟨k1, -, k3, k4, k5, -, -, k7⟩ := hgates t ht
      constructor
      · refine in2 t ?_ ?_
        · unfold getSegmentsExcept at ht
          rw [segments_eq] at ht
          exact List.mem_of_mem_filter ht
        · rintro rfl
          have := k1.2.2.1
          have := hc.arc.2.2.1
          simp only at *
          omega
      · intro v hv
        rcases hmem.mp hv with hv | hv
        · have := (hh (a, b) (by simp)).2 v hv
          simp only at *
          omega
        · exact k7 v hv
    · obtain ⟨k1, k2⟩ := hh t (by simp [ht])
      have hD := hR t ht
      have hlt := hRlt t ht
      constructor
      · refine in1 t k1 ?_
        rintro rfl
        unfold Apart at hD
        simp only at *
        omega
      · intro v hv
        rcases hmem.mp hv with hv | hv
        · exact k2 v hv
        · have := asc_mem h2 (h1.mem_iff.mp hv)
          unfold Apart at hD
          simp only at *
          omega

/-- the body of the first loop -/
def openBody (d : Data) (s : Head × Result × List Connection) (c : Connection) : M (Head × Result × List Connection) := do
  if c.newPoly ∈ s.2.1.visited then return s
  else
    let loc ← lift (getAdjacent s.1.poly c.border)
    if connectionConvex d.turn loc c.connectors then
      let (head, res) ← lift (d.update s.1 s.2.1 c)
      let (head, res) ← d.traverse head res false
      return (head, res, s.2.2)
    else return (s.1, s.2.1, s.2.2 ++ [c])

/-- the body of the second loop -/
def closeBody (d : Data) (res : Result) (c : Connection) : M Result := do
  if c.newPoly ∈ res.visited then return res
  else
    let new ← lift (d.poly c.newPoly)
    let (_, res) ← d.traverse { poly := new, gates := getSegmentsExcept new c.border } res true
    return res

theorem traverse_eq (d : Data) (head : Head) (res : Result) (o : Bool) : d.traverse head res o = (do
    let gates ← lift (d.findGates res.visited head.gates)
    let (head, res, closed) ← gates.foldlM (openBody d) (head, res, [])
    let res := if o then { res with convex := res.convex ++ [head.poly] } else res
    let res ← closed.foldlM (closeBody d) res
    return (head, res)) := by
  rw [Data.traverse]
  rfl

/-- the borders of connections -/
def borders (l : List Connection) : List Seg := l.map (·.border)

theorem gains_perm {l l' : List Connection} (h : l.Perm l') : ((borders l).map (gain d f)).sum = ((borders l').map (gain d f)).sum :=
  List.Perm.sum_eq ((h.map _).map _)

theorem open_loop (hf : ∀ x y, f x y = - f y x) (hconv : ∀ p ∈ d.polys, Inside d.size p → Convex d.turn p) {L : Nat} (IH : ∀ L' < L, Spec d f L') :
    ∀ (Cs : List Connection) (head : Head) (res : Result) (Cl : List Connection) (O V : List Seg),
    (∀ c ∈ Cs ++ Cl, ConnOk d c ∧ rank d.size c.border.2 - rank d.size c.border.1 ≤ L) → (borders (Cs ++ Cl)).Pairwise (Apart d.size) →
    (∀ s ∈ borders (Cs ++ Cl), ∀ t ∈ O ++ V, Apart d.size s t) → Good d head.poly → HeadInv d head.poly (borders (Cs ++ Cl) ++ O) →
    VisInv d res.visited (borders (Cs ++ Cl) ++ V) → (∀ t ∈ O ++ V, rank d.size t.1 < rank d.size t.2) →
    ∃ head' new vis' Cl', Cs.foldlM (openBody d) (head, res, Cl) = pure (head', { convex := res.convex ++ new, visited := vis' }, Cl') ∧
      (∀ c ∈ Cl', ConnOk d c ∧ rank d.size c.border.2 - rank d.size c.border.1 ≤ L) ∧ (borders Cl').Pairwise (Apart d.size) ∧
      (∀ s ∈ borders Cl', ∀ t ∈ O ++ V, Apart d.size s t) ∧ Good d head'.poly ∧ HeadInv d head'.poly (borders Cl' ++ O) ∧
      VisInv d vis' (borders Cl' ++ V) ∧ (∀ p ∈ new, Good d p) ∧
      around f head'.poly + (new.map (around f)).sum + ((borders Cl').map (gain d f)).sum =
        around f head.poly + ((borders (Cs ++ Cl)).map (gain d f)).sum := by
  intro Cs
  induction Cs with
  | nil =>
    intro head res Cl O V h1 h2 h3 h4 h5 h6 h7
    refine ⟨head, [], res.visited, Cl, ?_, h1, h2, h3, h4, h5, h6, by simp, by simp⟩
    simp
  | cons c Cs ih =>
    intro head res Cl O V h1 h2 h3 h4 h5 h6 h7
    obtain ⟨hc, hlen⟩ := h1 c (by simp)
    obtain ⟨q, hq, hi, hs, hadj⟩ := hc.poly
    have hqm : q ∈ d.polys := List.mem_of_getElem? hq
    obtain ⟨mid, q1, q2, q3, q4, q5⟩ := new_gates hc.arc.2.2.1 hqm hi hs
    have hnv : c.newPoly ∉ res.visited := not_visited h6 (by simp [borders]) hq q1 q2
    have hside := (h5 c.border (by simp [borders])).1
    obtain ⟨x, y, hloc, -⟩ := getAdjacent_spec (a := c.border.1) (b := c.border.2) h4.1 h4.2.1 hside
    have hloc : getAdjacent head.poly c.border = .ok ((c.border.1, x), (c.border.2, y)) := hloc
    rw [List.foldlM_cons]
    have hborders : borders (c :: Cs ++ Cl) = c.border :: borders (Cs ++ Cl) := rfl
    rw [hborders, List.pairwise_cons] at h2
    have hlt : ∀ s ∈ borders (Cs ++ Cl), rank d.size s.1 < rank d.size s.2 := by
      intro s hs
      obtain ⟨c', hc', rfl⟩ := List.mem_map.mp hs
      exact (h1 c' (by simp only [List.cons_append, List.mem_cons]; exact .inr hc')).1.arc.2.2.1
    cases htest : connectionConvex d.turn ((c.border.1, x), (c.border.2, y)) c.connectors with
    | true =>
      have hR : ∀ t ∈ borders (Cs ++ Cl) ++ O, Apart d.size c.border t := by
        intro t ht
        rcases List.mem_append.mp ht with ht | ht
        · exact h2.1 t ht
        · exact h3 c.border (by simp [borders]) t (by simp [ht])
      have hV : ∀ t ∈ borders (Cs ++ Cl) ++ V, Apart d.size c.border t := by
        intro t ht
        rcases List.mem_append.mp ht with ht | ht
        · exact h2.1 t ht
        · exact h3 c.border (by simp [borders]) t (by simp [ht])
      have hlt' : ∀ t ∈ (borders (Cs ++ Cl) ++ O) ++ (borders (Cs ++ Cl) ++ V), rank d.size t.1 < rank d.size t.2 := by
        intro t ht
        simp only [List.mem_append] at ht
        rcases ht with (ht | ht) | (ht | ht)
        · exact hlt t (by simpa [borders] using ht)
        · exact h7 t (by simp [ht])
        · exact hlt t (by simpa [borders] using ht)
        · exact h7 t (by simp [ht])
      obtain ⟨q', m, e1, -, -, e4, e5, e6, e7⟩ := open_step (f := f) (R := borders (Cs ++ Cl) ++ O) hf hconv hc h4
        (by rw [hborders] at h5; exact h5) hR (fun t ht => hlt' t (by simp only [List.mem_append] at ht ⊢; exact .inl ht)) hloc htest
      rw [hq] at e1
      cases e1
      have hL : ∀ s ∈ getSegmentsExcept q c.border, rank d.size s.2 - rank d.size s.1 ≤ L - 1 := by
        intro s hs
        have := (q5 s hs).2.2.2.2.2.1
        omega
      have hsub : ∀ s ∈ getSegmentsExcept q c.border, ∀ t, Apart d.size c.border t → Apart d.size s t := by
        intro s hs t ht
        obtain ⟨-, -, -, k1, k2, -⟩ := q5 s hs
        unfold Apart at *
        omega
      have hL0 : L - 1 < L := by
        have := hc.arc.2.2.1
        omega
      obtain ⟨head1, new1, vis1, r1, r2, r3, r4, r5, r6⟩ := IH (L - 1) hL0
        { poly := m, gates := getSegmentsExcept q c.border } { res with visited := c.newPoly :: res.visited } false
        (borders (Cs ++ Cl) ++ O) (borders (Cs ++ Cl) ++ V) (fun s hs => ⟨(q5 s hs).1, (q5 s hs).2.1, hL s hs⟩) q4
        (fun s hs t ht => hsub s hs t (hR t ht)) (fun s hs t ht => hsub s hs t (hV t ht)) e5 e6 (by
          intro i hi' q' hq' s hs
          simp only at hi' hs
          rcases List.mem_cons.mp hi' with rfl | hi'
          · rw [hq] at hq'
            cases hq'
            rcases List.mem_append.mp hs with hs | hs
            · exact (q5 s hs).2.2.2.2.2.2.1
            · have hD := hV s hs
              have := hc.arc.2.2.1
              have := hlt' s (List.mem_append_right _ hs)
              unfold Apart at hD
              rcases hD with hD | hD
              · exact ⟨c.border.1, q1.mem_iff.mpr (by simp), .inl (by omega)⟩
              · exact ⟨c.border.2, q1.mem_iff.mpr (by simp), .inr (by omega)⟩
          · rcases List.mem_append.mp hs with hs | hs
            · obtain ⟨v, hv, hv'⟩ := h6 i hi' q' hq' c.border (by simp [borders])
              obtain ⟨-, -, -, k1, k2, -⟩ := q5 s hs
              exact ⟨v, hv, by omega⟩
            · refine h6 i hi' q' hq' s ?_
              rw [hborders, List.cons_append]
              exact List.mem_cons_of_mem _ hs) hlt'
      have hbody : openBody d (head, res, Cl) c = pure (head1, { convex := res.convex ++ new1, visited := vis1 }, Cl) := by
        unfold openBody
        simp only
        rw [if_neg hnv, hloc, lift_ok, pure_bind, if_pos htest]
        have hu : d.update head res c = .ok ({ poly := m, gates := getSegmentsExcept q c.border }, { res with visited := c.newPoly :: res.visited }) := by
          unfold Data.update Data.poly
          rw [hq]
          simp only [bind, Except.bind, pure, Except.pure]
          rw [e4]
        rw [hu, lift_ok, pure_bind]
        simp only
        rw [r1, pure_bind]
      rw [hbody, pure_bind]
      obtain ⟨head2, new2, vis2, Cl', s1, s2, s3, s4, s5, s6, s7, s8, s9⟩ := ih head1 { convex := res.convex ++ new1, visited := vis1 } Cl O V
        (fun c' hc' => h1 c' (List.mem_cons_of_mem _ hc')) h2.2 (fun s hs => h3 s (List.mem_cons_of_mem _ hs)) r2 r3 r4 h7
      refine ⟨head2, new1 ++ new2, vis2, Cl', ?_, s2, s3, s4, s5, s6, s7, ?_, ?_⟩
      · rw [s1]; simp
      · intro p hp
        rcases List.mem_append.mp hp with hp | hp
        · exact r5 p hp
        · exact s8 p hp
      · simp only [Bool.false_eq_true, if_false] at r6
        rw [hborders, List.map_append, List.sum_append, List.map_cons, List.sum_cons]
        have hga := gain_arc (d := d) hf q1 q2 q3
        have : around f head2.poly + ((new1.map (around f)).sum + (new2.map (around f)).sum) + ((borders Cl').map (gain d f)).sum =
            (around f head2.poly + (new2.map (around f)).sum + ((borders Cl').map (gain d f)).sum) + (new1.map (around f)).sum := by abel
        rw [this, s9]
        have : around f head1.poly + ((borders (Cs ++ Cl)).map (gain d f)).sum + (new1.map (around f)).sum =
            (around f head1.poly + (new1.map (around f)).sum) + ((borders (Cs ++ Cl)).map (gain d f)).sum := by abel
        rw [this, r6, e7]
        have hga' : around f q + ((getSegmentsExcept q c.border).map (gain d f)).sum = gain d f c.border := hga
        rw [← hga']
        abel
    | false =>
      have hbody : openBody d (head, res, Cl) c = pure (head, res, Cl ++ [c]) := by
        unfold openBody
        simp only
        rw [if_neg hnv, hloc, lift_ok, pure_bind, if_neg (by rw [htest]; simp)]
      rw [hbody, pure_bind]
      have hperm : (Cs ++ (Cl ++ [c])).Perm (c :: Cs ++ Cl) := by
        rw [← List.append_assoc]
        exact (List.perm_append_comm).trans (by simp)
      have hb : ∀ s, s ∈ borders (Cs ++ (Cl ++ [c])) ↔ s ∈ borders (c :: Cs ++ Cl) := fun s => (hperm.map _).mem_iff
      obtain ⟨head2, new2, vis2, Cl', s1, s2, s3, s4, s5, s6, s7, s8, s9⟩ := ih head res (Cl ++ [c]) O V
        (fun c' hc' => h1 c' (hperm.mem_iff.mp hc'))
        (((hperm.map _).pairwise_iff (fun h => apart_symm h)).mpr (by exact List.pairwise_cons.mpr h2)) (fun s hs => h3 s ((hb s).mp hs)) h4
        (fun s hs => h5 s (by
          rcases List.mem_append.mp hs with hs | hs
          · exact List.mem_append_left _ ((hb s).mp hs)
          · exact List.mem_append_right _ hs))
        (fun i hi q hq s hs => h6 i hi q hq s (by
          rcases List.mem_append.mp hs with hs | hs
          · exact List.mem_append_left _ ((hb s).mp hs)
          · exact List.mem_append_right _ hs)) h7
      refine ⟨head2, new2, vis2, Cl', s1, s2, s3, s4, s5, s6, s7, s8, ?_⟩
      rw [s9, gains_perm hperm]

theorem close_loop (hf : ∀ x y, f x y = - f y x) (hconv : ∀ p ∈ d.polys, Inside d.size p → Convex d.turn p) {L : Nat} (IH : ∀ L' < L, Spec d f L') :
    ∀ (Cl : List Connection) (res : Result) (V : List Seg),
    (∀ c ∈ Cl, ConnOk d c ∧ rank d.size c.border.2 - rank d.size c.border.1 ≤ L) → (borders Cl).Pairwise (Apart d.size) →
    (∀ s ∈ borders Cl, ∀ t ∈ V, Apart d.size s t) → VisInv d res.visited (borders Cl ++ V) → (∀ t ∈ V, rank d.size t.1 < rank d.size t.2) →
    ∃ new vis', Cl.foldlM (closeBody d) res = pure { convex := res.convex ++ new, visited := vis' } ∧
      VisInv d vis' V ∧ (∀ p ∈ new, Good d p) ∧ (new.map (around f)).sum = ((borders Cl).map (gain d f)).sum := by
  intro Cl
  induction Cl with
  | nil =>
    intro res V h1 h2 h3 h4 h5
    exact ⟨[], res.visited, by simp, h4, by simp, by simp [borders]⟩
  | cons c Cl ih =>
    intro res V h1 h2 h3 h4 h5
    obtain ⟨hc, hlen⟩ := h1 c (by simp)
    obtain ⟨q, hq, hi, hs, hadj⟩ := hc.poly
    have hqm : q ∈ d.polys := List.mem_of_getElem? hq
    obtain ⟨mid, q1, q2, q3, q4, q5⟩ := new_gates hc.arc.2.2.1 hqm hi hs
    have hnv : c.newPoly ∉ res.visited := not_visited h4 (by simp [borders]) hq q1 q2
    have hborders : borders (c :: Cl) = c.border :: borders Cl := rfl
    rw [hborders, List.pairwise_cons] at h2
    have hV : ∀ t ∈ borders Cl ++ V, Apart d.size c.border t := by
      intro t ht
      rcases List.mem_append.mp ht with ht | ht
      · exact h2.1 t ht
      · exact h3 c.border (by simp [borders]) t ht
    have hlt : ∀ t ∈ borders Cl ++ V, rank d.size t.1 < rank d.size t.2 := by
      intro t ht
      rcases List.mem_append.mp ht with ht | ht
      · obtain ⟨c', hc', rfl⟩ := List.mem_map.mp ht
        exact (h1 c' (List.mem_cons_of_mem _ hc')).1.arc.2.2.1
      · exact h5 t ht
    have hsub : ∀ s ∈ getSegmentsExcept q c.border, ∀ t, Apart d.size c.border t → Apart d.size s t := by
      intro s hs t ht
      obtain ⟨-, -, -, k1, k2, -⟩ := q5 s hs
      unfold Apart at *
      omega
    have hL0 : L - 1 < L := by
      have := hc.arc.2.2.1
      omega
    obtain ⟨head1, new1, vis1, r1, r2, r3, r4, r5, r6⟩ := IH (L - 1) hL0
      { poly := q, gates := getSegmentsExcept q c.border } res true [] (borders Cl ++ V)
      (fun s hs => ⟨(q5 s hs).1, (q5 s hs).2.1, by have := (q5 s hs).2.2.2.2.2.1; omega⟩) q4
      (fun s hs t ht => by cases ht) (fun s hs t ht => hsub s hs t (hV t ht))
      ⟨inside_nodup hi, hi.1, hi.2.1, hconv q hqm hi⟩ (by
        intro s hs
        simp only [List.append_nil] at hs
        obtain ⟨-, k2, -, -, -, -, -, k7⟩ := q5 s hs
        refine ⟨?_, k7⟩
        unfold getSegmentsExcept at hs
        rw [segments_eq] at hs
        exact List.mem_of_mem_filter hs) (by
        intro i hi' q' hq' s hs
        rcases List.mem_append.mp hs with hs | hs
        · obtain ⟨v, hv, hv'⟩ := h4 i hi' q' hq' c.border (by simp [borders])
          obtain ⟨-, -, -, k1, k2, -⟩ := q5 s hs
          exact ⟨v, hv, by omega⟩
        · refine h4 i hi' q' hq' s ?_
          rw [hborders, List.cons_append]
          exact List.mem_cons_of_mem _ hs) (by rw [List.nil_append]; exact hlt)
    have hbody : closeBody d res c = pure { convex := res.convex ++ new1, visited := vis1 } := by
      unfold closeBody Data.poly
      rw [if_neg hnv, hq]
      simp only
      rw [lift_ok, pure_bind, r1, pure_bind]
    rw [List.foldlM_cons, hbody, pure_bind]
    obtain ⟨new2, vis2, s1, s2, s3, s4⟩ := ih { convex := res.convex ++ new1, visited := vis1 } V (fun c' hc' => h1 c' (List.mem_cons_of_mem _ hc'))
      h2.2 (fun s hs => h3 s (List.mem_cons_of_mem _ hs)) r4 h5
    refine ⟨new1 ++ new2, vis2, by rw [s1]; simp, s2, ?_, ?_⟩
    · intro p hp
      rcases List.mem_append.mp hp with hp | hp
      · exact r5 p hp
      · exact s3 p hp
    · simp only [if_true, zero_add] at r6
      have hga : around f q + ((getSegmentsExcept q c.border).map (gain d f)).sum = gain d f c.border := gain_arc (d := d) hf q1 q2 q3
      rw [hborders, List.map_append, List.sum_append, List.map_cons, List.sum_cons, r6, s4, hga]

theorem dest_spec {s : Seg} (h : ∃ q ∈ d.polys, flip s ∈ sides q) : ∃ i q, d.dest s = .ok i ∧ d.polys[i]? = some q ∧ flip s ∈ sides q := by
  unfold Data.dest
  cases hi : d.polys.findIdx? fun p => decide (flip s ∈ segments p) with
  | none =>
    rw [List.findIdx?_eq_none_iff] at hi
    obtain ⟨q, hq, hs⟩ := h
    have := hi q hq
    rw [segments_eq] at this
    simp [hs] at this
  | some i =>
    rw [List.findIdx?_eq_some_iff_getElem] at hi
    obtain ⟨h1, h2, -⟩ := hi
    rw [segments_eq] at h2
    exact ⟨i, d.polys[i], rfl, List.getElem?_eq_getElem h1, by simpa using h2⟩

/-- the connections of gates -/
theorem connections_spec (h3 : 3 ≤ d.size) (hcf : Conforming d.size d.polys) {vis : List Nat} {L : Nat} : ∀ (l : List Seg),
    (∀ s ∈ l, ArcOk d s ∧ GateOk d s ∧ rank d.size s.2 - rank d.size s.1 ≤ L) → VisInv d vis l →
    ∃ Cs, d.connections vis l = .ok Cs ∧ (∀ c ∈ Cs, ConnOk d c ∧ rank d.size c.border.2 - rank d.size c.border.1 ≤ L) ∧
      (borders Cs).Sublist l ∧ ((borders Cs).map (gain d f)).sum = (l.map (gain d f)).sum := by
  intro l
  induction l with
  | nil => intro _ _; exact ⟨[], rfl, by simp, by simp [borders], by simp [borders]⟩
  | cons s l ih =>
    intro h1 h2
    obtain ⟨Cs, e1, e2, e3, e4⟩ := ih (fun t ht => h1 t (List.mem_cons_of_mem _ ht)) (fun i hi q hq t ht => h2 i hi q hq t (List.mem_cons_of_mem _ ht))
    obtain ⟨a1, ⟨p, hp, hpi, hps⟩, a3⟩ := h1 s (by simp)
    rw [Data.connections]
    by_cases hb : isBorder s d.size = true
    · rw [if_pos hb]
      refine ⟨Cs, e1, e2, e3.cons _, ?_⟩
      rw [List.map_cons, List.sum_cons, gain_border h3 a1 ((border_iff h3 a1.1 a1.2.1).mp hb), zero_add, e4]
    · rw [if_neg hb]
      have hb' : ¬ Border d.size s := fun h => hb ((border_iff h3 a1.1 a1.2.1).mpr h)
      obtain ⟨i, q, k1, k2, k3⟩ := dest_spec (d := d) (hcf.next p hp hpi s hps hb')
      have hqm : q ∈ d.polys := List.mem_of_getElem? k2
      have hqi := hcf.next_inside p hp hpi s hps hb' q hqm k3
      obtain ⟨mid, m1, m2, -⟩ := new_gates a1.2.2.1 hqm hqi k3
      have hnv := not_visited h2 (show s ∈ s :: l by simp) k2 m1 m2
      obtain ⟨x, y, -, g1, -⟩ := getAdjacent_spec (inside_nodup hqi) hqi.1 (a := s.2) (b := s.1) k3
      have g1 : getAdjacent q s = .ok ((s.2, x), (s.1, y)) := g1
      refine ⟨⟨s, ((s.2, x), (s.1, y)), i⟩ :: Cs, ?_, ?_, ?_, ?_⟩
      · simp only [bind, Except.bind, pure, Except.pure]
        rw [k1]
        simp only
        rw [if_neg hnv]
        unfold Data.poly
        rw [k2]
        simp only
        rw [g1]
        simp only
        rw [e1]
      · intro c hc
        rcases List.mem_cons.mp hc with rfl | hc
        · exact ⟨⟨a1, q, k2, hqi, k3, g1⟩, a3⟩
        · exact e2 c hc
      · exact e3.cons_cons s
      · simp only [borders, List.map_cons, List.sum_cons] at e4 ⊢
        rw [e4]

theorem traverse_spec (h3 : 3 ≤ d.size) (hcf : Conforming d.size d.polys) (hf : ∀ x y, f x y = - f y x)
    (hconv : ∀ p ∈ d.polys, Inside d.size p → Convex d.turn p) (hsort : ∀ l, (d.sort l).Perm l) (L : Nat) : Spec d f L := by
  induction L using Nat.strong_induction_on with
  | _ L IH =>
    intro head res o O V h1 h2 hO hV hg hh hv hlt
    obtain ⟨Cs, c1, c2, c3, c4⟩ := connections_spec (f := f) h3 hcf head.gates h1 (fun i hi q hq s hs => hv i hi q hq s (List.mem_append_left _ hs))
    have hperm := hsort Cs
    have hmem : ∀ s, s ∈ borders (d.sort Cs ++ []) → s ∈ head.gates := by
      intro s hs
      rw [List.append_nil] at hs
      exact c3.subset ((hperm.map _).mem_iff.mp hs)
    obtain ⟨head1, new1, vis1, Cl, s1, s2, s3, s4, s5, s6, s7, s8, s9⟩ := open_loop hf hconv IH (d.sort Cs) head res [] O V
      (fun c hc => c2 c (hperm.mem_iff.mp (by simpa using hc)))
      (by rw [List.append_nil]; exact ((hperm.map _).pairwise_iff (fun h => apart_symm h)).mpr (h2.sublist c3))
      (fun s hs t ht => by
        rcases List.mem_append.mp ht with ht | ht
        · exact hO s (hmem s hs) t ht
        · exact hV s (hmem s hs) t ht) hg
      (fun s hs => hh s (by
        rcases List.mem_append.mp hs with hs | hs
        · exact List.mem_append_left _ (hmem s hs)
        · exact List.mem_append_right _ hs))
      (fun i hi q hq s hs => hv i hi q hq s (by
        rcases List.mem_append.mp hs with hs | hs
        · exact List.mem_append_left _ (hmem s hs)
        · exact List.mem_append_right _ hs)) hlt
    obtain ⟨new2, vis2, t1, t2, t3, t4⟩ := close_loop hf hconv IH Cl
      (if o then { convex := res.convex ++ new1 ++ [head1.poly], visited := vis1 } else { convex := res.convex ++ new1, visited := vis1 }) V
      s2 s3 (fun s hs t ht => s4 s hs t (List.mem_append_right _ ht)) (by cases o <;> exact s7) (fun t ht => hlt t (List.mem_append_right _ ht))
    refine ⟨head1, new1 ++ (if o then [head1.poly] else []) ++ new2, vis2, ?_, s5, ?_, t2, ?_, ?_⟩
    · rw [traverse_eq]
      have hgates : d.findGates res.visited head.gates = .ok (d.sort Cs) := by
        unfold Data.findGates
        rw [c1]
        rfl
      rw [hgates, lift_ok, pure_bind, s1, pure_bind]
      simp only
      rw [t1, pure_bind]
      cases o <;> simp
    · intro s hs
      exact s6 s (List.mem_append_right _ hs)
    · intro p hp
      simp only [List.mem_append] at hp
      rcases hp with (hp | hp) | hp
      · exact s8 p hp
      · cases o with
        | true =>
          simp only [if_true, List.mem_singleton] at hp
          subst hp
          exact s5
        | false => simp at hp
      · exact t3 p hp
    · rw [List.append_nil] at s9
      rw [gains_perm hperm, c4] at s9
      rw [← s9]
      cases o with
      | true =>
        simp only [if_true, List.map_append, List.sum_append, t4, zero_add, List.map_cons, List.map_nil, List.sum_cons, List.sum_nil, add_zero]
        abel
      | false =>
        simp only [Bool.false_eq_true, if_false, List.map_append, List.sum_append, t4, List.map_nil, List.sum_nil, add_zero]
        abel

end
end Verif.Tri
