import Verif.Center.Model
import Mathlib.Order.Basic
import Mathlib.Order.Nat
import Mathlib.Data.List.Chain

/-!
C15: the computed centerline.
-/
namespace Verif.Center

variable {D : Type} [LinearOrder D]

/-! ### The next point -/

theorem scan_mem (g : Geo D) (last : Nat × Nat) (isLeft : Bool) (cur other : Nat) :
    ∀ (l : List Nat) (best : Option (Nat × D)) (c : Nat) (d : D), scan g last isLeft cur other l best = some (c, d) →
      best = some (c, d) ∨ (c ∈ l ∧ cur ≤ c ∧ d = g.dist isLeft other c ∧ g.valid last isLeft other c = true) := by
  intro l
  induction l with
  | nil => intro best c d h; exact .inl h
  | cons x l ih =>
    intro best c d h
    have lift : ∀ best', scan g last isLeft cur other l best' = some (c, d) →
        best' = some (c, d) ∨ (c ∈ x :: l ∧ cur ≤ c ∧ d = g.dist isLeft other c ∧ g.valid last isLeft other c = true) := by
      intro b' hb
      rcases ih b' c d hb with h | ⟨h1, h2⟩
      · exact .inl h
      · exact .inr ⟨List.mem_cons_of_mem _ h1, h2⟩
    have new : ∀ (hx : ¬ x < cur) (hv : g.valid last isLeft other x = true),
        scan g last isLeft cur other l (some (x, g.dist isLeft other x)) = some (c, d) →
        (c ∈ x :: l ∧ cur ≤ c ∧ d = g.dist isLeft other c ∧ g.valid last isLeft other c = true) := by
      intro hx hv hs
      rcases lift _ hs with h | h
      · obtain ⟨rfl, rfl⟩ : x = c ∧ g.dist isLeft other x = d := by simpa using h
        exact ⟨by simp, Nat.le_of_not_lt hx, rfl, hv⟩
      · exact h
    unfold scan at h
    by_cases hx : x < cur
    · rw [if_pos hx] at h; exact lift _ h
    · rw [if_neg hx] at h
      cases best with
      | none =>
        simp only at h
        by_cases hv : g.valid last isLeft other x = true
        · rw [if_pos hv] at h; exact .inr (new hx hv h)
        · rw [if_neg hv] at h; exact lift _ h
      | some b =>
        obtain ⟨b, e⟩ := b
        simp only at h
        by_cases hs : g.stop last isLeft other x e = true
        · rw [if_pos hs] at h; exact .inl h
        · rw [if_neg hs] at h
          by_cases hd : e ≤ g.dist isLeft other x
          · rw [if_pos hd] at h; exact lift _ h
          · rw [if_neg hd] at h
            by_cases hv : g.valid last isLeft other x = true
            · rw [if_pos hv] at h; exact .inr (new hx hv h)
            · rw [if_neg hv] at h; exact lift _ h

theorem scan_some (g : Geo D) (last : Nat × Nat) (isLeft : Bool) (cur other : Nat) :
    ∀ (l : List Nat) (b : Nat × D), ∃ c, scan g last isLeft cur other l (some b) = some c ∧ c.2 ≤ b.2 := by
  intro l
  induction l with
  | nil => intro b; exact ⟨b, rfl, le_refl _⟩
  | cons x l ih =>
    intro b
    obtain ⟨b, e⟩ := b
    unfold scan
    by_cases hx : x < cur
    · rw [if_pos hx]; exact ih _
    · rw [if_neg hx]
      simp only
      split
      · exact ⟨_, rfl, le_refl _⟩
      · split
        · exact ih _
        · split
          · obtain ⟨c, hc, hle⟩ := ih (x, g.dist isLeft other x)
            exact ⟨c, hc, le_trans hle (le_of_not_ge (by assumption))⟩
          · exact ih _

/-- The next point on a bound: if the query returns the points of the bound by increasing distance, the result is, among
the points from `cur` on for which the connection is valid, one of minimal distance; nothing is returned iff there is no
such point. The test by the triangle inequality, whatever it says, does no harm. -/
theorem findClosest_spec (g : Geo D) (size cur other : Nat) (last : Nat × Nat) (isLeft : Bool)
    (hmem : ∀ c, c ∈ g.order isLeft other ↔ c < size)
    (hsorted : (g.order isLeft other).Pairwise fun a b => g.dist isLeft other a ≤ g.dist isLeft other b) :
    (∀ c d, findClosest g cur other last isLeft = some (c, d) →
      cur ≤ c ∧ c < size ∧ d = g.dist isLeft other c ∧ g.valid last isLeft other c = true ∧
      ∀ c', cur ≤ c' → c' < size → g.valid last isLeft other c' = true → d ≤ g.dist isLeft other c') ∧
    (findClosest g cur other last isLeft = none ↔
      ∀ c', cur ≤ c' → c' < size → g.valid last isLeft other c' = false) := by
  -- the first valid candidate is the nearest one
  have key : ∀ l : List Nat, l.Pairwise (fun a b => g.dist isLeft other a ≤ g.dist isLeft other b) →
      (∀ c d, scan g last isLeft cur other l none = some (c, d) →
        ∀ c' ∈ l, cur ≤ c' → g.valid last isLeft other c' = true → d ≤ g.dist isLeft other c') ∧
      (scan g last isLeft cur other l none = none → ∀ c' ∈ l, cur ≤ c' → g.valid last isLeft other c' = false) := by
    intro l
    induction l with
    | nil => intro _; exact ⟨fun c d h => by simp [scan] at h, fun _ c' h => by simp at h⟩
    | cons x l ih =>
      intro hp
      obtain ⟨hx, hp⟩ := List.pairwise_cons.mp hp
      obtain ⟨ih1, ih2⟩ := ih hp
      by_cases hlt : x < cur
      · simp only [scan, if_pos hlt]
        refine ⟨fun c d h c' hc' hcur hv => ?_, fun h c' hc' hcur => ?_⟩
        · rcases List.mem_cons.mp hc' with rfl | hm
          · omega
          · exact ih1 c d h c' hm hcur hv
        · rcases List.mem_cons.mp hc' with rfl | hm
          · omega
          · exact ih2 h c' hm hcur
      · simp only [scan, if_neg hlt]
        by_cases hv : g.valid last isLeft other x = true
        · rw [if_pos hv]
          obtain ⟨b, hb, hle⟩ := scan_some g last isLeft cur other l (x, g.dist isLeft other x)
          rw [hb]
          refine ⟨fun c d h c' hc' hcur hv' => ?_, fun h => by cases h⟩
          obtain rfl : b = (c, d) := by simpa using h
          rcases List.mem_cons.mp hc' with rfl | hm
          · exact hle
          · exact le_trans hle (hx c' hm)
        · rw [if_neg hv]
          refine ⟨fun c d h c' hc' hcur hv' => ?_, fun h c' hc' hcur => ?_⟩
          · rcases List.mem_cons.mp hc' with rfl | hm
            · exact absurd hv' hv
            · exact ih1 c d h c' hm hcur hv'
          · rcases List.mem_cons.mp hc' with rfl | hm
            · simpa using hv
            · exact ih2 h c' hm hcur
  obtain ⟨k1, k2⟩ := key _ hsorted
  constructor
  · intro c d h
    rcases scan_mem g last isLeft cur other _ none c d h with h' | ⟨h1, h2, h3, h4⟩
    · cases h'
    · exact ⟨h2, (hmem c).mp h1, h3, h4, fun c' hc hs hv => k1 c d h c' ((hmem c').mpr hs) hc hv⟩
  · constructor
    · intro h c' hc hs; exact k2 h c' ((hmem c').mpr hs) hc
    · intro h
      cases hf : findClosest g cur other last isLeft with
      | none => rfl
      | some cd =>
        obtain ⟨c, d⟩ := cd
        rcases scan_mem g last isLeft cur other _ none c d hf with h' | ⟨h1, h2, h3, h4⟩
        · cases h'
        · rw [h c h2 ((hmem c).mp h1)] at h4; cases h4

/-! ### The whole centerline -/

/-- `q` comes after `p`: no index decreases, at least one increases -/
def After (p q : Nat × Nat) : Prop := p.1 ≤ q.1 ∧ p.2 ≤ q.2 ∧ p ≠ q

/-- the connection from `p` to `q` passed the geometric tests, `q` being found from one of its two points -/
def Tested (g : Geo D) (p q : Nat × Nat) : Prop :=
  g.valid p true q.2 q.1 = true ∨ g.valid p false q.1 q.2 = true

/-- Helper of the proofs: invariant of the loop. -/
structure LoopInv (g : Geo D) (n m l r : Nat) (center : List (Nat × Nat)) (last : Nat × Nat) : Prop where
  l_lt : l < n
  r_lt : r < m
  lastIs : center.getLast? = some last
  chain : center.IsChain fun p q => After p q ∧ Tested g p q
  range : ∀ p ∈ center, p.1 < n ∧ p.2 < m
  le1 : last.1 ≤ l
  le2 : last.2 ≤ r
  head : center.head? = some (0, 0)
  at_end : r ≠ 0 → last = (l, r)

theorem chain_snoc {α : Type} {R : α → α → Prop} : ∀ {l : List α} {x y : α}, l.IsChain R → l.getLast? = some x → R x y →
    (l ++ [y]).IsChain R := by
  intro l
  induction l with
  | nil => intro x y _ h; cases h
  | cons a l ih =>
    intro x y hc hl hr
    cases l with
    | nil =>
      obtain rfl : a = x := by simpa using hl
      simp [hr]
    | cons b l =>
      rw [List.isChain_cons_cons] at hc
      simp only [List.cons_append, List.isChain_cons_cons]
      refine ⟨hc.1, ?_⟩
      have := ih (x := x) (y := y) hc.2 (by simpa [List.getLast?_cons_cons] using hl) hr
      simpa using this

theorem loop_spec (g : Geo D) (n m : Nat) (hL : ∀ j c, c ∈ g.order true j → c < n)
    (hR : ∀ j c, c ∈ g.order false j → c < m) :
    ∀ (k l r : Nat) (center : List (Nat × Nat)) (last : Nat × Nat), (n - l) + (m - r) ≤ k →
      LoopInv g n m l r center last →
      ∃ l' r' center' last', loop g n m l r center last = some (l', r', center') ∧
        LoopInv g n m l' r' center' last' ∧ center'.length ≤ center.length + k ∧
        (l ≤ l' ∧ r ≤ r') ∧ ((last = (l, r) ∨ (l', r') ≠ (l, r)) → last' = (l', r')) := by
  intro k
  induction k with
  | zero => intro l r center last hk inv; have := inv.l_lt; omega
  | succ k ih =>
    intro l r center last hk inv
    have hnot : ¬ (l ≥ n ∨ r ≥ m) := by have := inv.l_lt; have := inv.r_lt; omega
    have stepL : ∀ c d, findClosest g (l + 1) r last true = some (c, d) →
        ∃ l' r' center' last', loop g n m c r (center ++ [(c, r)]) (c, r) = some (l', r', center') ∧
          LoopInv g n m l' r' center' last' ∧ center'.length ≤ center.length + (k + 1) ∧ (l ≤ l' ∧ r ≤ r') ∧
          ((last = (l, r) ∨ (l', r') ≠ (l, r)) → last' = (l', r')) := by
      intro c d hc
      rcases scan_mem g last true (l + 1) r _ none c d hc with h | ⟨h1, h2, -, h4⟩
      · cases h
      have hcn := hL r c h1
      have hne : last ≠ (c, r) := by intro e; have := inv.le1; rw [e] at this; simp only at this; omega
      obtain ⟨l', r', c', la, e1, e2, e3, e4, e5⟩ := ih c r (center ++ [(c, r)]) (c, r) (by omega)
        { l_lt := hcn, r_lt := inv.r_lt, lastIs := by simp,
          chain := chain_snoc inv.chain inv.lastIs
            ⟨⟨by have := inv.le1; show last.1 ≤ c; omega, inv.le2, hne⟩, .inl h4⟩
          range := by
            intro p hp
            rcases List.mem_append.mp hp with h | h
            · exact inv.range p h
            · obtain rfl : p = (c, r) := by simpa using h
              exact ⟨hcn, inv.r_lt⟩
          le1 := le_refl _, le2 := le_refl _
          head := by
            have := inv.head
            cases hcen : center with
            | nil => rw [hcen] at this; cases this
            | cons a t => rw [hcen] at this; simpa using this
          at_end := fun _ => rfl }
      refine ⟨l', r', c', la, e1, e2, ?_, ⟨by omega, e4.2⟩, fun _ => e5 (.inl rfl)⟩
      simp only [List.length_append, List.length_cons, List.length_nil] at e3; omega
    have stepR : ∀ c d, findClosest g (r + 1) l last false = some (c, d) →
        ∃ l' r' center' last', loop g n m l c (center ++ [(l, c)]) (l, c) = some (l', r', center') ∧
          LoopInv g n m l' r' center' last' ∧ center'.length ≤ center.length + (k + 1) ∧ (l ≤ l' ∧ r ≤ r') ∧
          ((last = (l, r) ∨ (l', r') ≠ (l, r)) → last' = (l', r')) := by
      intro c d hc
      rcases scan_mem g last false (r + 1) l _ none c d hc with h | ⟨h1, h2, -, h4⟩
      · cases h
      have hcn := hR l c h1
      have hne : last ≠ (l, c) := by intro e; have := inv.le2; rw [e] at this; simp only at this; omega
      obtain ⟨l', r', c', la, e1, e2, e3, e4, e5⟩ := ih l c (center ++ [(l, c)]) (l, c) (by omega)
        { l_lt := inv.l_lt, r_lt := hcn, lastIs := by simp,
          chain := chain_snoc inv.chain inv.lastIs
            ⟨⟨inv.le1, by have := inv.le2; show last.2 ≤ c; omega, hne⟩, .inr h4⟩
          range := by
            intro p hp
            rcases List.mem_append.mp hp with h | h
            · exact inv.range p h
            · obtain rfl : p = (l, c) := by simpa using h
              exact ⟨inv.l_lt, hcn⟩
          le1 := le_refl _, le2 := le_refl _
          head := by
            have := inv.head
            cases hcen : center with
            | nil => rw [hcen] at this; cases this
            | cons a t => rw [hcen] at this; simpa using this
          at_end := fun _ => rfl }
      refine ⟨l', r', c', la, e1, e2, ?_, ⟨e4.1, by omega⟩, fun _ => e5 (.inl rfl)⟩
      simp only [List.length_append, List.length_cons, List.length_nil] at e3; omega
    rw [loop, if_neg hnot]
    cases hl : findClosest g (l + 1) r last true with
    | none =>
      cases hr : findClosest g (r + 1) l last false with
      | none => exact ⟨l, r, center, last, rfl, inv, by omega, ⟨le_refl _, le_refl _⟩, fun h => by simpa using h⟩
      | some cd => exact stepR cd.1 cd.2 hr
    | some cd =>
      cases hr : findClosest g (r + 1) l last false with
      | none => exact stepL cd.1 cd.2 hl
      | some cd' =>
        simp only
        split
        · exact stepL cd.1 cd.2 hl
        · exact stepR cd'.1 cd'.2 hr

/-- **C15.** For bounds of `n` and `m` points (none empty; at least two each if the first points are the same), whatever
the geometric tests say, the computation ends without undefined behaviour; the centerline starts at the midpoint of the
first points and ends at the midpoint of the last points; each of its points is the midpoint of a left and a right point,
these never move backwards and at least one of them moves; it has at most `n + m + 2` points. All its segments passed the
tests, but for the last one if it leads to the end. -/
theorem centerline_spec (g : Geo D) (n m : Nat) (closed : Bool) (hn : 0 < n) (hm : 0 < m)
    (hclosed : closed = true → 2 ≤ n ∧ 2 ≤ m)
    (hL : ∀ j c, c ∈ g.order true j → c < n) (hR : ∀ j c, c ∈ g.order false j → c < m) :
    ∃ c, calculate g n m closed = some c ∧ c.head? = some (0, 0) ∧ c.getLast? = some (n - 1, m - 1) ∧
      (∀ p ∈ c, p.1 < n ∧ p.2 < m) ∧ c.IsChain After ∧ c.length ≤ n + m + 2 ∧
      (c.IsChain (Tested g) ∨ c.dropLast.IsChain (Tested g)) := by
  let l0 := if closed then 1 else 0
  have inv0 : LoopInv g n m l0 0 [(0, 0)] (0, 0) :=
    { l_lt := by
        cases hc : closed
        · simpa [l0, hc] using hn
        · have := hclosed hc; simp only [l0, hc, if_true]; omega
      r_lt := hm, lastIs := rfl, chain := by simp, range := by intro p hp; obtain rfl : p = (0, 0) := by simpa using hp
                                                               exact ⟨hn, hm⟩
      le1 := Nat.zero_le _, le2 := Nat.zero_le _, head := rfl, at_end := fun h => absurd rfl h }
  obtain ⟨l, r, center, last, he, inv, hlen, -, hlast⟩ :=
    loop_spec g n m hL hR ((n - l0) + (m - 0)) l0 0 [(0, 0)] (0, 0) (le_refl _) inv0
  have hcalc : calculate g n m closed =
      some (if l = n - 1 ∧ r = m - 1 then center else center ++ [(n - 1, m - 1)]) := by
    unfold calculate
    rw [if_neg (by omega)]
    show (loop g n m l0 0 [(0, 0)] (0, 0)).bind _ = _
    rw [he]; rfl
  simp only [List.length_cons, List.length_nil] at hlen
  have ch1 : center.IsChain After := inv.chain.imp fun _ _ h => h.1
  have ch2 : center.IsChain (Tested g) := inv.chain.imp fun _ _ h => h.2
  refine ⟨_, hcalc, ?_⟩
  by_cases hend : l = n - 1 ∧ r = m - 1
  · rw [if_pos hend]
    have hl : last = (n - 1, m - 1) := by
      rw [← hend.1, ← hend.2]
      by_cases hr : r = 0
      · cases hc : closed with
        | false =>
          apply hlast; left; simp [l0, hc]
        | true => have := hclosed hc; omega
      · exact inv.at_end hr
    exact ⟨inv.head, by rw [inv.lastIs, hl], inv.range, ch1, by omega, .inl ch2⟩
  · rw [if_neg hend]
    have hne : center ≠ [] := by intro e; have := inv.lastIs; rw [e] at this; cases this
    refine ⟨?_, by simp, ?_, ?_, ?_, ?_⟩
    · have := inv.head
      cases hcen : center with
      | nil => exact absurd hcen hne
      | cons a t => rw [hcen] at this; simpa using this
    · intro p hp
      rcases List.mem_append.mp hp with h | h
      · exact inv.range p h
      · obtain rfl : p = (n - 1, m - 1) := by simpa using h
        exact ⟨by show n - 1 < n; omega, by show m - 1 < m; omega⟩
    · refine chain_snoc ch1 inv.lastIs ⟨?_, ?_, ?_⟩
      · have := inv.le1; have := inv.l_lt; show last.1 ≤ n - 1; omega
      · have := inv.le2; have := inv.r_lt; show last.2 ≤ m - 1; omega
      · intro e
        have h1 := inv.le1; have h2 := inv.le2; have h3 := inv.l_lt; have h4 := inv.r_lt
        rw [e] at h1 h2
        simp only at h1 h2
        exact hend ⟨by omega, by omega⟩
    · simp only [List.length_append, List.length_cons, List.length_nil]; omega
    · right; simpa using ch2

/-- The same in terms of points: the centerline consists of midpoints of a left and a right point. -/
theorem centerPoints_spec {P Q : Type} (mid : P → P → Q) (left right : List P) (g : Geo D) (closed : Bool)
    (hl : left ≠ []) (hr : right ≠ []) (hclosed : closed = true → 2 ≤ left.length ∧ 2 ≤ right.length)
    (hL : ∀ j c, c ∈ g.order true j → c < left.length) (hR : ∀ j c, c ∈ g.order false j → c < right.length) :
    ∃ c, calculate g left.length right.length closed = some c ∧
      (centerPoints mid left right c).length = c.length ∧
      (centerPoints mid left right c).head? = some (mid (left.head hl) (right.head hr)) ∧
      (centerPoints mid left right c).getLast? = some (mid (left.getLast hl) (right.getLast hr)) ∧
      ∀ q ∈ centerPoints mid left right c, ∃ a ∈ left, ∃ b ∈ right, q = mid a b := by
  have pl : 0 < left.length := List.length_pos_iff.mpr hl
  have pr : 0 < right.length := List.length_pos_iff.mpr hr
  obtain ⟨c, hc, hh, hla, hrange, -⟩ := centerline_spec g left.length right.length closed pl pr hclosed hL hR
  refine ⟨c, hc, ?_, ?_, ?_, ?_⟩
  · clear hc hh hla
    induction c with
    | nil => rfl
    | cons p c ih =>
      have hp := hrange p (by simp)
      have := ih fun q hq => hrange q (by simp [hq])
      have e : centerPoints mid left right (p :: c) =
          mid (left[p.1]'hp.1) (right[p.2]'hp.2) :: centerPoints mid left right c := by
        simp [centerPoints, List.getElem?_eq_getElem hp.1, List.getElem?_eq_getElem hp.2]
      rw [e, List.length_cons, List.length_cons, this]
  · cases c with
    | nil => cases hh
    | cons p c =>
      obtain rfl : p = (0, 0) := by simpa using hh
      simp [centerPoints, List.getElem?_eq_getElem pl, List.getElem?_eq_getElem pr, List.head_eq_getElem]
  · have hne : c ≠ [] := by intro e; rw [e] at hla; cases hla
    have e := List.dropLast_append_getLast hne
    rw [List.getLast?_eq_some_getLast hne] at hla
    have h2 : c.getLast hne = (left.length - 1, right.length - 1) := by simpa using hla
    rw [h2] at e
    rw [← e]
    have q1 : left.length - 1 < left.length := by omega
    have q2 : right.length - 1 < right.length := by omega
    simp [centerPoints, List.getElem?_eq_getElem q1, List.getElem?_eq_getElem q2, List.getLast_eq_getElem]
  · intro q hq
    simp only [centerPoints, List.mem_filterMap] at hq
    obtain ⟨p, hp, hq⟩ := hq
    obtain ⟨h1, h2⟩ := hrange p hp
    simp only [List.getElem?_eq_getElem h1, List.getElem?_eq_getElem h2, Option.bind_eq_bind, Option.bind_some] at hq
    exact ⟨_, List.getElem_mem h1, _, List.getElem_mem h2, by simpa using hq.symm⟩

/-- A left bound with a single point that is also the first point of the right bound: undefined behaviour. -/
theorem closed_single_left_counterexample (g : Geo D) (m : Nat) (hm : 0 < m) : calculate g 1 m true = none := by
  unfold calculate
  rw [if_neg (by omega), loop, if_pos (.inl (by simp))]
  rfl

/-- A right bound with a single point that is also the first point of the left bound: the end is missing. -/
theorem closed_single_right_counterexample :
    ∃ (g : Geo Nat), (∀ j c, c ∈ g.order true j → c < 2) ∧ (∀ j c, c ∈ g.order false j → c < 1) ∧
      calculate g 2 1 true = some [(0, 0)] := by
  refine ⟨⟨fun b _ => if b then [0, 1] else [0], fun _ _ _ => 0, fun _ _ _ _ => true, fun _ _ _ _ _ => false⟩,
    ?_, ?_, ?_⟩
  · intro j c h; simp at h; omega
  · intro j c h; simp at h; omega
  · unfold calculate
    rw [if_neg (by omega), loop, if_neg (by simp)]
    rfl

/-! Bounds of three and two points, all connections valid. -/
/-- Example. -/
def exGeo : Geo Nat :=
  ⟨fun b _ => if b then [0, 1, 2] else [0, 1], fun b j c => if b then 2 * c - j else 3 * c - j, fun _ _ _ _ => true,
    fun _ _ _ _ _ => false⟩

example : (∀ j c, c ∈ exGeo.order true j → c < 3) ∧ (∀ j c, c ∈ exGeo.order false j → c < 2) := by
  constructor <;> intro j c h <;> simp [exGeo] at h <;> omega

example : calculate exGeo 3 2 false = some [(0, 0), (1, 0), (1, 1), (2, 1)] := by
  unfold calculate
  rw [if_neg (by omega)]
  simp only [Bool.false_eq_true, if_false]
  rw [loop, if_neg (by simp)]
  rw [show findClosest exGeo (0 + 1) 0 (0, 0) true = some (1, 2) from rfl,
    show findClosest exGeo (0 + 1) 0 (0, 0) false = some (1, 3) from rfl]
  simp only
  rw [if_pos (by omega), loop, if_neg (by simp)]
  rw [show findClosest exGeo (1 + 1) 0 (1, 0) true = some (2, 4) from rfl,
    show findClosest exGeo (0 + 1) 1 (1, 0) false = some (1, 2) from rfl]
  simp only
  rw [if_neg (by omega), loop, if_neg (by simp)]
  rw [show findClosest exGeo (1 + 1) 1 (1, 1) true = some (2, 3) from rfl,
    show findClosest exGeo (1 + 1) 1 (1, 1) false = none from rfl]
  simp only
  rw [loop, if_neg (by simp)]
  rfl

end Verif.Center
