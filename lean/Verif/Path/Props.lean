import Verif.Path.Model
import Mathlib.Data.List.Rotate
import Mathlib.Data.List.Chain

/-!
C51: the polygon that encloses a path of lanelets and areas, and the remaining lane of a path.
-/
namespace Verif.Path
open Verif.Compound (noRep)
variable {P : Type} [DecidableEq P]

/-! ### specification -/

/-- the sides of a lanelet and of an area -/
inductive Side where
  | start | finish | left | right
  | line (l : LS)

/-- the points of a side, clockwise -/
def sidePts (w : World P) : Prim → Side → Option (List P)
  | .lanelet l _, .left => some (l.points w)
  | .lanelet _ r, .right => some (r.points w).reverse
  | .lanelet l r, .finish =>
    match (l.points w).getLast?, (r.points w).getLast? with
    | some a, some b => some [a, b]
    | _, _ => none
  | .lanelet l r, .start =>
    match (r.points w).head?, (l.points w).head? with
    | some a, some b => some [a, b]
    | _, _ => none
  | .area outer, .line l => if l ∈ outer then some (l.points w) else none
  | _, _ => none

/-- the linestring of a side, clockwise -/
def sideLine : Prim → Side → Option LS
  | .lanelet l _, .left => some l
  | .lanelet _ r, .right => some r.invert
  | .area outer, .line l => if l ∈ outer then some l else none
  | _, _ => none

/-- Specification. -/
def Prim.isLanelet : Prim → Bool
  | .lanelet _ _ => true
  | .area _ => false

/-- Two primitives touch with a side each: the sides have the same ends in opposite order. If both sides are linestrings, it is the same one.
Lanelets must have the same direction: one follows or is left or right of the other. -/
structure Touches (w : World P) (p : Prim) (x : Side) (q : Prim) (y : Side) : Prop where
  ends : ∃ a b, sidePts w p x = some a ∧ sidePts w q y = some b ∧ a.head? = b.getLast? ∧ a.getLast? = b.head?
  same : ∀ l m, sideLine p x = some l → sideLine q y = some m → m = l.invert
  direction : p.isLanelet = true → q.isLanelet = true →
    (x = .finish ∧ y = .start) ∨ (x = .start ∧ y = .finish) ∨ (x = .left ∧ y = .right) ∨ (x = .right ∧ y = .left)

/-- The boundary of a primitive, clockwise, as a closed sequence of points. -/
def boundary (w : World P) : Prim → List P
  | .lanelet l r => l.points w ++ (r.points w).reverse
  | .area outer => outer.flatMap fun l => (l.points w).tail

/-- linestrings that follow each other -/
def Connected (w : World P) : List LS → Prop
  | l :: m :: rest => (l.points w).getLast? = (m.points w).head? ∧ Connected w (m :: rest)
  | _ => True

/-- bounds of lanelets have points; the outer bound of an area is a closed ring of at least two linestrings without repeated points -/
def PrimOk (w : World P) : Prim → Prop
  | .lanelet l r => l.points w ≠ [] ∧ r.points w ≠ []
  | .area outer => 2 ≤ outer.length ∧ (∀ l ∈ outer, 2 ≤ (l.points w).length ∧ (l.points w).IsChain (· ≠ ·)) ∧
      Connected w (outer ++ outer.head?.toList)

/-- `c` is the boundary of the union of the primitives of a path: successive primitives touch, and the sides with which they touch are cut
out. -/
inductive Union (w : World P) : List Prim → List P → Prop where
  | single (p : Prim) : Union w [p] (boundary w p)
  | rotate {ps : List Prim} {c c' : List P} : Union w ps c → c ~r c' → Union w ps c'
  | merge {p q : Prim} {rest : List Prim} {x y : Side} {a b A B : List P} : Touches w p x q y → sidePts w p x = some a → sidePts w q y = some b →
      boundary w p ~r A ++ a.tail → Union w (q :: rest) (b.tail ++ B) → Union w (p :: q :: rest) (A ++ B)

/-- successive primitives touch, and no primitive is entered and left through the same side; `x` is the side of the first primitive that
is entered -/
def GoodFrom (w : World P) : Option Side → List Prim → Prop
  | x, p :: q :: rest => (∃ o i, Touches w p o q i) ∧ ∀ o i, Touches w p o q i → some o ≠ x ∧ GoodFrom w (some i) (q :: rest)
  | _, _ => True

/-! ### closed sequences of sides -/

/-- sides that follow each other, from `d` to `e` -/
inductive Conn : P → List (List P) → P → Prop where
  | nil (d : P) : Conn d [] d
  | cons {d e : P} {t : List P} {m : P} {rest : List (List P)} : (d :: t).getLast? = some m → Conn m rest e → Conn d ((d :: t) :: rest) e

omit [DecidableEq P] in
theorem conn_append {d e : P} {xs ys : List (List P)} : Conn d (xs ++ ys) e ↔ ∃ m, Conn d xs m ∧ Conn m ys e := by
  induction xs generalizing d with
  | nil =>
    constructor
    · intro h; exact ⟨d, .nil d, h⟩
    · rintro ⟨m, h1, h2⟩; cases h1; exact h2
  | cons x xs ih =>
    constructor
    · intro h
      cases h with
      | cons hl h =>
        obtain ⟨m, h1, h2⟩ := ih.mp h
        exact ⟨m, .cons hl h1, h2⟩
    · rintro ⟨m, h1, h2⟩
      cases h1 with
      | cons hl h => exact .cons hl (ih.mpr ⟨m, h, h2⟩)

omit [DecidableEq P] in
theorem conn_last {d e : P} {xs : List (List P)} (h : Conn d xs e) : (d :: xs.flatMap List.tail).getLast? = some e := by
  induction h with
  | nil => rfl
  | @cons d e t m rest hl h ih =>
    rw [List.flatMap_cons, List.tail_cons]
    rw [List.getLast?_cons, Option.some.injEq] at ih
    have : d :: (t ++ rest.flatMap List.tail) = (d :: t) ++ rest.flatMap List.tail := rfl
    rw [this, List.getLast?_append, hl]
    cases hr : (rest.flatMap List.tail).getLast? with
    | none => rw [hr] at ih; simpa using ih
    | some x => rw [hr] at ih; simpa using ih

omit [DecidableEq P] in
/-- walking back -/
theorem conn_back {d e : P} {xs : List (List P)} (h : Conn d xs e) :
    (xs.reverse.flatMap fun s => s.reverse.tail).reverse ++ [e] = d :: xs.flatMap List.tail := by
  induction h with
  | nil => rfl
  | @cons d e t m rest hl h ih =>
    rw [List.reverse_cons, List.flatMap_append, List.reverse_append]
    simp only [List.flatMap_cons, List.flatMap_nil, List.append_nil, List.tail_reverse, List.reverse_reverse, List.append_assoc]
    simp only [List.tail_reverse] at ih
    rw [ih, List.tail_cons]
    have hne : d :: t ≠ [] := by simp
    have hm : (d :: t).getLast hne = m := by
      rw [List.getLast?_eq_some_getLast hne] at hl
      exact Option.some.inj hl
    have h3 : (d :: t).dropLast ++ m :: rest.flatMap List.tail = ((d :: t).dropLast ++ [m]) ++ rest.flatMap List.tail := by simp
    rw [h3, ← hm, List.dropLast_append_getLast hne]
    rfl

omit [DecidableEq P] in
theorem conn_head {d e : P} {x : List P} {xs : List (List P)} (h : Conn d (x :: xs) e) : x.head? = some d := by
  cases h; rfl

/-- what a compound linestring shows of sides that follow each other -/
theorem conn_noRep {d e : P} {xs : List (List P)} (h : Conn d xs e) (hne : xs ≠ []) (hc : ∀ x ∈ xs, x.IsChain (· ≠ ·)) :
    noRep xs.flatten = d :: xs.flatMap List.tail := by
  -- adding a side that starts with `m` in front of a sequence that starts with `m`
  have key : ∀ (d : P) (t : List P) (m : P) (s : List P), (d :: t).IsChain (· ≠ ·) → (d :: t).getLast? = some m →
      noRep ((d :: t) ++ m :: s) = (d :: t).dropLast ++ noRep (m :: s) := by
    intro d t
    induction t generalizing d with
    | nil =>
      intro m s _ hm
      cases hm
      simp [noRep]
    | cons x t ih =>
      intro m s hch hm
      have h1 := ih x m s (List.isChain_cons_cons.mp hch).2 (by simpa using hm)
      have h2 : d ≠ x := (List.isChain_cons_cons.mp hch).1
      rw [List.cons_append, List.cons_append]
      rw [noRep, if_neg h2]
      rw [List.cons_append] at h1
      rw [h1]
      rfl
  have single : ∀ (l : List P), l.IsChain (· ≠ ·) → noRep l = l := by
    intro l
    induction l with
    | nil => intro _; rfl
    | cons a l ih =>
      intro hch
      cases l with
      | nil => rfl
      | cons b l =>
        rw [noRep, if_neg (List.isChain_cons_cons.mp hch).1, ih (List.isChain_cons_cons.mp hch).2]
  induction h with
  | nil => exact absurd rfl hne
  | @cons d e t m rest hl h ih =>
    cases hr : rest with
    | nil =>
      simp only [List.flatten_cons, List.flatten_nil, List.append_nil, List.flatMap_cons, List.flatMap_nil, List.tail_cons]
      exact single _ (hc _ (by simp))
    | cons y ys =>
      rw [← hr]
      have hrne : rest ≠ [] := by rw [hr]; simp
      have h1 := ih hrne fun x hx => hc x (by simp [hx])
      have hy : ∃ s, rest.flatten = m :: s := by
        rw [hr] at h ⊢
        cases h with
        | cons hl' h' => exact ⟨_, rfl⟩
      obtain ⟨s, hs⟩ := hy
      rw [List.flatten_cons, hs, key d t m s (hc _ (by simp)) hl, ← hs, h1]
      have hne' : d :: t ≠ [] := by simp
      have hm : (d :: t).getLast hne' = m := by
        rw [List.getLast?_eq_some_getLast hne'] at hl
        exact Option.some.inj hl
      have h3 : (d :: t).dropLast ++ m :: rest.flatMap List.tail = ((d :: t).dropLast ++ [m]) ++ rest.flatMap List.tail := by simp
      rw [h3, ← hm, List.dropLast_append_getLast hne']
      rfl

/-- sides around a primitive -/
def RingC (ss : List (List P)) : Prop := ∃ d, Conn d ss d

omit [DecidableEq P] in
theorem ring_rotate {ss ss' : List (List P)} (h : RingC ss) (hr : ss ~r ss') : RingC ss' := by
  obtain ⟨n, rfl⟩ := hr
  obtain ⟨d, hd⟩ := h
  rw [List.rotate_eq_drop_append_take_mod]
  rw [← List.take_append_drop (n % ss.length) ss] at hd
  obtain ⟨m, h1, h2⟩ := conn_append.mp hd
  exact ⟨m, conn_append.mpr ⟨d, h2, h1⟩⟩

omit [DecidableEq P] in
theorem rotated_flatMap {α β : Type} (f : α → List β) {l l' : List α} (h : l ~r l') : l.flatMap f ~r l'.flatMap f := by
  obtain ⟨n, rfl⟩ := h
  rw [List.rotate_eq_drop_append_take_mod, List.flatMap_append]
  conv_lhs => rw [← List.take_append_drop (n % l.length) l, List.flatMap_append]
  exact List.isRotated_append

omit [DecidableEq P] in
/-- sides `x`, then `L`, then `y`, then `R` -/
theorem ring_mid {ss : List (List P)} {x y : List P} {L R : List (List P)} (h : RingC ss) (hr : ss ~r x :: (L ++ y :: R)) :
    ∃ a b c d, x.head? = some a ∧ x.getLast? = some b ∧ y.head? = some c ∧ y.getLast? = some d ∧ Conn b L c ∧ Conn d R a ∧
      ss.flatMap List.tail ~r x.tail ++ L.flatMap List.tail ++ y.tail ++ R.flatMap List.tail := by
  obtain ⟨a, ha⟩ := ring_rotate h hr
  have hx := conn_head ha
  cases ha with
  | @cons _ _ t b _ hl h1 =>
    obtain ⟨c, h2, h3⟩ := conn_append.mp h1
    have hy := conn_head h3
    cases h3 with
    | @cons _ _ t' d _ hl' h4 =>
      refine ⟨a, b, c, d, rfl, hl, rfl, hl', h2, h4, ?_⟩
      have := rotated_flatMap List.tail hr
      simpa [List.flatMap_cons, List.flatMap_append, List.append_assoc] using this

omit [DecidableEq P] in
/-- sides `x`, then `L` -/
theorem ring_one {ss : List (List P)} {x : List P} {L : List (List P)} (h : RingC ss) (hr : ss ~r x :: L) :
    ∃ a b, x.head? = some a ∧ x.getLast? = some b ∧ Conn b L a ∧ ss.flatMap List.tail ~r x.tail ++ L.flatMap List.tail := by
  obtain ⟨a, ha⟩ := ring_rotate h hr
  cases ha with
  | @cons _ _ t b _ hl h1 =>
    refine ⟨a, b, rfl, hl, h1, ?_⟩
    have := rotated_flatMap List.tail hr
    simpa [List.flatMap_cons] using this

/-! ### lanelets -/

omit [DecidableEq P] in
theorem points_invert (w : World P) (l : LS) : l.invert.points w = (l.points w).reverse := by
  unfold LS.points LS.invert
  cases l.inv <;> simp

theorem invert_invert (l : LS) : l.invert.invert = l := by
  unfold LS.invert
  simp

/-- the side that belongs to an adjacency -/
def adjSide : Adj → Side
  | .following => .start
  | .preceding => .finish
  | .left => .right
  | .right => .left

section
variable {w : World P} {l r : LS}

/-- points of a side of a lanelet with points -/
theorem side_pts (h : PrimOk w (.lanelet l r)) :
    ∃ s : Adj → List P, (∀ a, sidePts w (.lanelet l r) (adjSide a) = some (s a)) ∧ (∀ a, extractedCw w l r a = .ok (s a).tail) ∧
      (∀ a, extractedCcw w l r a = .ok (s a).reverse.tail) ∧ (∀ a, ∃ e, firstPoint w l r a = .ok e ∧ (s a).getLast? = some e) ∧
      RingC [s .following, s .right, s .preceding, s .left] ∧
      boundary w (.lanelet l r) = [s .following, s .right, s .preceding, s .left].flatMap List.tail := by
  obtain ⟨hl, hr⟩ := h
  obtain ⟨l0, lt, el⟩ := List.exists_cons_of_ne_nil hl
  obtain ⟨r0, rt, er⟩ := List.exists_cons_of_ne_nil hr
  have hlL : ∃ ln, (l0 :: lt).getLast? = some ln := ⟨_, List.getLast?_eq_some_getLast (by simp)⟩
  have hrL : ∃ rn, (r0 :: rt).getLast? = some rn := ⟨_, List.getLast?_eq_some_getLast (by simp)⟩
  obtain ⟨ln, hln⟩ := hlL
  obtain ⟨rn, hrn⟩ := hrL
  have hrr : ∃ t, (r0 :: rt).reverse = rn :: t := by
    cases hq : (r0 :: rt).reverse with
    | nil => simp at hq
    | cons a t =>
      have : (r0 :: rt).reverse.head? = some a := by rw [hq]; rfl
      rw [List.head?_reverse, hrn] at this
      cases this
      exact ⟨t, rfl⟩
  obtain ⟨t, ht⟩ := hrr
  refine ⟨fun | .following => [r0, l0] | .preceding => [ln, rn] | .left => rn :: t | .right => l0 :: lt, ?_, ?_, ?_, ?_, ?_, ?_⟩
  · intro a
    cases a <;> simp only [adjSide, sidePts, el, er, List.head?_cons, hln, hrn, ht]
  · intro a
    cases a
    · simp only [extractedCw, front, el, List.head?_cons]; rfl
    · simp only [extractedCw, back, er, hrn]; rfl
    · simp only [extractedCw, tailOf, points_invert, er, ht]; rfl
    · simp only [extractedCw, tailOf, el]; rfl
  · intro a
    cases a
    · simp only [extractedCcw, front, er, List.head?_cons]; rfl
    · simp only [extractedCcw, back, el, hln]; rfl
    · simp only [extractedCcw, tailOf, er]
      rw [← ht, List.reverse_reverse]; rfl
    · simp only [extractedCcw, tailOf, points_invert, el]
      cases hq : (l0 :: lt).reverse with
      | nil => simp at hq
      | cons => rfl
  · intro a
    cases a
    · exact ⟨l0, by simp [firstPoint, front, el], rfl⟩
    · exact ⟨rn, by simp [firstPoint, back, er, hrn], rfl⟩
    · refine ⟨r0, by simp [firstPoint, front, er], ?_⟩
      show (rn :: t).getLast? = some r0
      rw [← ht, List.getLast?_reverse]; rfl
    · exact ⟨ln, by simp [firstPoint, back, el, hln], hln⟩
  · refine ⟨r0, .cons (m := l0) rfl (.cons (m := ln) hln (.cons (m := rn) rfl (.cons (m := r0) ?_ (.nil r0))))⟩
    rw [← ht, List.getLast?_reverse]; rfl
  · simp only [boundary, el, er, ht, List.flatMap_cons, List.flatMap_nil, List.tail_cons, List.append_nil, List.cons_append, List.nil_append]

theorem mapM_ok {α β : Type} {f : α → Except Fault β} {g : α → β} (h : ∀ a, f a = .ok (g a)) (xs : List α) :
    xs.mapM f = .ok (xs.map g) := by
  induction xs with
  | nil => rfl
  | cons x xs ih => rw [List.mapM_cons, h, ih]; rfl

omit [DecidableEq P] in
/-- sides from `a` on, clockwise -/
theorem rot_from {s : Adj → List P} (a : Adj) :
    [s .following, s .right, s .preceding, s .left] ~r [s a, s (cw a), s (cw (cw a)), s (cw (cw (cw a)))] := by
  cases a
  · exact List.IsRotated.refl _
  · exact ⟨2, rfl⟩
  · exact ⟨3, rfl⟩
  · exact ⟨1, rfl⟩

/-- all sides from one that is not the start to the start again -/
theorem lanelet_around (h : PrimOk w (.lanelet l r)) (a : Adj) :
    ∃ x A c e, sidePts w (.lanelet l r) (adjSide a) = some x ∧ boundsLeft w l r a a = .ok A ∧ firstPoint w l r a = .ok e ∧
      x.head? = some c ∧ x.getLast? = some e ∧ A.getLast? = some c ∧ boundary w (.lanelet l r) ~r x.tail ++ A := by
  obtain ⟨s, h1, h2, h3, h4, h5, h6⟩ := side_pts h
  obtain ⟨e, he1, he2⟩ := h4 a
  obtain ⟨c, b, hc, hb, hconn, hrot⟩ := ring_one h5 (rot_from (s := s) a)
  rw [he2] at hb
  cases hb
  have hA : boundsLeft w l r a a = .ok ([s (cw a), s (cw (cw a)), s (cw (cw (cw a)))].flatMap List.tail) := by
    unfold boundsLeft
    rw [mapM_ok h2]
    cases a <;> simp [sides, cw, pure, Except.pure, bind, Except.bind]
  refine ⟨s a, _, c, e, h1 a, hA, he1, hc, he2, ?_, ?_⟩
  · have := conn_last hconn
    rw [List.getLast?_cons] at this
    cases hl : ([s (cw a), s (cw (cw a)), s (cw (cw (cw a)))].flatMap List.tail).getLast? with
    | some z => rw [hl] at this; simpa using this
    | none =>
      exfalso
      rw [List.getLast?_eq_none_iff] at hl
      -- one of the three is the start or the end edge with two points
      have hs : ∀ y, y = .following ∨ y = .preceding → (s y).tail ≠ [] := by
        intro y hy
        have h1y := h1 y
        rcases hy with rfl | rfl
        · simp only [adjSide, sidePts] at h1y
          split at h1y
          · rw [← Option.some.inj h1y]; simp
          · cases h1y
        · simp only [adjSide, sidePts] at h1y
          split at h1y
          · rw [← Option.some.inj h1y]; simp
          · cases h1y
      simp only [List.flatMap_cons, List.flatMap_nil, List.append_nil, List.append_eq_nil_iff] at hl
      cases a
      · exact hs .preceding (.inr rfl) hl.2.1
      · exact hs .following (.inl rfl) hl.2.1
      · exact hs .following (.inl rfl) hl.1
      · exact hs .preceding (.inr rfl) hl.1
  · rw [h6]; exact hrot

/-- the sides on the left and on the right between two sides -/
theorem lanelet_mid (h : PrimOk w (.lanelet l r)) {a b : Adj} (hab : a ≠ b) :
    ∃ x y L N R c d, sidePts w (.lanelet l r) (adjSide a) = some x ∧ sidePts w (.lanelet l r) (adjSide b) = some y ∧
      boundsLeft w l r a b = .ok L ∧ boundsRight w l r a b = .ok N ∧ x.head? = some c ∧ y.getLast? = some d ∧
      boundary w (.lanelet l r) ~r x.tail ++ L ++ y.tail ++ R ∧ N.reverse ++ [c] = d :: R := by
  obtain ⟨s, h1, h2, h3, h4, h5, h6⟩ := side_pts h
  have hsides : ∃ Ls Rs : List Adj, sides cw b 4 (cw a) = Ls ∧ sides ccw b 4 (ccw a) = Rs.reverse ∧
      [s a, s (cw a), s (cw (cw a)), s (cw (cw (cw a)))] = s a :: (Ls.map s ++ s b :: Rs.map s) := by
    refine ⟨sides cw b 4 (cw a), (sides ccw b 4 (ccw a)).reverse, rfl, by simp, ?_⟩
    cases a <;> cases b <;> first | exact absurd rfl hab | simp [sides, cw, ccw]
  obtain ⟨Ls, Rs, e1, e2, e3⟩ := hsides
  have hrot := rot_from (s := s) a
  rw [e3] at hrot
  obtain ⟨c, b', c', d, hc, -, -, hd, hL, hR, hbd⟩ := ring_mid h5 hrot
  refine ⟨s a, s b, (Ls.map s).flatMap List.tail, (Rs.map s).reverse.flatMap fun z => z.reverse.tail, (Rs.map s).flatMap List.tail, c, d,
    h1 a, h1 b, ?_, ?_, hc, hd, ?_, ?_⟩
  · unfold boundsLeft
    rw [e1, mapM_ok h2]
    simp only [List.flatMap_map, pure, Except.pure, bind, Except.bind]
    rw [List.flatMap_def]
  · unfold boundsRight
    rw [e2, mapM_ok h3]
    simp only [pure, Except.pure, bind, Except.bind, ← List.map_reverse]
    rw [List.flatMap_map, List.flatMap_def]
  · rw [h6]; exact hbd
  · exact conn_back hR

end

/-! ### areas -/

section
variable {w : World P} {outer : List LS}

theorem area_ring (h : PrimOk w (.area outer)) : RingC (outer.map (LS.points w)) := by
  obtain ⟨h1, h2, h3⟩ := h
  have gen : ∀ (ls : List LS) (z : LS), (∀ l ∈ ls, (l.points w) ≠ []) → Connected w (ls ++ [z]) →
      ∀ d e, ((ls ++ [z]).head?.map (LS.points w)).bind List.head? = some d → (z.points w).head? = some e → Conn d (ls.map (LS.points w)) e := by
    intro ls z
    induction ls with
    | nil =>
      intro _ _ d e hd he
      simp only [List.nil_append, List.head?_cons, Option.map_some, Option.bind_some] at hd
      rw [he] at hd; cases hd
      exact .nil _
    | cons l ls ih =>
      intro hne hc d e hd he
      simp only [List.cons_append, List.head?_cons, Option.map_some, Option.bind_some] at hd
      obtain ⟨p, t, hp⟩ := List.exists_cons_of_ne_nil (hne l (by simp))
      rw [hp] at hd
      have hd' : p = d := by simpa using hd
      subst hd'
      rw [List.map_cons, hp]
      obtain ⟨m, hm⟩ : ∃ m, (p :: t).getLast? = some m := ⟨_, List.getLast?_eq_some_getLast (by simp)⟩
      refine .cons hm (ih (fun x hx => hne x (by simp [hx])) ?_ m e ?_ he)
      · cases hls : ls ++ [z] with
        | nil => simp at hls
        | cons y ys =>
          rw [List.cons_append, hls] at hc
          exact hc.2
      · cases hls : ls ++ [z] with
        | nil => simp at hls
        | cons y ys =>
          rw [List.cons_append, hls] at hc
          have := hc.1
          rw [hp, hm] at this
          simp [← this]
  cases hout : outer with
  | nil => rw [hout] at h1; simp at h1
  | cons z rest =>
    rw [hout] at h3 h2
    obtain ⟨d, hd⟩ : ∃ d, (z.points w).head? = some d := by
      have := (h2 z (by simp)).1
      cases hz : z.points w with
      | nil => rw [hz] at this; simp at this
      | cons a t => exact ⟨a, rfl⟩
    refine ⟨d, gen (z :: rest) z (fun l hl => ?_) (by simpa using h3) d d (by simpa using hd) hd⟩
    intro hnil
    have := (h2 l hl).1
    rw [hnil] at this
    simp at this

theorem indexOf_mem {b : LS} (h : b ∈ outer) : ∃ i, indexOf outer b = .ok i ∧ outer[i]? = some b := by
  unfold indexOf
  cases hi : outer.findIdx? fun x => decide (x = b) with
  | none =>
    rw [List.findIdx?_eq_none_iff] at hi
    have := hi b h
    simp at this
  | some i =>
    obtain ⟨h1, h2, -⟩ := List.findIdx?_eq_some_iff_getElem.mp hi
    refine ⟨i, rfl, ?_⟩
    rw [List.getElem?_eq_getElem h1]
    simpa using h2

theorem indexOf_inj {b b' : LS} {i : Nat} (h : indexOf outer b = .ok i) (h' : indexOf outer b' = .ok i) : b = b' := by
  unfold indexOf at h h'
  cases hi : outer.findIdx? fun x => decide (x = b) with
  | none => rw [hi] at h; cases h
  | some j =>
    cases hi' : outer.findIdx? fun x => decide (x = b') with
    | none => rw [hi'] at h'; cases h'
    | some j' =>
      rw [hi] at h; rw [hi'] at h'
      cases h; cases h'
      obtain ⟨_, h2, -⟩ := List.findIdx?_eq_some_iff_getElem.mp hi
      obtain ⟨_, h2', -⟩ := List.findIdx?_eq_some_iff_getElem.mp hi'
      simp only [decide_eq_true_eq] at h2 h2'
      rw [← h2, ← h2']

theorem split_at {α : Type} {ls : List α} {i : Nat} {b : α} (h : ls[i]? = some b) : ls = ls.take i ++ b :: ls.drop (i + 1) := by
  obtain ⟨hi, he⟩ := List.getElem?_eq_some_iff.mp h
  rw [← he]
  exact (List.take_append_drop i ls).symm.trans (by rw [List.drop_eq_getElem_cons hi])

theorem append_conn (hok : PrimOk w (.area outer)) {ls : List LS} (hsub : ∀ l ∈ ls, l ∈ outer) {d e : P}
    (h : Conn d (ls.map (LS.points w)) e) (hne : ls ≠ []) :
    compound w ls = d :: (ls.map (LS.points w)).flatMap List.tail ∧ 2 ≤ (compound w ls).length := by
  have h1 : compound w ls = d :: (ls.map (LS.points w)).flatMap List.tail := by
    unfold compound Compound.view
    simp only [Bool.false_eq_true, if_false]
    apply conn_noRep h (by simpa using hne)
    intro x hx
    obtain ⟨l, hl, rfl⟩ := List.mem_map.mp hx
    exact (hok.2.1 l (hsub l hl)).2
  refine ⟨h1, ?_⟩
  rw [h1]
  cases ls with
  | nil => exact absurd rfl hne
  | cons l ls =>
    have := (hok.2.1 l (hsub l (by simp))).1
    simp only [List.map_cons, List.flatMap_cons, List.length_cons, List.length_append, List.length_tail]
    omega

/-- one border cut out -/
theorem area_around (hok : PrimOk w (.area outer)) {b : LS} (hb : b ∈ outer) :
    ∃ ls A c e, extractExceptBorder outer b = .ok ls ∧ compound w ls = e :: A ∧ 2 ≤ (e :: A).length ∧ (b.points w).head? = some c ∧
      (b.points w).getLast? = some e ∧ A.getLast? = some c ∧ boundary w (.area outer) ~r (b.points w).tail ++ A := by
  obtain ⟨i, hi, hget⟩ := indexOf_mem hb
  have hs := split_at hget
  have hrot : outer ~r b :: (outer.drop (i + 1) ++ outer.take i) := by
    conv_lhs => rw [hs]
    exact List.isRotated_append
  have hrot' := (List.IsRotated.map hrot (LS.points w))
  rw [List.map_cons] at hrot'
  obtain ⟨c, e, hc, he, hconn, hbd⟩ := ring_one (area_ring hok) hrot'
  have hne : outer.drop (i + 1) ++ outer.take i ≠ [] := by
    intro hnil
    have : outer.length = 1 := by
      have := hrot.perm.length_eq
      rw [hnil] at this
      simpa using this
    have := hok.1
    omega
  obtain ⟨h1, h2⟩ := append_conn hok (ls := outer.drop (i + 1) ++ outer.take i)
    (fun l hl => by
      rcases List.mem_append.mp hl with hl | hl
      · exact List.mem_of_mem_drop hl
      · exact List.mem_of_mem_take hl) hconn hne
  refine ⟨_, ((outer.drop (i + 1) ++ outer.take i).map (LS.points w)).flatMap List.tail, c, e, ?_, h1, ?_, hc, he, ?_, ?_⟩
  · unfold extractExceptBorder extractBetween
    rw [hi]
    simp [bind, Except.bind, pure, Except.pure]
  · rw [← h1]; exact h2
  · have := conn_last hconn
    rw [h1] at h2
    generalize ((outer.drop (i + 1) ++ outer.take i).map (LS.points w)).flatMap List.tail = A at this h2
    cases A with
    | nil => simp at h2
    | cons a A => simpa using this
  · have : boundary w (.area outer) = (outer.map (LS.points w)).flatMap List.tail := by
      simp [boundary, List.flatMap_map]
    rw [this]; exact hbd

/-- the sides on the left and on the right between two borders -/
theorem area_mid (hok : PrimOk w (.area outer)) {rear fr : LS} (hr : rear ∈ outer) (hf : fr ∈ outer) (hne : rear ≠ fr) :
    ∃ f s L N R c d, extractBounds outer rear fr = .ok (f, s) ∧ appendLineStrings w f false false true = L ∧
      appendLineStrings w s true false true = N ∧ (rear.points w).head? = some c ∧ (fr.points w).getLast? = some d ∧
      boundary w (.area outer) ~r (rear.points w).tail ++ L ++ (fr.points w).tail ++ R ∧ N.reverse ++ [c] = d :: R := by
  obtain ⟨i, hi, hgi⟩ := indexOf_mem hr
  obtain ⟨j, hj, hgj⟩ := indexOf_mem hf
  have hij : i ≠ j := by
    rintro rfl
    exact hne (indexOf_inj hi hj)
  have hilt := (List.getElem?_eq_some_iff.mp hgi).1
  have hjlt := (List.getElem?_eq_some_iff.mp hgj).1
  have hrot : outer ~r rear :: (extractBetween outer i j ++ fr :: extractBetween outer j i) := by
    rcases Nat.lt_or_gt_of_ne hij with hlt | hlt
    · have e1 : extractBetween outer i j = (outer.take j).drop (i + 1) := by
        unfold extractBetween
        rw [if_neg (by omega)]
      have e2 : extractBetween outer j i = outer.drop (j + 1) ++ outer.take i := by
        unfold extractBetween
        rw [if_pos (by omega)]
      rw [e1, e2]
      have hs := split_at hgj
      have hg' : (outer.take j)[i]? = some rear := by rw [List.getElem?_take_of_lt hlt]; exact hgi
      have hs' := split_at hg'
      rw [List.take_take, Nat.min_eq_left (by omega)] at hs'
      have : outer = outer.take i ++ (rear :: ((outer.take j).drop (i + 1) ++ fr :: outer.drop (j + 1))) := by
        conv_lhs => rw [hs, hs']
        simp
      conv_lhs => rw [this]
      have h2 : rear :: ((outer.take j).drop (i + 1) ++ fr :: (outer.drop (j + 1) ++ outer.take i)) =
          (rear :: ((outer.take j).drop (i + 1) ++ fr :: outer.drop (j + 1))) ++ outer.take i := by simp
      rw [h2]
      exact List.isRotated_append
    · have e1 : extractBetween outer i j = outer.drop (i + 1) ++ outer.take j := by
        unfold extractBetween
        rw [if_pos (by omega)]
      have e2 : extractBetween outer j i = (outer.take i).drop (j + 1) := by
        unfold extractBetween
        rw [if_neg (by omega)]
      rw [e1, e2]
      have hs := split_at hgi
      have hg' : (outer.take i)[j]? = some fr := by rw [List.getElem?_take_of_lt hlt]; exact hgj
      have hs' := split_at hg'
      rw [List.take_take, Nat.min_eq_left (by omega)] at hs'
      have : outer = (outer.take j ++ fr :: (outer.take i).drop (j + 1)) ++ rear :: outer.drop (i + 1) := by
        conv_lhs => rw [hs, hs']
      conv_lhs => rw [this]
      have h2 : rear :: (outer.drop (i + 1) ++ outer.take j ++ fr :: (outer.take i).drop (j + 1)) =
          (rear :: outer.drop (i + 1)) ++ (outer.take j ++ fr :: (outer.take i).drop (j + 1)) := by simp
      rw [h2]
      exact List.isRotated_append
  have hsub : ∀ a b, ∀ l ∈ extractBetween outer a b, l ∈ outer := by
    intro a b l hl
    unfold extractBetween at hl
    split at hl
    · rcases List.mem_append.mp hl with hl | hl
      · exact List.mem_of_mem_drop hl
      · exact List.mem_of_mem_take hl
    · exact List.mem_of_mem_take (List.mem_of_mem_drop hl)
  have hrot' := List.IsRotated.map hrot (LS.points w)
  rw [List.map_cons, List.map_append, List.map_cons] at hrot'
  obtain ⟨c, b, c', d, hc, -, -, hd, hL, hR, hbd⟩ := ring_mid (area_ring hok) hrot'
  refine ⟨extractBetween outer i j, extractBetween outer j i, ((extractBetween outer i j).map (LS.points w)).flatMap List.tail,
    (d :: ((extractBetween outer j i).map (LS.points w)).flatMap List.tail).dropLast.reverse,
    ((extractBetween outer j i).map (LS.points w)).flatMap List.tail, c, d, ?_, ?_, ?_, hc, hd, ?_, ?_⟩
  · unfold extractBounds
    rw [hi, hj]
    rfl
  · by_cases he : extractBetween outer i j = []
    · rw [he]; rfl
    · obtain ⟨h1, h2⟩ := append_conn hok (hsub i j) hL he
      unfold appendLineStrings
      simp only [Bool.false_or, if_true, Bool.and_false, Bool.false_eq_true, if_false]
      rw [if_neg (by omega), h1, List.tail_cons]
  · by_cases he : extractBetween outer j i = []
    · rw [he]; rfl
    · obtain ⟨h1, h2⟩ := append_conn hok (hsub j i) hR he
      unfold appendLineStrings
      simp only [Bool.false_or, if_true, Bool.and_false, Bool.false_eq_true, if_false]
      rw [if_neg (by omega), h1, List.tail_reverse]
  · have : boundary w (.area outer) = (outer.map (LS.points w)).flatMap List.tail := by
      simp [boundary, List.flatMap_map]
    rw [this]; exact hbd
  · have := conn_last hR
    rw [List.reverse_reverse]
    have hne' : d :: ((extractBetween outer j i).map (LS.points w)).flatMap List.tail ≠ [] := by simp
    rw [List.getLast?_eq_some_getLast hne'] at this
    rw [← Option.some.inj this]
    exact List.dropLast_append_getLast hne'

end

/-! ### the borders that the code finds -/

section
variable {w : World P}

theorem front_ok {l : LS} (h : l.points w ≠ []) : ∃ a, front w l = .ok a ∧ (l.points w).head? = some a := by
  obtain ⟨a, t, e⟩ := List.exists_cons_of_ne_nil h
  exact ⟨a, by simp [front, e], by simp [e]⟩

theorem back_ok {l : LS} (h : l.points w ≠ []) : ∃ a, back w l = .ok a ∧ (l.points w).getLast? = some a := by
  have := List.getLast?_eq_some_getLast h
  exact ⟨(l.points w).getLast h, by simp [back, this], this⟩

theorem findEnds_spec {ls : List LS} (h : ∀ l ∈ ls, l.points w ≠ []) (p1 p2 : P) :
    ∃ o, findEnds w p1 p2 ls = .ok o ∧
      (∀ l, o = some l → l ∈ ls ∧ (l.points w).getLast? = some p1 ∧ (l.points w).head? = some p2) ∧
      (o = none → ∀ l ∈ ls, ¬ ((l.points w).getLast? = some p1 ∧ (l.points w).head? = some p2)) := by
  induction ls with
  | nil => exact ⟨none, rfl, by simp, by simp⟩
  | cons l ls ih =>
    obtain ⟨b, hb, hb'⟩ := back_ok (h l (by simp))
    obtain ⟨f, hf, hf'⟩ := front_ok (h l (by simp))
    unfold findEnds
    rw [hb, hf]
    simp only [bind, Except.bind, pure, Except.pure]
    by_cases hc : b = p1 ∧ f = p2
    · rw [if_pos hc]
      refine ⟨some l, rfl, ?_, by simp⟩
      intro l' hl'
      cases hl'
      exact ⟨by simp, by rw [hb', hc.1], by rw [hf', hc.2]⟩
    · rw [if_neg hc]
      obtain ⟨o, h1, h2, h3⟩ := ih fun x hx => h x (by simp [hx])
      refine ⟨o, h1, fun l' hl' => ?_, fun ho l' hl' => ?_⟩
      · obtain ⟨a, b⟩ := h2 l' hl'
        exact ⟨by simp [a], b⟩
      · rcases List.mem_cons.mp hl' with rfl | hl'
        · rw [hb', hf']
          simpa using hc
        · exact h3 ho l' hl'

theorem area_points {outer : List LS} (h : PrimOk w (.area outer)) : ∀ l ∈ outer, l.points w ≠ [] := by
  intro l hl hn
  have := (h.2.1 l hl).1
  rw [hn] at this
  simp at this

/-- The sides with which a lanelet and an area touch are the ones that are found. -/
theorem adjacencyArea_spec {l r : LS} {outer : List LS} (hl : PrimOk w (.lanelet l r)) (ha : PrimOk w (.area outer)) :
    ∃ o, adjacencyArea w l r outer = .ok o ∧
      (∀ a b, o = some (a, b) → Touches w (.lanelet l r) (adjSide a) (.area outer) (.line b)) ∧
      (o = none → ∀ x y, ¬ Touches w (.lanelet l r) x (.area outer) y) := by
  obtain ⟨lf, e1, e1'⟩ := front_ok hl.1
  obtain ⟨lb, e2, e2'⟩ := back_ok hl.1
  obtain ⟨rf, e3, e3'⟩ := front_ok hl.2
  obtain ⟨rb, e4, e4'⟩ := back_ok hl.2
  have hpts := area_points ha
  have i1 : back w r.invert = .ok rf := by simp [back, points_invert, e3']
  have i2 : back w l.invert = .ok lf := by simp [back, points_invert, e1']
  obtain ⟨o1, f1, f2, f3⟩ := findEnds_spec hpts rf lf
  obtain ⟨o2, g1, g2, g3⟩ := findEnds_spec hpts lb rb
  have c1 : commonFollowing w l r outer = .ok o1 := by
    unfold commonFollowing commonPreceding
    rw [i1, i2]; exact f1
  have c2 : commonPreceding w l r outer = .ok o2 := by
    unfold commonPreceding
    rw [e2, e4]; exact g1
  unfold adjacencyArea
  rw [c1]
  simp only [bind, Except.bind, pure, Except.pure]
  cases o1 with
  | some m =>
    obtain ⟨hm, m1, m2⟩ := f2 m rfl
    refine ⟨_, rfl, fun a b hab => ?_, by simp⟩
    cases hab
    refine ⟨⟨[rf, lf], m.points w, ?_, ?_, ?_, ?_⟩, ?_, ?_⟩
    · simp [adjSide, sidePts, e1', e3']
    · simp [sidePts, hm]
    · simp [m1]
    · simp [m2]
    · intro x y hx; simp [adjSide, sideLine] at hx
    · intro _ h; cases h
  | none =>
    rw [c2]
    simp only
    cases o2 with
    | some m =>
      obtain ⟨hm, m1, m2⟩ := g2 m rfl
      refine ⟨_, rfl, fun a b hab => ?_, by simp⟩
      cases hab
      refine ⟨⟨[lb, rb], m.points w, ?_, ?_, ?_, ?_⟩, ?_, ?_⟩
      · simp [adjSide, sidePts, e2', e4']
      · simp [sidePts, hm]
      · simp [m1]
      · simp [m2]
      · intro x y hx; simp [adjSide, sideLine] at hx
      · intro _ h; cases h
    | none =>
      simp only
      by_cases hL : areaLeftOf l outer = true
      · rw [if_pos hL]
        refine ⟨_, rfl, fun a b hab => ?_, by simp⟩
        cases hab
        unfold areaLeftOf at hL
        rw [List.any_eq_true] at hL
        obtain ⟨m, hm, hml⟩ := hL
        simp only [decide_eq_true_eq] at hml
        have hml' : m = l.invert := by rw [← hml, invert_invert]
        subst hml'
        refine ⟨⟨l.points w, l.invert.points w, rfl, by simp [sidePts, hm], ?_, ?_⟩, ?_, ?_⟩
        · simp [points_invert]
        · simp [points_invert]
        · intro x y hx hy
          simp only [adjSide, sideLine, Option.some.injEq] at hx
          simp only [sideLine, if_pos hm, Option.some.injEq] at hy
          rw [← hx, ← hy]
        · intro _ h; cases h
      · rw [if_neg hL]
        by_cases hR : areaLeftOf r.invert outer = true
        · rw [if_pos hR]
          refine ⟨_, rfl, fun a b hab => ?_, by simp⟩
          cases hab
          unfold areaLeftOf at hR
          rw [List.any_eq_true] at hR
          obtain ⟨m, hm, hml⟩ := hR
          simp only [decide_eq_true_eq] at hml
          have hml' : m = r := by rw [← invert_invert m, hml, invert_invert]
          subst hml'
          refine ⟨⟨(m.points w).reverse, m.points w, rfl, by simp [sidePts, hm], ?_, ?_⟩, ?_, ?_⟩
          · simp
          · simp
          · intro x y hx hy
            simp only [adjSide, sideLine, Option.some.injEq] at hx
            simp only [sideLine, if_pos hm, Option.some.injEq] at hy
            rw [← hx, ← hy, invert_invert]
          · intro _ h; cases h
        · rw [if_neg hR]
          refine ⟨none, rfl, by simp, fun _ x y ht => ?_⟩
          obtain ⟨⟨a, b, ha', hb', h1, h2⟩, hs, -⟩ := ht
          cases y with
          | line m =>
            simp only [sidePts] at hb'
            split at hb'
            · rename_i hm
              cases hb'
              cases x with
              | start =>
                simp only [sidePts, e1', e3', Option.some.injEq] at ha'
                subst ha'
                exact f3 rfl m hm ⟨by simpa using h1.symm, by simpa using h2.symm⟩
              | finish =>
                simp only [sidePts, e2', e4', Option.some.injEq] at ha'
                subst ha'
                exact g3 rfl m hm ⟨by simpa using h1.symm, by simpa using h2.symm⟩
              | left =>
                have := hs l m rfl (by simp [sideLine, hm])
                apply hL
                unfold areaLeftOf
                rw [List.any_eq_true]
                exact ⟨m, hm, by simp [this, invert_invert]⟩
              | right =>
                have := hs r.invert m rfl (by simp [sideLine, hm])
                rw [invert_invert] at this
                apply hR
                unfold areaLeftOf
                rw [List.any_eq_true]
                exact ⟨m, hm, by simp [this]⟩
              | line => simp [sidePts] at ha'
            · cases hb'
          | start => simp [sidePts] at hb'
          | finish => simp [sidePts] at hb'
          | left => simp [sidePts] at hb'
          | right => simp [sidePts] at hb'

theorem touches_symm {p q : Prim} {x y : Side} (h : Touches w p x q y) : Touches w q y p x := by
  obtain ⟨⟨a, b, h1, h2, h3, h4⟩, h5, h6⟩ := h
  refine ⟨⟨b, a, h2, h1, h4.symm, h3.symm⟩, ?_, ?_⟩
  · intro l m hl hm
    rw [h5 m l hm hl, invert_invert]
  · intro hq hp
    rcases h6 hp hq with ⟨rfl, rfl⟩ | ⟨rfl, rfl⟩ | ⟨rfl, rfl⟩ | ⟨rfl, rfl⟩
    · exact .inr (.inl ⟨rfl, rfl⟩)
    · exact .inl ⟨rfl, rfl⟩
    · exact .inr (.inr (.inr ⟨rfl, rfl⟩))
    · exact .inr (.inr (.inl ⟨rfl, rfl⟩))

/-- The sides with which two areas touch are the ones that are found. -/
theorem commonAreas_spec {outer outer' : List LS} (hp : PrimOk w (.area outer')) :
    (∀ b, commonAreas outer' outer = some b → Touches w (.area outer) (.line b.invert) (.area outer') (.line b)) ∧
      (commonAreas outer' outer = none → ∀ x y, ¬ Touches w (.area outer) x (.area outer') y) := by
  unfold commonAreas
  constructor
  · intro b hb
    have h1 := List.find?_some hb
    have h2 := List.mem_of_find?_eq_some hb
    rw [List.any_eq_true] at h1
    obtain ⟨m, hm, hmb⟩ := h1
    simp only [decide_eq_true_eq] at hmb
    subst hmb
    refine ⟨⟨b.invert.points w, b.points w, by simp [sidePts, hm], by simp [sidePts, h2], by simp [points_invert], by simp [points_invert]⟩, ?_, ?_⟩
    · intro l m hl hm'
      simp only [sideLine, if_pos hm, Option.some.injEq] at hl
      simp only [sideLine, if_pos h2, Option.some.injEq] at hm'
      rw [← hl, ← hm', invert_invert]
    · intro h; cases h
  · intro hn x y ht
    rw [List.find?_eq_none] at hn
    obtain ⟨⟨a, b, ha, hb, -, -⟩, hs, -⟩ := ht
    cases x with
    | line l =>
      cases y with
      | line m =>
        simp only [sidePts] at ha hb
        split at ha
        · rename_i hl
          split at hb
          · rename_i hm
            have := hs l m (by simp [sideLine, hl]) (by simp [sideLine, hm])
            apply hn m hm
            rw [List.any_eq_true]
            exact ⟨l, hl, by simp [this, invert_invert]⟩
          · cases hb
        · cases ha
      | start => simp [sidePts] at hb
      | finish => simp [sidePts] at hb
      | left => simp [sidePts] at hb
      | right => simp [sidePts] at hb
    | start => simp [sidePts] at ha
    | finish => simp [sidePts] at ha
    | left => simp [sidePts] at ha
    | right => simp [sidePts] at ha

theorem follows_iff {l r l' r' : LS} : follows w l r l' r' = true ↔
    l.points w ≠ [] ∧ r.points w ≠ [] ∧ l'.points w ≠ [] ∧ r'.points w ≠ [] ∧
      (l.points w).getLast? = (l'.points w).head? ∧ (r.points w).getLast? = (r'.points w).head? := by
  unfold follows
  simp only [Bool.and_eq_true, Bool.not_eq_true', List.isEmpty_eq_false_iff, decide_eq_true_eq]
  tauto

/-- If two lanelets touch, the adjacency that is found is one with which they touch. -/
theorem adjacencyLanelets_spec {l r l' r' : LS} (hp : PrimOk w (.lanelet l r)) (hq : PrimOk w (.lanelet l' r'))
    (h : ∃ x y, Touches w (.lanelet l r) x (.lanelet l' r') y) :
    Touches w (.lanelet l r) (adjSide (adjacencyLanelets w l r l' r').1) (.lanelet l' r') (adjSide (adjacencyLanelets w l r l' r').2) := by
  obtain ⟨lf, -, e1'⟩ := front_ok hp.1
  obtain ⟨lb, -, e2'⟩ := back_ok hp.1
  obtain ⟨rf, -, e3'⟩ := front_ok hp.2
  obtain ⟨rb, -, e4'⟩ := back_ok hp.2
  obtain ⟨lf', -, k1'⟩ := front_ok hq.1
  obtain ⟨lb', -, k2'⟩ := back_ok hq.1
  obtain ⟨rf', -, k3'⟩ := front_ok hq.2
  obtain ⟨rb', -, k4'⟩ := back_ok hq.2
  unfold adjacencyLanelets
  split
  · rename_i hf
    obtain ⟨-, -, -, -, h1, h2⟩ := follows_iff.mp hf
    refine ⟨⟨[lb, rb], [rf', lf'], by simp [adjSide, sidePts, e2', e4'], by simp [adjSide, sidePts, k1', k3'], ?_, ?_⟩, ?_, ?_⟩
    · rw [e2', k1'] at h1; simpa using h1
    · rw [e4', k3'] at h2; simpa using h2
    · intro x y hx; simp [adjSide, sideLine] at hx
    · intro _ _; exact .inl ⟨rfl, rfl⟩
  · rename_i nf
    split
    · rename_i hf
      obtain ⟨-, -, -, -, h1, h2⟩ := follows_iff.mp hf
      refine ⟨⟨[rf, lf], [lb', rb'], by simp [adjSide, sidePts, e1', e3'], by simp [adjSide, sidePts, k2', k4'], ?_, ?_⟩, ?_, ?_⟩
      · rw [k4', e3'] at h2; simpa using h2.symm
      · rw [k2', e1'] at h1; simpa using h1.symm
      · intro x y hx; simp [adjSide, sideLine] at hx
      · intro _ _; exact .inr (.inl ⟨rfl, rfl⟩)
    · rename_i nf'
      split
      · rename_i he
        subst he
        refine ⟨⟨r'.points w, (r'.points w).reverse, by simp [adjSide, sidePts], by simp [adjSide, sidePts], by simp, by simp⟩, ?_, ?_⟩
        · intro x y hx hy
          simp only [adjSide, sideLine, Option.some.injEq] at hx hy
          rw [← hx, ← hy]
        · intro _ _; exact .inr (.inr (.inl ⟨rfl, rfl⟩))
      · rename_i ne
        split
        · rename_i he
          subst he
          refine ⟨⟨(r.points w).reverse, r.points w, by simp [adjSide, sidePts], by simp [adjSide, sidePts], by simp, by simp⟩, ?_, ?_⟩
          · intro x y hx hy
            simp only [adjSide, sideLine, Option.some.injEq] at hx hy
            rw [← hx, ← hy, invert_invert]
          · intro _ _; exact .inr (.inr (.inr ⟨rfl, rfl⟩))
        · rename_i ne'
          exfalso
          obtain ⟨x, y, ⟨a, b, ha, hb, h1, h2⟩, hs, hd⟩ := h
          rcases hd rfl rfl with ⟨rfl, rfl⟩ | ⟨rfl, rfl⟩ | ⟨rfl, rfl⟩ | ⟨rfl, rfl⟩
          · simp only [sidePts, e2', e4', k1', k3', Option.some.injEq] at ha hb
            subst ha hb
            exact nf (follows_iff.mpr ⟨hp.1, hp.2, hq.1, hq.2, by simpa [e2', k1'] using h1, by simpa [e4', k3'] using h2⟩)
          · simp only [sidePts, e1', e3', k2', k4', Option.some.injEq] at ha hb
            subst ha hb
            exact nf' (follows_iff.mpr ⟨hq.1, hq.2, hp.1, hp.2, by simpa [e1', k2'] using h2.symm, by simpa [e3', k4'] using h1.symm⟩)
          · have := hs l r'.invert rfl rfl
            apply ne
            rw [← invert_invert r', this, invert_invert]
          · have := hs r.invert l' rfl rfl
            apply ne'
            rw [this, invert_invert]

/-! ### the loop -/

/-- what the loop knows about the side with which `q` is entered -/
def Entered (br : Res P) : Prim → Side → Prop
  | .lanelet _ _, y => ∃ a, br.llAdj = some a ∧ y = adjSide a
  | .area _, y => ∃ b, br.prevBorder = some b ∧ y = .line b

theorem adjSide_inj {a b : Adj} (h : adjSide a = adjSide b) : a = b := by
  cases a <;> cases b <;> first | rfl | cases h

theorem side_mem {outer : List LS} {b : LS} {x : List P} (h : sidePts w (.area outer) (.line b) = some x) : b ∈ outer ∧ x = b.points w := by
  simp only [sidePts] at h
  split at h
  · rename_i hb
    cases h
    exact ⟨hb, rfl⟩
  · cases h

/-- the end of the path -/
theorem append_last {p : Prim} {br : Res P} {y : Side} {ypts : List P} {e : P} (hok : PrimOk w p) (hen : Entered br p y)
    (hy : sidePts w p y = some ypts) (he : ypts.head? = some e) :
    ∃ M br', appendBounds w br p none = .ok br' ∧ br'.left = br.left ++ M ∧ br'.right = br.right ∧
      boundary w p ~r ypts.tail ++ (M ++ [e]) := by
  cases p with
  | lanelet l r =>
    obtain ⟨a, ha, rfl⟩ := hen
    obtain ⟨x, A, c, e', h1, h2, h3, h4, h5, h6, h7⟩ := lanelet_around hok a
    rw [hy] at h1
    cases h1
    rw [he] at h4
    cases h4
    have hne : A ≠ [] := by rintro rfl; simp at h6
    refine ⟨A.dropLast, { br with left := br.left ++ A.dropLast }, ?_, rfl, rfl, ?_⟩
    · simp only [appendBounds, appendLaneletBounds, ha, deref, h2, bind, Except.bind, pure, Except.pure, ne_eq, not_true_eq_false, if_false,
        List.append_nil]
      rw [if_neg (by simp [hne]), List.dropLast_append_of_ne_nil hne]
    · rw [List.getLast?_eq_some_getLast hne] at h6
      rw [← Option.some.inj h6, List.dropLast_append_getLast hne]
      exact h7
  | area outer =>
    obtain ⟨b, hb, rfl⟩ := hen
    obtain ⟨hmem, rfl⟩ := side_mem hy
    obtain ⟨ls, A, c, e', h1, h2, h3, h4, h5, h6, h7⟩ := area_around hok hmem
    rw [he] at h4
    cases h4
    have hne : A ≠ [] := by rintro rfl; simp at h6
    refine ⟨A.dropLast, { br with left := br.left ++ A.dropLast }, ?_, rfl, rfl, ?_⟩
    · simp only [appendBounds, hb, h1, bind, Except.bind, pure, Except.pure]
      have : appendLineStrings w ls false true true = A.dropLast := by
        unfold appendLineStrings
        simp only [h2, Bool.or_self, Bool.and_self, if_true, Bool.false_eq_true, if_false, List.tail_cons]
        split
        · rename_i hlt
          simp only [List.length_cons] at hlt h3
          match A, hne with
          | [z], _ => rfl
          | _ :: _ :: _, _ => simp at hlt; omega
        · rfl
      rw [this]
    · rw [List.getLast?_eq_some_getLast hne] at h6
      rw [← Option.some.inj h6, List.dropLast_append_getLast hne]
      exact h7

/-- one step in the middle of the path -/
theorem append_mid {p q : Prim} {br : Res P} {y : Side} {ypts : List P} {e : P} (hok : PrimOk w p) (hokq : PrimOk w q) (hen : Entered br p y)
    (hy : sidePts w p y = some ypts) (he : ypts.head? = some e) (ht : ∃ o i, Touches w p o q i) (hne : ∀ o i, Touches w p o q i → o ≠ y) :
    ∃ o i opts ipts d L N R br', appendBounds w br p (some q) = .ok br' ∧ Touches w p o q i ∧ sidePts w p o = some opts ∧
      sidePts w q i = some ipts ∧ Entered br' q i ∧ br'.left = br.left ++ L ∧ br'.right = br.right ++ N ∧ ipts.head? = some d ∧
      boundary w p ~r ypts.tail ++ L ++ opts.tail ++ R ∧ N.reverse ++ [e] = d :: R := by
  have ends : ∀ {o i opts d}, Touches w p o q i → sidePts w p o = some opts → opts.getLast? = some d →
      ∃ ipts, sidePts w q i = some ipts ∧ ipts.head? = some d := by
    intro o i opts d h ho hd
    obtain ⟨⟨a, b, h1, h2, -, h4⟩, -, -⟩ := h
    rw [ho] at h1
    cases h1
    exact ⟨b, h2, by rw [← h4, hd]⟩
  cases p with
  | lanelet l r =>
    obtain ⟨a, ha, rfl⟩ := hen
    cases q with
    | lanelet l' r' =>
      have hT := adjacencyLanelets_spec hok hokq ht
      cases hadj : adjacencyLanelets w l r l' r' with
      | mk b c =>
        rw [hadj] at hT
        simp only at hT
        have hab : a ≠ b := by
          rintro rfl
          exact hne _ _ hT rfl
        obtain ⟨x, y', L, N, R, c', d, h1, h2, h3, h4, h5, h6, h7, h8⟩ := lanelet_mid hok hab
        rw [hy] at h1
        cases h1
        rw [he] at h5
        cases h5
        obtain ⟨ipts, hi, hd⟩ := ends hT h2 h6
        refine ⟨adjSide b, adjSide c, y', ipts, d, L, N, R, { br with left := br.left ++ L, right := br.right ++ N, llAdj := some c },
          ?_, hT, h2, hi, ⟨c, rfl, rfl⟩, rfl, rfl, hd, h7, h8⟩
        simp only [appendBounds, addLaneletPair, hadj, ha, appendLaneletBounds, deref, h3, h4, bind, Except.bind, pure, Except.pure, ne_eq, hab,
          not_false_eq_true, if_true]
    | area outer =>
      obtain ⟨o, e1, e2, e3⟩ := adjacencyArea_spec hok hokq
      cases o with
      | none =>
        obtain ⟨x, y', hxy⟩ := ht
        exact absurd hxy (e3 rfl x y')
      | some ab =>
        obtain ⟨b, border⟩ := ab
        have hT := e2 b border rfl
        have hab : a ≠ b := by
          rintro rfl
          exact hne _ _ hT rfl
        obtain ⟨x, y', L, N, R, c', d, h1, h2, h3, h4, h5, h6, h7, h8⟩ := lanelet_mid hok hab
        rw [hy] at h1
        cases h1
        rw [he] at h5
        cases h5
        obtain ⟨ipts, hi, hd⟩ := ends hT h2 h6
        refine ⟨adjSide b, .line border, y', ipts, d, L, N, R,
          { br with left := br.left ++ L, right := br.right ++ N, prevBorder := some border }, ?_, hT, h2, hi, ⟨border, rfl, rfl⟩, rfl, rfl, hd, h7, h8⟩
        simp only [appendBounds, addLaneletAreaHead, e1, ha, appendLaneletBounds, deref, h3, h4, bind, Except.bind, pure, Except.pure, ne_eq, hab,
          not_false_eq_true, if_true]
  | area outer =>
    obtain ⟨rear, hb, rfl⟩ := hen
    obtain ⟨hmem, rfl⟩ := side_mem hy
    -- the border that is found
    have hborder : ∃ fr i br1, getBorder w br outer q = .ok (fr, br1) ∧ Touches w (.area outer) (.line fr) q i ∧ Entered br1 q i ∧
        br1.left = br.left ∧ br1.right = br.right := by
      cases q with
      | lanelet l r =>
        obtain ⟨o, e1, e2, e3⟩ := adjacencyArea_spec hokq hok
        cases o with
        | none =>
          obtain ⟨x, y', hxy⟩ := ht
          exact absurd (touches_symm hxy) (e3 rfl y' x)
        | some ab =>
          obtain ⟨b, border⟩ := ab
          refine ⟨border, adjSide b, { br with llAdj := some b }, ?_, touches_symm (e2 b border rfl), ⟨b, rfl, rfl⟩, rfl, rfl⟩
          simp only [getBorder, e1, bind, Except.bind, pure, Except.pure]
      | area outer' =>
        obtain ⟨e2, e3⟩ := commonAreas_spec (outer := outer) hokq
        cases hc : commonAreas outer' outer with
        | none =>
          obtain ⟨x, y', hxy⟩ := ht
          exact absurd hxy (e3 hc x y')
        | some b =>
          refine ⟨b.invert, .line b, { br with prevBorder := some b }, ?_, e2 b hc, ⟨b, rfl, rfl⟩, rfl, rfl⟩
          simp only [getBorder, hc]
    obtain ⟨fr, i, br1, g1, hT, hen', g2, g3⟩ := hborder
    have hT' := hT
    obtain ⟨⟨opts, _, ho, -, -, -⟩, -, -⟩ := hT'
    obtain ⟨hfr, rfl⟩ := side_mem ho
    have hrf : rear ≠ fr := by
      rintro rfl
      exact hne _ _ hT rfl
    obtain ⟨f, s, L, N, R, c, d, h1, h2, h3, h4, h5, h6, h7⟩ := area_mid hok hmem hfr hrf
    rw [he] at h4
    cases h4
    obtain ⟨ipts, hi, hd⟩ := ends hT ho h5
    refine ⟨.line fr, i, fr.points w, ipts, d, L, N, R, { br1 with left := br1.left ++ L, right := br1.right ++ N }, ?_, hT, ho, hi, ?_,
      by simp [g2], by simp [g3], hd, h6, h7⟩
    · simp only [appendBounds, hb, deref, g1, h1, h2, h3, bind, Except.bind, pure, Except.pure]
    · cases q with
      | lanelet => exact hen'
      | area => exact hen'

/-- from the side with which `p` is entered to the end and back -/
theorem append_rest (rest : List Prim) {p : Prim} {br : Res P} {y : Side} {ypts : List P} {e : P} (hok : ∀ q ∈ p :: rest, PrimOk w q)
    (hg : GoodFrom w (some y) (p :: rest)) (hen : Entered br p y) (hy : sidePts w p y = some ypts) (he : ypts.head? = some e) :
    ∃ M N br', appendAll w br (p :: rest) = .ok br' ∧ br'.left = br.left ++ M ∧ br'.right = br.right ++ N ∧
      Union w (p :: rest) (ypts.tail ++ (M ++ N.reverse ++ [e])) := by
  induction rest generalizing p br y ypts e with
  | nil =>
    obtain ⟨M, br', h1, h2, h3, h4⟩ := append_last (hok p (by simp)) hen hy he
    refine ⟨M, [], br', ?_, h2, by simp [h3], ?_⟩
    · simp only [appendAll, List.head?_nil, h1, bind, Except.bind]
    · simpa using Union.rotate (Union.single p) h4
  | cons q rest ih =>
    obtain ⟨ht, hall⟩ := hg
    obtain ⟨o, i, opts, ipts, d, L, N, R, br1, h1, hT, ho, hi, hen', h2, h3, hd, h4, h5⟩ :=
      append_mid (hok p (by simp)) (hok q (by simp)) hen hy he ht fun o i h heq => (hall o i h).1 (by rw [heq])
    obtain ⟨M', N', br', k1, k2, k3, k4⟩ := ih (fun x hx => hok x (by simp [hx])) (hall o i hT).2 hen' hi hd
    refine ⟨L ++ M', N ++ N', br', ?_, ?_, ?_, ?_⟩
    · rw [appendAll]
      simp only [List.head?_cons, h1, bind, Except.bind]
      exact k1
    · rw [k2, h2, List.append_assoc]
    · rw [k3, h3, List.append_assoc]
    · have hrot : boundary w p ~r (R ++ ypts.tail ++ L) ++ opts.tail := by
        refine h4.trans ?_
        have : (R ++ ypts.tail ++ L) ++ opts.tail = R ++ (ypts.tail ++ L ++ opts.tail) := by simp
        rw [this]
        exact List.isRotated_append
      have hm := Union.merge hT ho hi hrot k4
      refine Union.rotate hm ?_
      have e1 : R ++ ypts.tail ++ L ++ (M' ++ N'.reverse ++ [d]) = R ++ (ypts.tail ++ L ++ M' ++ N'.reverse ++ [d]) := by simp
      have e2 : ypts.tail ++ (L ++ M' ++ (N ++ N').reverse ++ [e]) = (ypts.tail ++ L ++ M' ++ N'.reverse ++ [d]) ++ R := by
        rw [List.reverse_append]
        simp only [List.append_assoc]
        rw [h5]
        simp
      rw [e1, e2]
      exact List.isRotated_append

/-- the start of the path -/
theorem append_first {p q : Prim} (hok : PrimOk w p) (hokq : PrimOk w q) (ht : ∃ o i, Touches w p o q i) :
    ∃ o i opts ipts d A br', appendTail w p q = .ok br' ∧ Touches w p o q i ∧ sidePts w p o = some opts ∧
      sidePts w q i = some ipts ∧ Entered br' q i ∧ br'.left = d :: A ∧ br'.right = [] ∧ ipts.head? = some d ∧
      boundary w p ~r A ++ opts.tail := by
  have ends : ∀ {o i opts d}, Touches w p o q i → sidePts w p o = some opts → opts.getLast? = some d →
      ∃ ipts, sidePts w q i = some ipts ∧ ipts.head? = some d := by
    intro o i opts d h ho hd
    obtain ⟨⟨a, b, h1, h2, -, h4⟩, -, -⟩ := h
    rw [ho] at h1
    cases h1
    exact ⟨b, h2, by rw [← h4, hd]⟩
  cases p with
  | lanelet l r =>
    cases q with
    | lanelet l' r' =>
      have hT := adjacencyLanelets_spec hok hokq ht
      cases hadj : adjacencyLanelets w l r l' r' with
      | mk b c =>
        rw [hadj] at hT
        simp only at hT
        obtain ⟨x, A, c', e, h1, h2, h3, h4, h5, h6, h7⟩ := lanelet_around hok b
        obtain ⟨ipts, hi, hd⟩ := ends hT h1 h5
        refine ⟨adjSide b, adjSide c, x, ipts, e, A, { left := e :: A, right := [], llAdj := some c }, ?_, hT, h1, hi, ⟨c, rfl, rfl⟩, rfl, rfl, hd,
          h7.trans List.isRotated_append⟩
        simp only [appendTail, addLaneletPair, hadj, appendLaneletBounds, h2, h3, bind, Except.bind, pure, Except.pure, ne_eq, not_true_eq_false,
          if_false, List.nil_append, List.append_nil, Bool.false_eq_true, List.cons_append]
    | area outer =>
      obtain ⟨o, e1, e2, e3⟩ := adjacencyArea_spec hok hokq
      cases o with
      | none =>
        obtain ⟨x, y', hxy⟩ := ht
        exact absurd hxy (e3 rfl x y')
      | some ab =>
        obtain ⟨b, border⟩ := ab
        have hT := e2 b border rfl
        obtain ⟨x, A, c', e, h1, h2, h3, h4, h5, h6, h7⟩ := lanelet_around hok b
        obtain ⟨ipts, hi, hd⟩ := ends hT h1 h5
        refine ⟨adjSide b, .line border, x, ipts, e, A, { left := e :: A, right := [], prevBorder := some border }, ?_, hT, h1, hi,
          ⟨border, rfl, rfl⟩, rfl, rfl, hd, h7.trans List.isRotated_append⟩
        simp only [appendTail, addLaneletAreaHead, e1, appendLaneletBounds, h2, h3, bind, Except.bind, pure, Except.pure, ne_eq, not_true_eq_false,
          if_false, List.nil_append, List.append_nil, Bool.false_eq_true, List.cons_append]
  | area outer =>
    have hborder : ∃ fr i br1, getBorder w ({} : Res P) outer q = .ok (fr, br1) ∧ Touches w (.area outer) (.line fr) q i ∧ Entered br1 q i ∧
        br1.left = [] ∧ br1.right = [] := by
      cases q with
      | lanelet l r =>
        obtain ⟨o, e1, e2, e3⟩ := adjacencyArea_spec hokq hok
        cases o with
        | none =>
          obtain ⟨x, y', hxy⟩ := ht
          exact absurd (touches_symm hxy) (e3 rfl y' x)
        | some ab =>
          obtain ⟨b, border⟩ := ab
          refine ⟨border, adjSide b, { llAdj := some b }, ?_, touches_symm (e2 b border rfl), ⟨b, rfl, rfl⟩, rfl, rfl⟩
          simp only [getBorder, e1, bind, Except.bind, pure, Except.pure]
      | area outer' =>
        obtain ⟨e2, e3⟩ := commonAreas_spec (outer := outer) hokq
        cases hc : commonAreas outer' outer with
        | none =>
          obtain ⟨x, y', hxy⟩ := ht
          exact absurd hxy (e3 hc x y')
        | some b =>
          refine ⟨b.invert, .line b, { prevBorder := some b }, ?_, e2 b hc, ⟨b, rfl, rfl⟩, rfl, rfl⟩
          simp only [getBorder, hc]
    obtain ⟨fr, i, br1, g1, hT, hen', g2, g3⟩ := hborder
    have hT' := hT
    obtain ⟨⟨opts, _, ho, -, -, -⟩, -, -⟩ := hT'
    obtain ⟨hfr, rfl⟩ := side_mem ho
    obtain ⟨ls, A, c, e, h1, h2, h3, h4, h5, h6, h7⟩ := area_around hok hfr
    obtain ⟨ipts, hi, hd⟩ := ends hT ho h5
    refine ⟨.line fr, i, fr.points w, ipts, e, A, { br1 with left := e :: A }, ?_, hT, ho, hi, ?_, rfl, g3, hd, h7.trans List.isRotated_append⟩
    · have : appendLineStrings w ls false false false = e :: A := by
        unfold appendLineStrings
        simp [h2]
      simp only [appendTail, g1, h1, this, bind, Except.bind, pure, Except.pure, g2, List.nil_append]
    · cases q with
      | lanelet => exact hen'
      | area => exact hen'

/-- C51: the polygon of a path whose primitives touch is the boundary of their union. -/
theorem enclosing_union {p q : Prim} {rest : List Prim} (hok : ∀ x ∈ p :: q :: rest, PrimOk w x) (hg : GoodFrom w none (p :: q :: rest)) :
    ∃ c, enclosingPolygon w (p :: q :: rest) = .ok c ∧ Union w (p :: q :: rest) c := by
  obtain ⟨ht, hall⟩ := hg
  obtain ⟨o, i, opts, ipts, d, A, br, h1, hT, ho, hi, hen, h2, h3, hd, h4⟩ := append_first (hok p (by simp)) (hok q (by simp)) ht
  obtain ⟨M, N, br', k1, k2, k3, k4⟩ := append_rest rest (fun x hx => hok x (by simp [hx])) (hall o i hT).2 hen hi hd
  refine ⟨br'.left ++ br'.right.reverse, ?_, ?_⟩
  · unfold enclosingPolygon
    simp only [h1, k1, bind, Except.bind, pure, Except.pure]
  · rw [k2, k3, h2, h3, List.nil_append]
    refine Union.rotate (Union.merge hT ho hi h4 k4) ?_
    have e1 : A ++ (M ++ N.reverse ++ [d]) = (A ++ M ++ N.reverse) ++ [d] := by simp
    have e2 : d :: A ++ M ++ N.reverse = [d] ++ (A ++ M ++ N.reverse) := by simp
    rw [e1, e2]
    exact List.isRotated_append

/-- the boundary of an area is its outer bound as polygon, which shows the first point also at the end -/
theorem area_boundary {outer : List LS} (hok : PrimOk w (.area outer)) :
    ∃ d, boundingPolygon w (.area outer) = d :: boundary w (.area outer) ∧ (boundary w (.area outer)).getLast? = some d := by
  obtain ⟨d, hd⟩ := area_ring hok
  have hne : outer ≠ [] := by rintro rfl; simpa using hok.1
  obtain ⟨h1, h2⟩ := append_conn hok (fun _ h => h) hd hne
  have hb : (outer.map (LS.points w)).flatMap List.tail = boundary w (.area outer) := by simp [boundary, List.flatMap_map]
  have hl := conn_last hd
  rw [hb] at h1 hl
  refine ⟨d, h1, ?_⟩
  rw [h1] at h2
  cases hbd : boundary w (.area outer) with
  | nil => rw [hbd] at h2; simp at h2
  | cons a t => rw [hbd] at hl; simpa using hl

/-- C51: a path of one lanelet -/
theorem enclosing_single {l r : LS} (hl : (l.points w).IsChain (· ≠ ·)) (hr : (r.points w).IsChain (· ≠ ·))
    (hw : ∀ a ∈ (l.points w).getLast?, ∀ b ∈ (r.points w).getLast?, a ≠ b) :
    enclosingPolygon w [.lanelet l r] = .ok (boundary w (.lanelet l r)) := by
  have single : ∀ (l : List P), l.IsChain (· ≠ ·) → noRep l = l := by
    intro l h
    induction l with
    | nil => rfl
    | cons a l ih =>
      cases l with
      | nil => rfl
      | cons b l => rw [noRep, if_neg (List.isChain_cons_cons.mp h).1, ih (List.isChain_cons_cons.mp h).2]
  have h : (l.points w ++ (r.points w).reverse).IsChain (· ≠ ·) := by
    rw [List.isChain_append]
    refine ⟨hl, ?_, ?_⟩
    · rw [List.isChain_reverse]
      exact hr.imp fun a b h => Ne.symm h
    · intro a ha b hb
      rw [List.head?_reverse] at hb
      exact hw a ha b hb
  simp only [enclosingPolygon, boundingPolygon, compound, Compound.view, List.map_cons, List.map_nil, List.flatten_cons, List.flatten_nil,
    List.append_nil, points_invert, Bool.false_eq_true, if_false, boundary]
  rw [single _ h]

/-- C51: a path with an area that does not touch its predecessor or successor is rejected. -/
theorem enclosing_area_error {pre : List Prim} {p q : Prim} {post : List Prim} (hok : PrimOk w p ∧ PrimOk w q)
    (ha : p.isLanelet = false ∨ q.isLanelet = false) (ht : ∀ x y, ¬ Touches w p x q y) :
    ∃ f, enclosingPolygon w (pre ++ p :: q :: post) = .error f := by
  have border : ∀ (br : Res P) outer, p = .area outer → getBorder w br outer q = .error .geometry := by
    rintro br outer rfl
    cases q with
    | lanelet l r =>
      obtain ⟨o, e1, e2, e3⟩ := adjacencyArea_spec hok.2 hok.1
      cases o with
      | none => simp only [getBorder, e1, bind, Except.bind]
      | some ab => exact absurd (touches_symm (e2 ab.1 ab.2 rfl)) (ht _ _)
    | area outer' =>
      obtain ⟨e2, -⟩ := commonAreas_spec (outer := outer) hok.2
      cases hc : commonAreas outer' outer with
      | none => simp only [getBorder, hc]
      | some b => exact absurd (e2 b hc) (ht _ _)
  have hadj : ∀ l r outer, p = .lanelet l r → q = .area outer → adjacencyArea w l r outer = .ok none := by
    rintro l r outer rfl rfl
    obtain ⟨o, e1, e2, e3⟩ := adjacencyArea_spec hok.1 hok.2
    cases o with
    | none => exact e1
    | some ab => exact absurd (e2 ab.1 ab.2 rfl) (ht _ _)
  have step : ∀ br : Res P, ∃ f, appendBounds w br p (some q) = .error f := by
    intro br
    cases p with
    | area outer =>
      simp only [appendBounds]
      cases hb : br.prevBorder with
      | none => exact ⟨.ub, rfl⟩
      | some old => exact ⟨.geometry, by simp only [deref, bind, Except.bind, border br outer rfl]⟩
    | lanelet l r =>
      cases q with
      | lanelet => simp [Prim.isLanelet] at ha
      | area outer => exact ⟨.runtime, by simp only [appendBounds, addLaneletAreaHead, hadj l r outer rfl rfl, bind, Except.bind]⟩
  have first : ∃ f, appendTail w p q = .error f := by
    cases p with
    | area outer => exact ⟨.geometry, by simp only [appendTail, border _ outer rfl, bind, Except.bind]⟩
    | lanelet l r =>
      cases q with
      | lanelet => simp [Prim.isLanelet] at ha
      | area outer => exact ⟨.runtime, by simp only [appendTail, addLaneletAreaHead, hadj l r outer rfl rfl, bind, Except.bind]⟩
  have all : ∀ (pre : List Prim) (br : Res P), ∃ f, appendAll w br (pre ++ p :: q :: post) = .error f := by
    intro pre
    induction pre with
    | nil =>
      intro br
      obtain ⟨f, hf⟩ := step br
      exact ⟨f, by simp only [List.nil_append, appendAll, List.head?_cons, hf, bind, Except.bind]⟩
    | cons a pre ih =>
      intro br
      rw [List.cons_append, appendAll]
      cases hb : appendBounds w br a (pre ++ p :: q :: post).head? with
      | error f => exact ⟨f, by simp only [bind, Except.bind]⟩
      | ok br' => exact ih br'
  cases pre with
  | nil =>
    obtain ⟨f, hf⟩ := first
    exact ⟨f, by simp only [List.nil_append, enclosingPolygon, hf, bind, Except.bind]⟩
  | cons a pre =>
    have hsplit : ∃ b rest, pre ++ p :: q :: post = b :: rest := by
      cases pre with
      | nil => exact ⟨_, _, rfl⟩
      | cons b pre => exact ⟨_, _, rfl⟩
    obtain ⟨b, rest, hbr⟩ := hsplit
    rw [List.cons_append, hbr, enclosingPolygon]
    cases ht : appendTail w a b with
    | error f => exact ⟨f, by simp only [bind, Except.bind]⟩
    | ok br =>
      obtain ⟨f, hf⟩ := all pre br
      rw [hbr] at hf
      exact ⟨f, by simp only [hf, bind, Except.bind]⟩

/-! ### lanes -/

/-- the points of bounds that follow each other -/
def joined : List (List P) → List P
  | [] => []
  | [l] => l
  | l :: m :: rest => l ++ (joined (m :: rest)).tail

/-- each lanelet follows the one before -/
def Lane (w : World P) : List (LS × LS) → Prop
  | p :: q :: rest => follows w p.1 p.2 q.1 q.2 = true ∧ Lane w (q :: rest)
  | _ => True

omit [DecidableEq P] in
theorem joined_head {l : List P} {rest : List (List P)} (h : l ≠ []) : (joined (l :: rest)).head? = l.head? := by
  cases rest with
  | nil => rfl
  | cons m rest =>
    obtain ⟨a, t, rfl⟩ := List.exists_cons_of_ne_nil h
    rfl

theorem lane_rest (rest : List (LS × LS)) {p : LS × LS} {br : Res P} (hne : p.1.points w ≠ [] ∧ p.2.points w ≠ []) (hl : Lane w (p :: rest))
    (hb : br.llAdj = some .following) {e : P} (he : (p.2.points w).head? = some e) :
    ∃ M N br', appendAll w br ((p :: rest).map fun x => .lanelet x.1 x.2) = .ok br' ∧ br'.left = br.left ++ M ∧ br'.right = br.right ++ N ∧
      M ++ N.reverse ++ [e] = (joined ((p :: rest).map fun x => x.1.points w)).tail ++ (joined ((p :: rest).map fun x => x.2.points w)).reverse := by
  induction rest generalizing p br e with
  | nil =>
    obtain ⟨l0, lt, hlp⟩ := List.exists_cons_of_ne_nil hne.1
    have hrev : (p.2.points w).reverse = ((p.2.points w).reverse).dropLast ++ [e] := by
      have hn : (p.2.points w).reverse ≠ [] := by simpa using hne.2
      have : ((p.2.points w).reverse).getLast? = some e := by simpa using he
      rw [List.getLast?_eq_some_getLast hn] at this
      rw [← Option.some.inj this, List.dropLast_append_getLast hn]
    obtain ⟨rb, hb1, hb2⟩ := back_ok hne.2
    obtain ⟨rt, hrt⟩ : ∃ rt, (p.2.points w).reverse = rb :: rt := by
      cases hq : (p.2.points w).reverse with
      | nil => simp at hq; exact absurd hq hne.2
      | cons a t =>
        have : (p.2.points w).reverse.head? = some a := by rw [hq]; rfl
        rw [List.head?_reverse, hb2] at this
        cases this
        exact ⟨t, rfl⟩
    have hA : boundsLeft w p.1 p.2 .following .following = .ok (lt ++ rb :: rt) := by
      simp [boundsLeft, sides, cw, extractedCw, tailOf, hlp, hb1, points_invert, hrt, bind, Except.bind, pure, Except.pure]
    rw [hrt] at hrev
    refine ⟨lt ++ (rb :: rt).dropLast, [], { br with left := br.left ++ (lt ++ (rb :: rt).dropLast) }, ?_, rfl, by simp, ?_⟩
    · simp only [List.map_cons, List.map_nil, appendAll, List.head?_nil, appendBounds, appendLaneletBounds, hb, deref, hA, bind, Except.bind, pure,
        Except.pure, ne_eq, not_true_eq_false, if_false, List.append_nil]
      rw [if_neg (by simp)]
      congr 2
      rw [← List.append_assoc, List.dropLast_append_of_ne_nil (by simp), List.append_assoc]
    · simp only [List.map_cons, List.map_nil, joined, hlp, List.tail_cons, hrt, List.reverse_nil, List.append_nil, List.append_assoc]
      rw [← hrev]
  | cons q rest ih =>
    obtain ⟨hf, hl⟩ := hl
    obtain ⟨-, -, h3, h4, h5, h6⟩ := follows_iff.mp hf
    obtain ⟨e', he'⟩ : ∃ e', (q.2.points w).head? = some e' := by
      obtain ⟨a, -, ha⟩ := front_ok h4
      exact ⟨a, ha⟩
    obtain ⟨l0, lt, hlp⟩ := List.exists_cons_of_ne_nil hne.1
    obtain ⟨r0, rt, hrp⟩ := List.exists_cons_of_ne_nil hne.2
    have : r0 = e := by rw [hrp] at he; simpa using he
    subst this
    have hadj : adjacencyLanelets w p.1 p.2 q.1 q.2 = (.preceding, .following) := by simp [adjacencyLanelets, hf]
    have hL : boundsLeft w p.1 p.2 .following .preceding = .ok lt := by
      simp [boundsLeft, sides, cw, extractedCw, tailOf, hlp, bind, Except.bind, pure, Except.pure]
    have hR : boundsRight w p.1 p.2 .following .preceding = .ok rt := by
      simp [boundsRight, sides, ccw, extractedCcw, tailOf, hrp, bind, Except.bind, pure, Except.pure]
    obtain ⟨M, N, br', k1, k2, k3, k4⟩ := ih (br := { br with left := br.left ++ lt, right := br.right ++ rt, llAdj := some .following })
      ⟨h3, h4⟩ hl rfl he'
    refine ⟨lt ++ M, rt ++ N, br', ?_, by rw [k2, List.append_assoc], by rw [k3, List.append_assoc], ?_⟩
    · rw [List.map_cons, appendAll]
      simp only [List.map_cons, List.head?_cons, appendBounds, addLaneletPair, hadj, hb, deref, appendLaneletBounds, hL, hR, bind, Except.bind, pure,
        Except.pure, ne_eq, reduceCtorEq, not_false_eq_true, if_true]
      exact k1
    · simp only [List.map_cons, joined] at k4 ⊢
      rw [hlp, hrp]
      simp only [List.cons_append, List.tail_cons]
      -- the right bound ends where the next one starts
      have hjr := joined_head (rest := rest.map fun x => x.2.points w) h4
      rw [he'] at hjr
      generalize joined (q.2.points w :: rest.map fun x => x.2.points w) = JR at k4 hjr ⊢
      generalize joined (q.1.points w :: rest.map fun x => x.1.points w) = JL at k4 ⊢
      cases JR with
      | nil => simp at hjr
      | cons z JR =>
        simp only [List.head?_cons, Option.some.injEq] at hjr
        subst hjr
        simp only [List.tail_cons]
        rw [he', hrp] at h6
        have hne' : r0 :: rt ≠ [] := by simp
        rw [List.getLast?_eq_some_getLast hne'] at h6
        have h7 := List.dropLast_append_getLast hne'
        rw [Option.some.inj h6] at h7
        have h8 : (r0 :: (rt ++ JR)) = (r0 :: rt).dropLast ++ (z :: JR) := by
          have : r0 :: (rt ++ JR) = (r0 :: rt) ++ JR := rfl
          rw [this, ← h7]
          simp
        have h9 : rt.reverse ++ [r0] = z :: ((r0 :: rt).dropLast).reverse := by
          have : rt.reverse ++ [r0] = (r0 :: rt).reverse := by simp
          rw [this, ← h7]
          simp
        rw [h8, List.reverse_append, List.reverse_append]
        calc lt ++ M ++ (N.reverse ++ rt.reverse) ++ [r0]
            = lt ++ (M ++ N.reverse) ++ (rt.reverse ++ [r0]) := by simp
          _ = lt ++ (M ++ N.reverse ++ [z]) ++ ((r0 :: rt).dropLast).reverse := by rw [h9]; simp
          _ = _ := by rw [k4]; simp

/-- C51: the polygon of lanelets that follow each other consists of the points of the left bounds from start to end and the points of the right
bounds from end to start; the points where two lanelets meet appear once. -/
theorem enclosing_lane {p q : LS × LS} {rest : List (LS × LS)} (hl : Lane w (p :: q :: rest)) :
    ∃ c, enclosingPolygon w ((p :: q :: rest).map fun x => .lanelet x.1 x.2) = .ok c ∧
      c ~r joined ((p :: q :: rest).map fun x => x.1.points w) ++ (joined ((p :: q :: rest).map fun x => x.2.points w)).reverse := by
  obtain ⟨hf, hl⟩ := hl
  obtain ⟨h1, h2, h3, h4, h5, h6⟩ := follows_iff.mp hf
  obtain ⟨l0, lt, hlp⟩ := List.exists_cons_of_ne_nil h1
  obtain ⟨e', he1, he'⟩ := front_ok h4
  rw [he'] at h6
  obtain ⟨rt, hrt⟩ : ∃ rt, (p.2.points w).reverse = e' :: rt := by
    cases hq : (p.2.points w).reverse with
    | nil => simp at hq; exact absurd hq h2
    | cons a t =>
      have : (p.2.points w).reverse.head? = some a := by rw [hq]; rfl
      rw [List.head?_reverse, h6] at this
      cases this
      exact ⟨t, rfl⟩
  have hadj : adjacencyLanelets w p.1 p.2 q.1 q.2 = (.preceding, .following) := by simp [adjacencyLanelets, hf]
  have hL : boundsLeft w p.1 p.2 .preceding .preceding = .ok (rt ++ l0 :: lt) := by
    simp [boundsLeft, sides, cw, extractedCw, tailOf, hlp, front, points_invert, hrt, bind, Except.bind, pure, Except.pure]
  have hF : firstPoint w p.1 p.2 .preceding = .ok e' := by simp [firstPoint, back, h6]
  obtain ⟨M, N, br', k1, k2, k3, k4⟩ := lane_rest rest (br := { left := e' :: (rt ++ l0 :: lt), llAdj := some .following }) ⟨h3, h4⟩ hl rfl he'
  refine ⟨br'.left ++ br'.right.reverse, ?_, ?_⟩
  · simp only [List.map_cons] at k1 ⊢
    simp only [enclosingPolygon, appendTail, addLaneletPair, hadj, hF, appendLaneletBounds, hL, bind, Except.bind, pure, Except.pure, ne_eq,
      not_true_eq_false, if_false, List.nil_append, List.append_nil, Bool.false_eq_true, List.cons_append]
    rw [k1]
  · rw [k2, k3, List.nil_append]
    simp only [List.map_cons, joined] at k4 ⊢
    have hjr := joined_head (rest := rest.map fun x => x.2.points w) h4
    rw [he'] at hjr
    generalize joined (q.2.points w :: rest.map fun x => x.2.points w) = JR at k4 hjr ⊢
    generalize joined (q.1.points w :: rest.map fun x => x.1.points w) = JL at k4 ⊢
    cases JR with
    | nil => simp at hjr
    | cons z JR =>
      simp only [List.head?_cons, Option.some.injEq] at hjr
      subst hjr
      simp only [List.tail_cons, List.reverse_append]
      rw [hrt]
      have e1 : z :: (rt ++ l0 :: lt) ++ M ++ N.reverse = (z :: rt) ++ (l0 :: lt ++ M ++ N.reverse) := by simp
      have e2 : l0 :: lt ++ (M ++ N.reverse ++ [z]) ++ rt = (l0 :: lt ++ M ++ N.reverse) ++ (z :: rt) := by simp
      rw [e1]
      refine List.isRotated_append.trans ?_
      rw [← e2, k4, hlp]
      simp only [List.append_assoc, List.cons_append, List.reverse_cons, List.nil_append]
      exact List.IsRotated.refl _

omit [DecidableEq P] in
/-- C51: no point of this polygon is repeated in succession, if this holds for the bounds and the ends of the lane have a width. -/
theorem lane_no_repetition {lefts rights : List (List P)} (hl : ∀ l ∈ lefts ++ rights, l ≠ [] ∧ l.IsChain (· ≠ ·))
    (hcl : ∀ i a b, lefts[i]? = some a → lefts[i + 1]? = some b → a.getLast? = b.head?)
    (hcr : ∀ i a b, rights[i]? = some a → rights[i + 1]? = some b → a.getLast? = b.head?)
    (hs : ∀ l ∈ lefts.getLast?, ∀ r ∈ rights.getLast?, l.getLast? ≠ r.getLast?) :
    (joined lefts ++ (joined rights).reverse).IsChain (· ≠ ·) := by
  have chain : ∀ ls : List (List P), (∀ l ∈ ls, l ≠ [] ∧ l.IsChain (· ≠ ·)) →
      (∀ (i : Nat) a b, ls[i]? = some a → ls[i + 1]? = some b → a.getLast? = b.head?) →
      (joined ls).IsChain (· ≠ ·) ∧ (joined ls).getLast? = ls.getLast?.bind List.getLast? := by
    intro ls
    induction ls with
    | nil => intro _ _; exact ⟨List.isChain_nil, rfl⟩
    | cons l ls ih =>
      intro h hc
      cases ls with
      | nil => exact ⟨(h l (by simp)).2, rfl⟩
      | cons m ls =>
        obtain ⟨i1, i2⟩ := ih (fun x hx => h x (by simp [hx])) fun i a b ha hb => hc (i + 1) a b (by simpa using ha) (by simpa using hb)
        have hm := (h m (by simp)).1
        have hh := joined_head (rest := ls) hm
        have hlast := hc 0 l m (by simp) (by simp)
        rw [joined]
        generalize joined (m :: ls) = J at i1 i2 hh ⊢
        cases J with
        | nil =>
          obtain ⟨a, t, hmt⟩ := List.exists_cons_of_ne_nil hm
          rw [hmt] at hh; simp at hh
        | cons z J =>
          rw [← hlast, List.head?_cons] at hh
          rw [List.tail_cons]
          constructor
          · rw [List.isChain_append]
            refine ⟨(h l (by simp)).2, ?_, ?_⟩
            · cases J with
              | nil => exact List.isChain_nil
              | cons y J => exact (List.isChain_cons_cons.mp i1).2
            · intro a ha b hb
              rw [← hh] at ha
              cases ha
              cases J with
              | nil => cases hb
              | cons y J =>
                cases hb
                exact (List.isChain_cons_cons.mp i1).1
          · rw [List.getLast?_append, ← hh]
            cases J with
            | nil =>
              simp only [List.getLast?_nil, Option.none_or]
              simpa using i2
            | cons y J =>
              rw [List.getLast?_cons_cons] at i2
              rw [i2]
              rw [List.getLast?_cons_cons]
              cases hx : ((m :: ls).getLast?.bind List.getLast?) with
              | some x => rfl
              | none =>
                rw [hx] at i2
                rw [List.getLast?_eq_none_iff] at i2
                cases i2
  obtain ⟨c1, c2⟩ := chain lefts (fun l h => hl l (List.mem_append_left _ h)) hcl
  obtain ⟨c3, c4⟩ := chain rights (fun l h => hl l (List.mem_append_right _ h)) hcr
  rw [List.isChain_append]
  refine ⟨c1, ?_, ?_⟩
  · rw [List.isChain_reverse]
    exact c3.imp fun a b h => Ne.symm h
  · intro a ha b hb
    rw [List.head?_reverse] at hb
    rw [c2] at ha
    rw [c4] at hb
    obtain ⟨l, h1, h2⟩ := Option.bind_eq_some_iff.mp ha
    obtain ⟨r, h3, h4⟩ := Option.bind_eq_some_iff.mp hb
    rintro rfl
    exact hs l h1 r h3 (by rw [h2, h4])

/-- C51: the remaining lane are the lanelets from the position on up to the first one that is not followed by its successor in the path. -/
theorem remainingLane_spec (ps : List (LS × LS)) :
    ∃ post, ps = remainingLane w ps ++ post ∧ Lane w (remainingLane w ps) ∧ (ps ≠ [] → remainingLane w ps ≠ []) ∧
      ∀ p ∈ (remainingLane w ps).getLast?, ∀ q ∈ post.head?, follows w p.1 p.2 q.1 q.2 = false := by
  fun_induction remainingLane w ps with
  | case1 => exact ⟨[], rfl, trivial, by simp, by simp⟩
  | case2 p => exact ⟨[], rfl, trivial, by simp, by simp⟩
  | case3 p q rest hf ih =>
    obtain ⟨post, h1, h2, h3, h4⟩ := ih
    have hne := h3 (by simp)
    obtain ⟨x, t, hx⟩ := List.exists_cons_of_ne_nil hne
    rw [hx] at h1 h2 h4 ⊢
    have hxq : x = q := by
      rw [List.cons_append] at h1
      exact (List.cons.inj h1).1.symm
    subst hxq
    refine ⟨post, by rw [List.cons_append, ← h1], ⟨hf, h2⟩, by simp, ?_⟩
    rw [List.getLast?_cons_cons]
    exact h4
  | case4 p q rest hf =>
    refine ⟨q :: rest, rfl, trivial, by simp, ?_⟩
    intro a ha b hb
    simp only [List.getLast?_singleton, Option.mem_some] at ha
    simp only [List.head?_cons, Option.mem_some] at hb
    subst ha hb
    simpa using hf

end

/-! ### cases -/

/-- linestrings: bounds of three lanelets in a row (0, 1), (2, 3), (4, 5); line 6 left of the second lanelet's left neighbour; 7, 8, 9 close an
area at the end -/
def exW : World Nat
  | 0 => [1, 2] | 1 => [11, 12]
  | 2 => [2, 3, 4] | 3 => [12, 14]
  | 4 => [4, 5] | 5 => [14, 15]
  | 6 => [22, 24]
  | 7 => [14, 4] | 8 => [4, 40] | 9 => [40, 14]
  | _ => []

/-- Example. -/
def exL (a b : Nat) : Prim := .lanelet ⟨a, false⟩ ⟨b, false⟩

/-- a lane of three lanelets -/
example : enclosingPolygon exW [exL 0 1, exL 2 3, exL 4 5] = .ok [12, 11, 1, 2, 3, 4, 5, 15, 14] := by decide

/-- a lane change and an area -/
example : enclosingPolygon exW [exL 0 1, exL 2 3, exL 6 2] = .ok [12, 11, 1, 2, 22, 24, 4, 14] := by decide
example : enclosingPolygon exW [exL 0 1, exL 2 3, .area [⟨8, false⟩, ⟨9, false⟩, ⟨7, false⟩]] = .ok [12, 11, 1, 2, 3, 4, 40, 14] := by decide
example : enclosingPolygon exW [.area [⟨8, false⟩, ⟨9, false⟩, ⟨7, false⟩], exL 2 3, exL 0 1] = .ok [4, 40, 14, 12, 11, 1, 2, 3] := by decide

/-- a single lanelet -/
example : enclosingPolygon exW [exL 2 3] = .ok [2, 3, 4, 14, 12] := by decide

/-- the lane meets the hypotheses of the theorems -/
example : Lane exW [(⟨0, false⟩, ⟨1, false⟩), (⟨2, false⟩, ⟨3, false⟩), (⟨4, false⟩, ⟨5, false⟩)] := ⟨by decide, by decide, trivial⟩

/-- the area meets the hypotheses of the theorems -/
example : PrimOk exW (.area [⟨8, false⟩, ⟨9, false⟩, ⟨7, false⟩]) := by
  refine ⟨by decide, ?_, ⟨by decide, by decide, by decide, trivial⟩⟩
  intro l hl
  simp only [List.mem_cons, List.not_mem_nil, or_false] at hl
  rcases hl with rfl | rfl | rfl <;> exact ⟨by decide, by decide⟩

/-- a path with a lane change meets the hypotheses of `enclosing_union` -/
example : (∀ x ∈ [exL 2 3, exL 6 2], PrimOk exW x) ∧ GoodFrom exW none [exL 2 3, exL 6 2] := by
  refine ⟨?_, ⟨⟨.left, .right, ⟨⟨[2, 3, 4], [4, 3, 2], rfl, rfl, rfl, rfl⟩, ?_, fun _ _ => .inr (.inr (.inl ⟨rfl, rfl⟩))⟩⟩,
    fun _ _ _ => ⟨by simp, trivial⟩⟩⟩
  · intro x hx
    simp only [List.mem_cons, List.not_mem_nil, or_false] at hx
    rcases hx with rfl | rfl <;> exact ⟨by decide, by decide⟩
  · intro l m hl hm
    cases hl; cases hm; rfl

/-- Disagreement with C51: lanelets that do not touch are not rejected; the polygon lacks two corners of the second one. -/
theorem lanelet_gap_counterexample :
    enclosingPolygon exW [exL 0 1, exL 4 5] = .ok [1, 2, 12, 11, 5, 15] ∧ ∀ x y, ¬ Touches exW (exL 0 1) x (exL 4 5) y := by
  refine ⟨by decide, ?_⟩
  rintro x y ⟨⟨a, b, h1, h2, h3, h4⟩, hs, hd⟩
  rcases hd rfl rfl with ⟨rfl, rfl⟩ | ⟨rfl, rfl⟩ | ⟨rfl, rfl⟩ | ⟨rfl, rfl⟩
  · cases h1; cases h2; revert h3; decide
  · cases h1; cases h2; revert h3; decide
  · have := hs _ _ rfl rfl
    revert this; decide
  · have := hs _ _ rfl rfl
    revert this; decide

/-- Disagreement with C51: two lanelets side by side in opposite directions share a bound, but their polygon is wrong. -/
theorem opposite_counterexample :
    enclosingPolygon exW [exL 2 3, .lanelet ⟨2, true⟩ ⟨6, true⟩] = .ok [2, 3, 4, 14, 12, 3, 2, 22] := by decide

end Verif.Path
