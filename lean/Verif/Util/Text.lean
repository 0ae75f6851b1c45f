import Verif.Osm.Josm
import Verif.Py.Repr

/-!
Property C103: the text of primitives, `<<` of streams in C++ and `str()` in Python (core.cpp 310, 329, 709).

A text is the list of its characters. Numbers of ids are written in decimal, as a stream does that nobody has set to another base. What is written of a
primitive is given by the structures below; they have the ids and directions in the order in which the code visits them.
-/
namespace Verif.Text
open Verif.Osm.Josm

/-- The list of the characters of a text: `txt! "ab"` is `['a', 'b']`. -/
macro "txt! " s:str : term => do
  let cs := s.getString.toList.map fun c => Lean.Syntax.mkCharLit c
  `([$(cs.toArray),*])

/-! ### Model -/

/-- `stream << id`: a decimal number, with a sign if it is negative; stands for the stream of the standard library, used for example in LineString.h 683 -/
def num (i : Int) : List Char := (if i < 0 then ['-'] else []) ++ (natDigits i.natAbs).map digitChar

/-- What is written of a linestring or polygon, LineString.h 682-710, Polygon.h 332-338 -/
structure Line where
  /-- the id -/
  id : Int
  /-- the direction -/
  inverted : Bool
  /-- the ids of its points in its direction -/
  points : List Int
  deriving DecidableEq

/-- The loop over the points, LineString.h 688-693, 703-708: a comma behind all but the last -/
def join : List Int → List Char
  | [] => []
  | [i] => num i
  | i :: j :: l => num i ++ (txt! ", ") ++ join (j :: l)

/-- operator<< of linestrings and polygons, LineString.h 682-710, Polygon.h 332-338 -/
def lineText (x : Line) : List Char :=
  (txt! "[id: ") ++ num x.id ++ (if x.inverted then (txt! ", inverted") else []) ++ (txt! " point ids: ") ++ join x.points ++ (txt! "]")

/-- What is written of a lanelet, Lanelet.cpp 290-304 -/
structure Lanelet where
  /-- the id -/
  id : Int
  /-- the direction -/
  inverted : Bool
  /-- the id of the left bound -/
  left : Int
  /-- the direction of the left bound -/
  leftInverted : Bool
  /-- the id of the right bound -/
  right : Int
  /-- the direction of the right bound -/
  rightInverted : Bool
  deriving DecidableEq

/-- operator<< of lanelets, Lanelet.cpp 290-304 -/
def laneletText (x : Lanelet) : List Char :=
  (txt! "[id: ") ++ num x.id ++ (if x.inverted then (txt! ", inverted") else []) ++ (txt! ", left id: ") ++ num x.left ++
    (if x.leftInverted then (txt! " (inverted)") else []) ++ (txt! ", right id: ") ++ num x.right ++
    (if x.rightInverted then (txt! " (inverted)") else []) ++ (txt! "]")

/-- What an area consists of: the ids of the linestrings of its bounds and their directions, Area.h 333-354 -/
structure Area where
  /-- the id -/
  id : Int
  /-- the linestrings of the outer bound -/
  outer : List (Int × Bool)
  /-- the linestrings of the inner bounds -/
  inner : List (List (Int × Bool))
  deriving DecidableEq

/-- `std::copy` to a std::ostream_iterator: the separator is behind each number, Area.h 339, 348, LaneletSequence.h 269, CompoundLineString.h 395 -/
def each (sep : Char) (ids : List Int) : List Char := ids.flatMap fun i => num i ++ [sep]

/-- operator<< of areas, Area.h 333-354 -/
def areaText (x : Area) : List Char :=
  (txt! "[id: ") ++ num x.id ++
    (if x.outer = [] then [] else (txt! " outer: [") ++ each ',' (x.outer.map (·.1)) ++ (txt! "]")) ++
    (if x.inner = [] then [] else (txt! " inner: ") ++ x.inner.flatMap fun b => (txt! "[") ++ each ',' (b.map (·.1)) ++ (txt! "]")) ++ (txt! "]")

/-- operator<< of ConstLaneletOrArea, LaneletOrArea.h 104-112 -/
def laneletOrAreaText : Lanelet ⊕ Area → List Char
  | .inl x => laneletText x
  | .inr x => areaText x

/-- operator<< of lanelet sequences and compound linestrings, LaneletSequence.h 264-275, CompoundLineString.h 390-401; `ids` in the order of
`ids()` -/
def sequenceText (ids : List Int) (inverted : Bool) : List Char :=
  (txt! "[") ++ (if ids = [] then [] else (txt! "ids: ") ++ each ' ' ids) ++ (if inverted then (txt! ", inverted") else []) ++ (txt! "]")

/-- A parameter: its id, or a lanelet or area that does not exist any more; GetIdVisitor, RegulatoryElement.cpp 38-66 -/
inductive Param where
  | alive (id : Int)
  | expired
  deriving DecidableEq

/-- GetIdVisitor::id, RegulatoryElement.cpp 38-66: `id_{}` is 0 -/
def Param.id : Param → Int
  | .alive i => i
  | .expired => 0

/-- What is written of a regulatory element, RegulatoryElement.cpp 175-188 -/
structure Reg where
  /-- the id -/
  id : Int
  /-- roles with their parameters, in the order of the map -/
  params : List (List Char × List Param)
  deriving DecidableEq

/-- operator<< of regulatory elements, RegulatoryElement.cpp 175-188 -/
def regText (x : Reg) : List Char :=
  (txt! "[id: ") ++ num x.id ++
    (if x.params = [] then [] else (txt! ", parameters: ") ++ x.params.flatMap fun e =>
      (txt! "{") ++ e.1 ++ (txt! ": ") ++ each ' ' (e.2.map Param.id) ++ (txt! "}")) ++ (txt! "]")

/-- operator<< of 3d points, Point.h 316-318, 324-326; `dbl` writes a double. 2d points are the same without z, 312-314, 320-322. -/
def pointText (dbl : Rat → List Char) (id : Int) (x y z : Rat) : List Char :=
  (txt! "[id: ") ++ num id ++ (txt! " x: ") ++ dbl x ++ (txt! " y: ") ++ dbl y ++ (txt! " z: ") ++ dbl z ++ (txt! "]")

/-- operator<< of attribute maps, Attribute.h 369-378 -/
def attrText (a : List (List Char × List Char)) : List Char := a.flatMap fun e => e.1 ++ (txt! ": ") ++ e.2 ++ (txt! " ")

/-! ### Specification -/

/-- Specification. Writing of doubles with six digits: numbers have the same text if they are the same with six digits. A text has no space and no
bracket. -/
structure SixDigits (dbl : Rat → List Char) : Prop where
  same : ∀ x y, dbl x = dbl y ↔ Py.Repr.sig6 x = Py.Repr.sig6 y
  chars : ∀ x, ∀ c ∈ dbl x, c ≠ ' ' ∧ c ≠ ']'

/-! ### Proofs -/

/-- Helper of the proofs. Characters of a number. -/
def isNum (c : Char) : Bool := c == '-' || c.isDigit

/-- Helper of the proofs. The text does not start with a character of this kind. -/
def Stops (p : Char → Bool) (s : List Char) : Prop := ∀ c ∈ s.head?, p c = false

theorem cut {p : Char → Bool} {a b r s : List Char} (ha : ∀ c ∈ a, p c = true) (hb : ∀ c ∈ b, p c = true) (hr : Stops p r) (hs : Stops p s)
    (h : a ++ r = b ++ s) : a = b ∧ r = s := by
  induction a generalizing b with
  | nil =>
    cases b with
    | nil => exact ⟨rfl, h⟩
    | cons c b =>
      have h : r = c :: (b ++ s) := h
      have := hr c (by rw [h]; rfl)
      rw [hb c (by simp)] at this
      cases this
  | cons x a ih =>
    cases b with
    | nil =>
      have h : x :: (a ++ r) = s := h
      have := hs x (by rw [← h]; rfl)
      rw [ha x (by simp)] at this
      cases this
    | cons c b =>
      simp only [List.cons_append, List.cons.injEq] at h
      obtain ⟨h1, h2⟩ := ih (fun c hc => ha c (by simp [hc])) (fun c hc => hb c (by simp [hc])) h.2
      exact ⟨by rw [h.1, h1], h2⟩

theorem digit_num : ∀ d : Fin 10, isNum (digitChar d) = true ∧ digitChar d ≠ '-' := by decide

theorem natDigits_inj {m n : Nat} (h : natDigits m = natDigits n) : m = n := by
  rw [← natDigits_value m, h, natDigits_value]

theorem map_digitChar_inj {a b : List Nat} (ha : ∀ d ∈ a, d < 10) (hb : ∀ d ∈ b, d < 10) (h : a.map digitChar = b.map digitChar) : a = b := by
  induction a generalizing b with
  | nil => cases b with
    | nil => rfl
    | cons d b => simp at h
  | cons x a ih => cases b with
    | nil => simp at h
    | cons d b =>
      simp only [List.map_cons, List.cons.injEq] at h
      have h1 := digitChar_inj ⟨x, ha x (by simp)⟩ ⟨d, hb d (by simp)⟩ h.1
      have h1 : x = d := congrArg Fin.val h1
      rw [h1, ih (fun d hd => ha d (by simp [hd])) (fun d hd => hb d (by simp [hd])) h.2]

theorem num_chars (i : Int) : ∀ c ∈ num i, isNum c = true := by
  intro c hc
  unfold num at hc
  rw [List.mem_append] at hc
  rcases hc with hc | hc
  · split at hc
    · simp only [List.mem_singleton] at hc; subst hc; rfl
    · simp at hc
  · obtain ⟨d, hd, rfl⟩ := List.mem_map.1 hc
    exact (digit_num ⟨d, natDigits_lt _ d hd⟩).1

theorem num_head (i : Int) : ∃ c l, num i = c :: l ∧ isNum c = true := by
  have h : num i ≠ [] := by
    unfold num
    simp [natDigits_ne]
  obtain ⟨c, l, e⟩ := List.exists_cons_of_ne_nil h
  exact ⟨c, l, e, num_chars i c (by rw [e]; simp)⟩

/-- The numbers of different ids differ. -/
theorem num_inj {i j : Int} (h : num i = num j) : i = j := by
  have hd : ∀ m : Nat, ∀ c ∈ (natDigits m).map digitChar, c ≠ '-' := by
    intro m c hc
    obtain ⟨d, hd, rfl⟩ := List.mem_map.1 hc
    exact (digit_num ⟨d, natDigits_lt _ d hd⟩).2
  have hne : ∀ m n : Nat, '-' :: (natDigits m).map digitChar ≠ (natDigits n).map digitChar := by
    intro m n e
    exact hd n '-' (by rw [← e]; simp) rfl
  have hi : ∀ m n : Nat, (natDigits m).map digitChar = (natDigits n).map digitChar → m = n := fun m n e =>
    natDigits_inj (map_digitChar_inj (natDigits_lt m) (natDigits_lt n) e)
  unfold num at h
  by_cases h1 : i < 0 <;> by_cases h2 : j < 0
  · simp only [h1, h2, if_true, List.singleton_append, List.cons.injEq, true_and] at h
    have := hi _ _ h
    omega
  · simp only [h1, h2, if_true, if_false, List.nil_append, List.singleton_append] at h
    exact absurd h (hne _ _)
  · simp only [h1, h2, if_true, if_false, List.nil_append, List.singleton_append] at h
    exact absurd h.symm (hne _ _)
  · simp only [h1, h2, if_false, List.nil_append] at h
    have := hi _ _ h
    omega

theorem num_cut {i j : Int} {r s : List Char} (hr : Stops isNum r) (hs : Stops isNum s) (h : num i ++ r = num j ++ s) : i = j ∧ r = s := by
  obtain ⟨h1, h2⟩ := cut (num_chars i) (num_chars j) hr hs h
  exact ⟨num_inj h1, h2⟩

theorem stops_cons {p : Char → Bool} {c : Char} {l : List Char} (h : p c = false) : Stops p (c :: l) := by
  intro d hd
  simp only [List.head?_cons, Option.mem_def, Option.some.injEq] at hd
  exact hd ▸ h

/-- A list of numbers can be read again if another character follows. -/
theorem each_cut {sep stop : Char} (h1 : isNum sep = false) (h2 : isNum stop = false) {a b : List Int} {r s : List Char}
    (h : each sep a ++ stop :: r = each sep b ++ stop :: s) : a = b ∧ r = s := by
  induction a generalizing b with
  | nil =>
    cases b with
    | nil => simpa [each] using h
    | cons j b =>
      obtain ⟨c, l, e, hc⟩ := num_head j
      simp only [each, List.flatMap_nil, List.nil_append, List.flatMap_cons, e, List.cons_append, List.cons.injEq] at h
      rw [← h.1, h2] at hc
      cases hc
  | cons i a ih =>
    cases b with
    | nil =>
      obtain ⟨c, l, e, hc⟩ := num_head i
      simp only [each, List.flatMap_nil, List.nil_append, List.flatMap_cons, e, List.cons_append, List.cons.injEq] at h
      rw [h.1, h2] at hc
      cases hc
    | cons j b =>
      have h' : num i ++ (sep :: (each sep a ++ stop :: r)) = num j ++ (sep :: (each sep b ++ stop :: s)) := by
        simpa [each] using h
      obtain ⟨e1, e2⟩ := num_cut (stops_cons h1) (stops_cons h1) h'
      obtain ⟨e3, e4⟩ := ih (List.cons.inj e2).2
      exact ⟨by rw [e1, e3], e4⟩

theorem join_eq (i : Int) (l : List Int) : join (i :: l) = num i ++ l.flatMap fun j => (txt! ", ") ++ num j := by
  induction l generalizing i with
  | nil => simp [join]
  | cons j l ih => rw [join, ih]; simp

theorem tail_cut {a b : List Int} (h : (a.flatMap fun j => (txt! ", ") ++ num j) ++ [']'] = (b.flatMap fun j => (txt! ", ") ++ num j) ++ [']']) :
    a = b := by
  have stop : ∀ l : List Int, Stops isNum ((l.flatMap fun j => (txt! ", ") ++ num j) ++ [']']) := by
    intro l
    cases l with
    | nil => exact stops_cons rfl
    | cons x l => exact stops_cons (by rfl)
  induction a generalizing b with
  | nil => cases b with
    | nil => rfl
    | cons j b => simp at h
  | cons i a ih => cases b with
    | nil => simp at h
    | cons j b =>
      have h' : num i ++ ((a.flatMap fun j => (txt! ", ") ++ num j) ++ [']']) = num j ++ ((b.flatMap fun j => (txt! ", ") ++ num j) ++ [']']) := by
        simpa using h
      obtain ⟨e1, e2⟩ := num_cut (stop a) (stop b) h'
      rw [e1, ih e2]

theorem join_cut {a b : List Int} (h : join a ++ [']'] = join b ++ [']']) : a = b := by
  have stop : ∀ l : List Int, Stops isNum ((l.flatMap fun j => (txt! ", ") ++ num j) ++ [']']) := by
    intro l
    cases l with
    | nil => exact stops_cons rfl
    | cons x l => exact stops_cons (by rfl)
  cases a with
  | nil => cases b with
    | nil => rfl
    | cons j b =>
      obtain ⟨c, l, e, hc⟩ := num_head j
      rw [join_eq, e] at h
      simp [join] at h
  | cons i a => cases b with
    | nil =>
      obtain ⟨c, l, e, hc⟩ := num_head i
      rw [join_eq, e] at h
      simp [join] at h
    | cons j b =>
      rw [join_eq, join_eq, List.append_assoc, List.append_assoc] at h
      obtain ⟨e1, e2⟩ := num_cut (stop a) (stop b) h
      rw [e1, tail_cut e2]

theorem stops_app {p : Char → Bool} (s r : List Char) (h : (s.head?.any fun c => !p c) = true) : Stops p (s ++ r) := by
  cases s with
  | nil => simp at h
  | cons c s => exact stops_cons (by simpa using h)

theorem clash (n : Nat) (s t : List Char) {r u : List Char} (h : s ++ r = t ++ u) (hn : n ≤ s.length ∧ n ≤ t.length ∧ s.take n ≠ t.take n) : False := by
  have := congrArg (List.take n) h
  rw [List.take_append_of_le_length hn.1, List.take_append_of_le_length hn.2.1] at this
  exact hn.2.2 this

/-- C103. The text of a linestring or polygon tells its id, its direction and its points in their order. -/
theorem lineText_iff (x y : Line) : lineText x = lineText y ↔ x = y := by
  refine ⟨fun h => ?_, congrArg _⟩
  obtain ⟨i, v, p⟩ := x
  obtain ⟨j, w, q⟩ := y
  simp only [lineText, List.append_assoc, List.append_cancel_left_eq] at h
  cases v <;> cases w <;> simp only [if_true, if_false, List.nil_append, Bool.false_eq_true] at h
  all_goals
    obtain ⟨e1, e2⟩ := num_cut (stops_app _ _ (by decide)) (stops_app _ _ (by decide)) h
    subst e1
  · have := List.append_cancel_left e2
    rw [join_cut this]
  · exact (clash 1 _ _ e2 (by decide)).elim
  · exact (clash 1 _ _ e2 (by decide)).elim
  · have := List.append_cancel_left (List.append_cancel_left e2)
    rw [join_cut this]

/-- What may follow the id of a bound. -/
theorem inverted_cut (v w : Bool) (t : List Char) {r u : List Char} (ht : 1 ≤ t.length ∧ t.take 1 ≠ [' '])
    (h : (if v then (txt! " (inverted)") else []) ++ (t ++ r) = (if w then (txt! " (inverted)") else []) ++ (t ++ u)) : v = w ∧ r = u := by
  have hl : 1 ≤ (txt! " (inverted)").length := by decide
  have e : (txt! " (inverted)").take 1 = [' '] := by decide
  cases v <;> cases w <;> simp only [if_true, if_false, List.nil_append, Bool.false_eq_true] at h
  · exact ⟨rfl, List.append_cancel_left h⟩
  · exact (clash 1 _ _ h ⟨ht.1, hl, by rw [e]; exact ht.2⟩).elim
  · exact (clash 1 _ _ h ⟨hl, ht.1, by rw [e]; exact ht.2.symm⟩).elim
  · exact ⟨rfl, List.append_cancel_left (List.append_cancel_left h)⟩

theorem stops_inverted (v : Bool) (t r : List Char) (h : (t.head?.any fun c => !isNum c) = true) :
    Stops isNum ((if v then (txt! " (inverted)") else []) ++ (t ++ r)) := by
  cases v
  · exact stops_app t r h
  · exact stops_app (txt! " (inverted)") (t ++ r) (by decide)

/-- C103. The text of a lanelet tells its id and direction and the ids and directions of its bounds. -/
theorem laneletText_iff (x y : Lanelet) : laneletText x = laneletText y ↔ x = y := by
  refine ⟨fun h => ?_, congrArg _⟩
  obtain ⟨i, v, l, lv, r, rv⟩ := x
  obtain ⟨j, w, k, kw, s, sw⟩ := y
  simp only [laneletText, List.append_assoc, List.append_cancel_left_eq] at h
  have rest : ∀ {a b : List Char}, a = num l ++ ((if lv then (txt! " (inverted)") else []) ++ ((txt! ", right id: ") ++ (num r ++
      ((if rv then (txt! " (inverted)") else []) ++ (txt! "]"))))) → b = num k ++ ((if kw then (txt! " (inverted)") else []) ++
      ((txt! ", right id: ") ++ (num s ++ ((if sw then (txt! " (inverted)") else []) ++ (txt! "]"))))) → a = b →
      l = k ∧ lv = kw ∧ r = s ∧ rv = sw := by
    rintro _ _ rfl rfl h
    obtain ⟨e1, h⟩ := num_cut (stops_inverted _ _ _ (by decide)) (stops_inverted _ _ _ (by decide)) h
    obtain ⟨e2, h⟩ := inverted_cut lv kw _ (by decide) h
    rw [← List.append_nil (txt! "]")] at h
    obtain ⟨e3, h⟩ := num_cut (stops_inverted _ _ _ (by decide)) (stops_inverted _ _ _ (by decide)) h
    obtain ⟨e4, -⟩ := inverted_cut rv sw _ (by decide) h
    exact ⟨e1, e2, e3, e4⟩
  cases v <;> cases w <;> simp only [if_true, if_false, List.nil_append, Bool.false_eq_true] at h
  all_goals
    obtain ⟨e1, e2⟩ := num_cut (stops_app _ _ (by decide)) (stops_app _ _ (by decide)) h
    subst e1
  · obtain ⟨rfl, rfl, rfl, rfl⟩ := rest rfl rfl (List.append_cancel_left e2)
    rfl
  · exact (clash 3 _ _ e2 (by decide)).elim
  · exact (clash 3 _ _ e2 (by decide)).elim
  · obtain ⟨rfl, rfl, rfl, rfl⟩ := rest rfl rfl (List.append_cancel_left (List.append_cancel_left e2))
    rfl

/-- C103. The text of an area tells its id and the ids of the linestrings of its bounds in their order. -/
theorem areaText_iff (x y : Area) : areaText x = areaText y ↔
    x.id = y.id ∧ x.outer.map (·.1) = y.outer.map (·.1) ∧ x.inner.map (·.map (·.1)) = y.inner.map (·.map (·.1)) := by
  have form : ∀ x : Area, areaText x = (txt! "[id: ") ++ (num x.id ++
      ((if x.outer.map (·.1) = [] then [] else (txt! " outer: [") ++ (each ',' (x.outer.map (·.1)) ++ [']'])) ++
      ((if x.inner.map (·.map (·.1)) = [] then [] else (txt! " inner: ") ++ (x.inner.map (·.map (·.1))).flatMap fun b => '[' :: (each ',' b ++ [']'])) ++
      [']']))) := by
    intro x
    have e1 : ∀ l : List (Int × Bool), (l.map (·.1) = []) = (l = []) := by simp
    have e2 : (x.inner.map (·.map (·.1)) = []) = (x.inner = []) := by simp
    simp only [areaText, List.append_assoc, e1, e2, List.flatMap_map, List.singleton_append]
    split <;> split <;> simp only [List.append_assoc, List.nil_append] <;> rfl
  rw [form, form]
  generalize x.outer.map (·.1) = a, x.inner.map (·.map (·.1)) = b, y.outer.map (·.1) = c, y.inner.map (·.map (·.1)) = d
  refine ⟨fun h => ?_, fun ⟨h1, h2, h3⟩ => by rw [h1, h2, h3]⟩
  replace h := List.append_cancel_left h
  have st : ∀ (a : List Int) (b : List (List Int)), Stops isNum ((if a = [] then [] else (txt! " outer: [") ++ (each ',' a ++ [']'])) ++
      ((if b = [] then [] else (txt! " inner: ") ++ b.flatMap fun b => '[' :: (each ',' b ++ [']'])) ++ [']'])) := by
    intro a b
    split
    · split
      · exact stops_cons rfl
      · rw [List.nil_append, List.append_assoc]; exact stops_app _ _ (by decide)
    · rw [List.append_assoc]; exact stops_app _ _ (by decide)
  obtain ⟨e1, h⟩ := num_cut (st a b) (st c d) h
  have inn : ∀ b d : List (List Int), (b.flatMap fun b => '[' :: (each ',' b ++ [']'])) ++ [']'] = (d.flatMap fun b => '[' :: (each ',' b ++ [']'])) ++ [']'] →
      b = d := by
    intro b
    induction b with
    | nil => intro d h; cases d with
      | nil => rfl
      | cons x d => simp at h
    | cons x b ih => intro d h; cases d with
      | nil => simp at h
      | cons y d =>
        have h' : each ',' x ++ ']' :: ((b.flatMap fun b => '[' :: (each ',' b ++ [']'])) ++ [']']) =
            each ',' y ++ ']' :: ((d.flatMap fun b => '[' :: (each ',' b ++ [']'])) ++ [']']) := by simpa using h
        obtain ⟨h1, h2⟩ := each_cut rfl rfl h'
        rw [h1, ih d h2]
  have inner : ∀ b d : List (List Int), (if b = [] then [] else (txt! " inner: ") ++ b.flatMap fun b => '[' :: (each ',' b ++ [']'])) ++ [']'] =
      (if d = [] then [] else (txt! " inner: ") ++ d.flatMap fun b => '[' :: (each ',' b ++ [']'])) ++ [']'] → b = d := by
    intro b d h
    split at h <;> split at h
    · rename_i h1 h2; rw [h1, h2]
    · rw [List.nil_append, ← List.append_nil [']'], List.append_assoc] at h
      exact (clash 1 _ _ h (by decide)).elim
    · rw [List.nil_append, ← List.append_nil [']'], List.append_assoc] at h
      exact (clash 1 _ _ h (by decide)).elim
    · rw [List.append_assoc, List.append_assoc] at h
      exact inn _ _ (List.append_cancel_left h)
  have out : a = c ∧ b = d := by
    have mixed : ∀ (a : List Int) (b d : List (List Int)), a ≠ [] → (txt! " outer: [") ++ (each ',' a ++ [']']) ++
        ((if b = [] then [] else (txt! " inner: ") ++ b.flatMap fun b => '[' :: (each ',' b ++ [']'])) ++ [']']) ≠
        (if d = [] then [] else (txt! " inner: ") ++ d.flatMap fun b => '[' :: (each ',' b ++ [']'])) ++ [']'] := by
      intro a b d ha h
      rw [List.append_assoc] at h
      split at h <;> split at h <;> simp only [List.nil_append, List.append_assoc] at h
      all_goals first
        | exact clash 2 _ _ h (by decide)
        | (rw [← List.append_nil [']']] at h; exact clash 1 _ _ h (by decide))
    by_cases ha : a = [] <;> by_cases hc : c = []
    · rw [if_pos ha, if_pos hc] at h
      exact ⟨ha.trans hc.symm, inner _ _ h⟩
    · rw [if_pos ha, if_neg hc] at h
      exact absurd h.symm (mixed c d b hc)
    · rw [if_neg ha, if_pos hc] at h
      exact absurd h (mixed a b d ha)
    · rw [if_neg ha, if_neg hc, List.append_assoc, List.append_assoc, List.append_assoc, List.append_assoc] at h
      obtain ⟨e2, e3⟩ := each_cut rfl rfl (List.append_cancel_left h)
      exact ⟨e2, inner _ _ e3⟩
  exact ⟨e1, out⟩

/-- C103, disagreement. The directions of the bounds of an area are not shown: areas with the same linestrings in other directions have the
same text. -/
theorem area_direction_counterexample (id : Int) (outer : List (Int × Bool)) (inner : List (List (Int × Bool))) (f : Int → Bool) :
    areaText ⟨id, outer.map fun l => (l.1, f l.1), inner.map (·.map fun l => (l.1, f l.1))⟩ = areaText ⟨id, outer, inner⟩ := by
  rw [areaText_iff]
  refine ⟨rfl, ?_, ?_⟩ <;> simp [Function.comp_def]

/-- C103. The text of a lanelet is none of an area. -/
theorem laneletOrAreaText_iff (x y : Lanelet ⊕ Area) : laneletOrAreaText x = laneletOrAreaText y ↔
    (∃ a b, x = .inl a ∧ y = .inl b ∧ a = b) ∨ ∃ a b, x = .inr a ∧ y = .inr b ∧ areaText a = areaText b := by
  have mixed : ∀ (a : Lanelet) (b : Area), laneletText a ≠ areaText b := by
    rintro ⟨i, v, l, lv, r, rv⟩ ⟨j, o, n⟩ h
    simp only [laneletText, areaText, List.append_assoc, List.append_cancel_left_eq] at h
    cases v <;> by_cases ho : o = [] <;> by_cases hn : n = [] <;>
      simp only [ho, hn, if_true, if_false, List.nil_append, List.append_assoc, Bool.false_eq_true] at h
    all_goals first
      | exact clash 1 _ _ (num_cut (stops_app _ _ (by decide)) (stops_app _ _ (by decide)) h).2 (by decide)
      | (rw [← List.append_nil (txt! "]")] at h
         exact clash 1 _ _ (num_cut (stops_app _ _ (by decide)) (stops_app _ _ (by decide)) h).2 (by decide))
  cases x with
  | inl a => cases y with
    | inl b => simp [laneletOrAreaText, laneletText_iff, eq_comm]
    | inr b => simpa [laneletOrAreaText] using mixed a b
  | inr a => cases y with
    | inl b => simpa [laneletOrAreaText] using (mixed b a).symm
    | inr b => simp [laneletOrAreaText]

theorem seq_ne (a b : List Int) : each ' ' a ++ (txt! "]") ≠ each ' ' b ++ ((txt! ", inverted") ++ (txt! "]")) := by
  intro h
  have hmem : ',' ∈ each ' ' a ++ (txt! "]") := by
    rw [h]
    simp
  have hno : ∀ c ∈ each ' ' a, c ≠ ',' := by
    intro c hc
    obtain ⟨i, -, hi⟩ := List.mem_flatMap.1 hc
    rcases List.mem_append.1 hi with hi | hi
    · rintro rfl
      exact absurd (num_chars i _ hi) (by decide)
    · rw [List.mem_singleton] at hi
      subst hi
      decide
  rcases List.mem_append.1 hmem with h1 | h1
  · exact hno _ h1 rfl
  · exact absurd h1 (by decide)

/-- C103. The text of a sequence of lanelets or of a compound linestring tells the ids in their order and the direction. -/
theorem sequenceText_iff (a b : List Int) (v w : Bool) : sequenceText a v = sequenceText b w ↔ a = b ∧ v = w := by
  refine ⟨fun h => ?_, fun ⟨h1, h2⟩ => by rw [h1, h2]⟩
  simp only [sequenceText, List.append_assoc, List.append_cancel_left_eq] at h
  have nonempty : ∀ (a : List Int), a ≠ [] → ∀ r s : List Char, (txt! "ids: ") ++ (each ' ' a ++ r) = s → s.take 1 = ['i'] := by
    rintro a - r _ rfl
    rfl
  have tail : ∀ (v : Bool), ((if v then (txt! ", inverted") else []) ++ (txt! "]")).take 1 ≠ ['i'] := by decide
  by_cases ha : a = [] <;> by_cases hb : b = []
  · subst ha hb
    simp only [if_true, List.nil_append] at h
    refine ⟨rfl, ?_⟩
    revert v w
    decide
  · simp only [ha, hb, if_true, if_false, List.nil_append, List.append_assoc] at h
    exact absurd (nonempty b hb _ _ h.symm) (tail v)
  · simp only [ha, hb, if_true, if_false, List.nil_append, List.append_assoc] at h
    exact absurd (nonempty a ha _ _ h) (tail w)
  · simp only [ha, hb, if_false, List.append_assoc] at h
    replace h := List.append_cancel_left h
    cases v <;> cases w <;> simp only [if_true, if_false, List.nil_append, Bool.false_eq_true] at h
    · exact ⟨(each_cut (stop := ']') (r := []) (s := []) rfl rfl h).1, rfl⟩
    · exfalso
      exact seq_ne a b h
    · exfalso
      exact seq_ne b a h.symm
    · exact ⟨(each_cut (stop := ',') rfl rfl h).1, rfl⟩

/-- Characters up to the first colon. -/
theorem colon_cut {a b r s : List Char} (ha : ':' ∉ a) (hb : ':' ∉ b) (h : a ++ ':' :: r = b ++ ':' :: s) : a = b ∧ r = s := by
  have k : ∀ l : List Char, ':' ∉ l → ∀ c ∈ l, (c != ':') = true := fun l hl c hc => by
    simp only [bne_iff_ne, ne_eq]
    rintro rfl
    exact hl hc
  obtain ⟨h1, h2⟩ := cut (p := (· != ':')) (k a ha) (k b hb) (stops_cons rfl) (stops_cons rfl) h
  exact ⟨h1, (List.cons.inj h2).2⟩

/-- C103. If no role has a colon, the text of a regulatory element tells its id, its roles and the ids of their parameters in their order. -/
theorem regText_iff (x y : Reg) (hx : ∀ e ∈ x.params, ':' ∉ e.1) (hy : ∀ e ∈ y.params, ':' ∉ e.1) : regText x = regText y ↔
    x.id = y.id ∧ x.params.map (fun e => (e.1, e.2.map Param.id)) = y.params.map (fun e => (e.1, e.2.map Param.id)) := by
  obtain ⟨i, p⟩ := x
  obtain ⟨j, q⟩ := y
  have form : ∀ (i : Int) (p : List (List Char × List Param)), regText ⟨i, p⟩ = (txt! "[id: ") ++ (num i ++
      ((if p.map (fun e => (e.1, e.2.map Param.id)) = [] then [] else (txt! ", parameters: ")) ++
      ((p.map (fun e => (e.1, e.2.map Param.id))).flatMap (fun e => '{' :: (e.1 ++ ':' :: ' ' :: (each ' ' e.2 ++ ['}']))) ++ [']']))) := by
    intro i p
    cases p with
    | nil => simp [regText]
    | cons e p => simp [regText, List.flatMap_map]
  rw [form, form]
  have hx' : ∀ e ∈ p.map (fun e => (e.1, e.2.map Param.id)), ':' ∉ e.1 := by
    intro e he
    obtain ⟨d, hd, rfl⟩ := List.mem_map.1 he
    exact hx d hd
  have hy' : ∀ e ∈ q.map (fun e => (e.1, e.2.map Param.id)), ':' ∉ e.1 := by
    intro e he
    obtain ⟨d, hd, rfl⟩ := List.mem_map.1 he
    exact hy d hd
  simp only
  generalize p.map (fun e => (e.1, e.2.map Param.id)) = a, q.map (fun e => (e.1, e.2.map Param.id)) = b at hx' hy'
  clear hx hy form p q
  refine ⟨fun h => ?_, fun ⟨h1, h2⟩ => by rw [h1, h2]⟩
  replace h := List.append_cancel_left h
  have body : ∀ a b : List (List Char × List Int), (∀ e ∈ a, ':' ∉ e.1) → (∀ e ∈ b, ':' ∉ e.1) →
      a.flatMap (fun e => '{' :: (e.1 ++ ':' :: ' ' :: (each ' ' e.2 ++ ['}']))) ++ [']'] =
      b.flatMap (fun e => '{' :: (e.1 ++ ':' :: ' ' :: (each ' ' e.2 ++ ['}']))) ++ [']'] → a = b := by
    intro a
    induction a with
    | nil => intro b _ _ h; cases b with
      | nil => rfl
      | cons x b => simp at h
    | cons x a ih => intro b ha hb h; cases b with
      | nil => simp at h
      | cons y b =>
        have h' : x.1 ++ ':' :: (' ' :: (each ' ' x.2 ++ '}' :: (a.flatMap (fun e => '{' :: (e.1 ++ ':' :: ' ' :: (each ' ' e.2 ++ ['}']))) ++ [']']))) =
            y.1 ++ ':' :: (' ' :: (each ' ' y.2 ++ '}' :: (b.flatMap (fun e => '{' :: (e.1 ++ ':' :: ' ' :: (each ' ' e.2 ++ ['}']))) ++ [']']))) := by
          simpa using h
        obtain ⟨h1, h2⟩ := colon_cut (ha x (by simp)) (hb y (by simp)) h'
        obtain ⟨h3, h4⟩ := each_cut rfl rfl (List.cons.inj h2).2
        rw [ih b (fun e he => ha e (by simp [he])) (fun e he => hb e (by simp [he])) h4]
        congr 1
        exact Prod.ext h1 h3
  by_cases h1 : a = [] <;> by_cases h2 : b = []
  · subst h1 h2
    exact ⟨(num_cut (stops_cons rfl) (stops_cons rfl) h).1, rfl⟩
  · rw [if_pos h1, if_neg h2, h1, List.flatMap_nil, List.nil_append, List.nil_append, ← List.append_nil [']']] at h
    exact (clash 1 _ _ (num_cut (stops_app _ _ (by decide)) (stops_app _ _ (by decide)) h).2 (by decide)).elim
  · rw [if_neg h1, if_pos h2, h2, List.flatMap_nil, List.nil_append, List.nil_append, ← List.append_nil [']']] at h
    exact (clash 1 _ _ (num_cut (stops_app _ _ (by decide)) (stops_app _ _ (by decide)) h).2 (by decide)).elim
  · rw [if_neg h1, if_neg h2] at h
    obtain ⟨e1, e2⟩ := num_cut (stops_app _ _ (by decide)) (stops_app _ _ (by decide)) h
    exact ⟨e1, body a b hx' hy' (List.append_cancel_left e2)⟩

/-- C103, disagreement. A lanelet that does not exist any more is written like a parameter with the id 0, for all regulatory elements. And with a
colon in a role two different elements have the same text. -/
theorem reg_counterexample :
    (∀ (id : Int) (role : List Char), regText ⟨id, [(role, [.expired])]⟩ = regText ⟨id, [(role, [.alive 0])]⟩) ∧
    regText ⟨1, [(txt! "a", [.alive 2]), (txt! "b", [.alive 3])]⟩ = regText ⟨1, [(txt! "a: 2 }{b", [.alive 3])]⟩ :=
  ⟨fun _ _ => rfl, by decide +kernel⟩

/-- C103. The text of attributes tells all keys and values in their order if keys have no colon and values no space. -/
theorem attrText_iff (a b : List (List Char × List Char)) (ha : ∀ e ∈ a, ':' ∉ e.1 ∧ ' ' ∉ e.2) (hb : ∀ e ∈ b, ':' ∉ e.1 ∧ ' ' ∉ e.2) :
    attrText a = attrText b ↔ a = b := by
  refine ⟨fun h => ?_, congrArg _⟩
  induction a generalizing b with
  | nil => cases b with
    | nil => rfl
    | cons y b => simp [attrText] at h
  | cons x a ih => cases b with
    | nil => simp [attrText] at h
    | cons y b =>
      have h' : x.1 ++ ':' :: (' ' :: (x.2 ++ (' ' :: attrText a))) = y.1 ++ ':' :: (' ' :: (y.2 ++ (' ' :: attrText b))) := by
        simpa [attrText] using h
      obtain ⟨h1, h2⟩ := colon_cut (ha x (by simp)).1 (hb y (by simp)).1 h'
      have k : ∀ l : List Char, ' ' ∉ l → ∀ c ∈ l, (c != ' ') = true := fun l hl c hc => by
        simp only [bne_iff_ne, ne_eq]
        rintro rfl
        exact hl hc
      obtain ⟨h3, h4⟩ := cut (p := (· != ' ')) (k _ (ha x (by simp)).2) (k _ (hb y (by simp)).2) (stops_cons rfl) (stops_cons rfl) (List.cons.inj h2).2
      rw [ih b (fun e he => ha e (by simp [he])) (fun e he => hb e (by simp [he])) (List.cons.inj h4).2]
      congr 1
      exact Prod.ext h1 h3

/-- C103, disagreement. With spaces in a value, different attributes have the same text. -/
theorem attr_counterexample : attrText [(txt! "type", txt! "curb"), (txt! "z", txt! "1")] = attrText [(txt! "type", txt! "curb z: 1")] := by
  decide +kernel

/-- C103. The text of a point tells its id and six digits of each coordinate. -/
theorem pointText_iff {dbl : Rat → List Char} (hd : SixDigits dbl) (i j : Int) (x y z x' y' z' : Rat) :
    pointText dbl i x y z = pointText dbl j x' y' z' ↔
    i = j ∧ Py.Repr.sig6 x = Py.Repr.sig6 x' ∧ Py.Repr.sig6 y = Py.Repr.sig6 y' ∧ Py.Repr.sig6 z = Py.Repr.sig6 z' := by
  rw [← hd.same, ← hd.same, ← hd.same]
  refine ⟨fun h => ?_, fun ⟨h1, h2, h3, h4⟩ => by unfold pointText; rw [h1, h2, h3, h4]⟩
  simp only [pointText, List.append_assoc, List.append_cancel_left_eq] at h
  have k : ∀ x, ∀ c ∈ dbl x, (c != ' ' && c != ']') = true := fun x c hc => by
    have := hd.chars x c hc
    simp [this.1, this.2]
  obtain ⟨e1, h⟩ := num_cut (stops_app _ _ (by decide)) (stops_app _ _ (by decide)) h
  obtain ⟨e2, h⟩ := cut (k x) (k x') (stops_app _ _ (by decide)) (stops_app _ _ (by decide)) (List.append_cancel_left h)
  obtain ⟨e3, h⟩ := cut (k y) (k y') (stops_app _ _ (by decide)) (stops_app _ _ (by decide)) (List.append_cancel_left h)
  obtain ⟨e4, -⟩ := cut (k z) (k z') (stops_cons (by decide)) (stops_cons (by decide)) (List.append_cancel_left h)
  exact ⟨e1, e2, e3, e4⟩

/-- C103, disagreement. Points that are metres apart have the same text. -/
theorem point_counterexample {dbl : Rat → List Char} (hd : SixDigits dbl) (id : Int) (y z : Rat) :
    pointText dbl id 1234567 y z = pointText dbl id 1234570 y z := by
  rw [pointText_iff hd]
  refine ⟨rfl, ?_, rfl, rfl⟩
  have := Py.Repr.sig6_exact 123457 1 (by norm_num)
  norm_num at this
  rw [Py.Repr.sig6_1234567, this]

/-! ### Examples -/

/-- Example. A way to write doubles with six digits. -/
theorem sixDigits_exists : SixDigits fun x => num (Py.Repr.sig6 x).num ++ '/' :: num (Py.Repr.sig6 x).den := by
  refine ⟨fun x y => ⟨fun h => ?_, fun h => by rw [h]⟩, fun x c hc => ?_⟩
  · obtain ⟨e1, e2⟩ := num_cut (stops_cons rfl) (stops_cons rfl) h
    have e3 := num_inj (List.cons.inj e2).2
    exact Rat.ext e1 (by exact_mod_cast e3)
  · have k : ∀ c, isNum c = true → c ≠ ' ' ∧ c ≠ ']' := by
      intro c h
      constructor <;> (rintro rfl; exact absurd h (by decide))
    rcases List.mem_append.1 hc with h | h
    · exact k c (num_chars _ c h)
    · rcases List.mem_cons.1 h with rfl | h
      · decide
      · exact k c (num_chars _ c h)

example : lineText ⟨-7, true, [1, 20, 1]⟩ = txt! "[id: -7, inverted point ids: 1, 20, 1]" := by decide +kernel
example : laneletText ⟨7, true, 1, false, 2, true⟩ = txt! "[id: 7, inverted, left id: 1, right id: 2 (inverted)]" := by decide +kernel
example : areaText ⟨7, [(1, false), (2, true)], [[(3, false)], []]⟩ = txt! "[id: 7 outer: [1,2,] inner: [3,][]]" := by decide +kernel
example : sequenceText [3, 4] true = txt! "[ids: 3 4 , inverted]" := by decide +kernel
example : regText ⟨7, [(txt! "refers", [.alive 3, .expired]), (txt! "ref_line", [])]⟩ = txt! "[id: 7, parameters: {refers: 3 0 }{ref_line: }]" := by
  decide +kernel

end Verif.Text
