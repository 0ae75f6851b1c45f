import Verif.LineStr.Model
import Mathlib.Data.List.Nodup

/-!
Model of the functions that join containers and of other helpers in lanelet2_core/include/lanelet2_core/utility/Utilities.h: MoveIf (26-43),
detail::concatenate (62-83), detail::concatenateRange (85-117), their front ends (253-313), transform (119-126, 175-183, 205-213), find and
findIf (185-203), contains (220-223), invert (168-173), sum (247-251), orderedPair (143-146), strequal (332-339).

Memory is modelled as far as moving is concerned: containers hold handles, a handle that was moved from is null. Reserving memory is not
modelled, it has no effect on the result. Elements outside of a container are undefined behaviour (`none`).
-/
namespace Verif.Util.Concat
open Verif.LineStr

variable {P A : Type}

/-- The containers of a program by number, with handles, `none` being a handle that was moved from (the shared pointer in it is null;
Primitive.h 182, 189, the move constructor of ConstPrimitive) -/
abbrev Mem (P : Type) := Nat → List (Option P)

/-- A place in a container. -/
abbrev Slot := Nat × Nat

/-- Reading a handle through an iterator, Utilities.h 69 -/
def load (m : Mem P) (s : Slot) : Option (Option P) := (m s.1)[s.2]?

/-- Moving a handle leaves a null handle, Utilities.h 33. -/
def moveOut (m : Mem P) (s : Slot) : Mem P := fun c => if c = s.1 then (m c).set s.2 none else m c

/-- `insert(end, first, last)` with the iterators as they are or as move iterators, Utilities.h 69, 80, 97, 114 -/
def insertRange (mv : Bool) : List Slot → Mem P → Option (List (Option P) × Mem P)
  | [], m => some ([], m)
  | s :: ss, m => match load m s with
    | none => none
    | some v => match insertRange mv ss (if mv then moveOut m s else m) with
      | none => none
      | some (vs, m') => some (v :: vs, m')

/-- How the container is passed: a named container, a temporary (or std::move of a named one), a list in braces;
Utilities.h 259-269, 294-302 -/
inductive Arg where
  | named
  | temporary
  | braces
  deriving DecidableEq

/-- `std::is_rvalue_reference<decltype(c)>`, Utilities.h 67, 94, 111, with std::forward and std::move in 262, 268, 296, 301 -/
def Arg.rvalue : Arg → Bool
  | .named => false
  | .temporary => true
  | .braces => true

/-- utils::concatenateRange, Utilities.h 85-117, 294-313: `f` gives the range of an element; `constIt` if its iterators are iterators to
constants, which cannot be moved from (std::move of a constant is a constant, which is copied). The ranges do not depend on what is moved,
since the sizes of the containers stay the same. -/
def concatenateRange (a : Arg) (constIt : Bool) (f : A → List Slot) : List A → Mem P → Option (List (Option P) × Mem P)
  | [], m => some ([], m)
  | x :: xs, m => match insertRange (a.rvalue && !constIt) (f x) m with
    | none => none
    | some (vs, m') => match concatenateRange a constIt f xs m' with
      | none => none
      | some (ws, m'') => some (vs ++ ws, m'')

/-- The range of a whole container. -/
def whole (m : Mem P) (c : Nat) : List Slot := (List.range (m c).length).map fun i => (c, i)

/-- utils::concatenate of containers, Utilities.h 62-72, 259-269. The elements of a list in braces are constants. -/
def concatenate (a : Arg) (cs : List Nat) (m : Mem P) : Option (List (Option P) × Mem P) :=
  concatenateRange a (a == .braces) (whole m) cs m

/-- utils::concatenate with a function, Utilities.h 74-83, 275-285: the values of `f` are containers of their own (here container `t`),
from which the elements are moved. `f` sees the memory. -/
def concatenateWith (t : Nat) (f : A → Mem P → List (Option P)) : List A → Mem P → Option (List (Option P) × Mem P)
  | [], m => some ([], m)
  | x :: xs, m =>
    let m1 : Mem P := fun c => if c = t then f x m else m c
    match insertRange true (whole m1 t) m1 with
    | none => none
    | some (vs, m2) => match concatenateWith t f xs (fun c => if c = t then m t else m2 c) with
      | none => none
      | some (ws, m3) => some (vs ++ ws, m3)

/-- `[](auto ls) { return std::make_pair(ls.begin(), ls.end()); }`, LaneletMap.cpp 819, 845, 870: the places of the points of a
linestring, from the last to the first if the handle is inverted (LineString.h 481, ReverseAndForwardIterator.h) -/
def points (m : Mem P) (h : LS) : List Slot := if h.inv then (whole m h.data).reverse else whole m h.data

/-- utils::transform, Utilities.h 119-126, 175-183, 205-213 -/
def transform {B : Type} (f : A → B) : List A → List B
  | [] => []
  | x :: xs => f x :: transform f xs

/-- utils::findIf, Utilities.h 195-203 -/
def findIf (p : A → Bool) : List A → Option A
  | [] => none
  | x :: xs => if p x then some x else findIf p xs

/-- utils::find, Utilities.h 185-193 -/
def find [BEq A] (l : List A) (v : A) : Option A := findIf (· == v) l

/-- utils::contains, Utilities.h 220-223 -/
def contains [BEq A] (l : List A) (v : A) : Bool := (findIf (· == v) l).isSome

/-- std::reverse_copy in utils::invert, Utilities.h 168-173 -/
def invert (l : List A) : List A := l.foldl (fun out x => x :: out) []

/-- utils::sum, Utilities.h 247-251 -/
def sum (f : A → Int) (l : List A) : Int := l.foldl (fun v x => v + f x) 0

/-- utils::orderedPair, Utilities.h 143-146 -/
def orderedPair (id : A → Int) (a b : A) : A × A := if id a < id b then (a, b) else (b, a)

/-- utils::strequal, Utilities.h 332-339, on the characters from the pointers on; `none` if it reads behind the end of the memory -/
def strequal : List UInt8 → List UInt8 → Option Bool
  | a :: l, b :: r =>
    if a ≠ 0 ∧ b ≠ 0 then
      if a ≠ b then some false else strequal l r
    else some (a == 0 && b == 0)
  | _, _ => none

/-! ### Specification -/

/-- Specification. All places exist. -/
def Exist (m : Mem P) (ss : List Slot) : Prop := ∀ s ∈ ss, ∃ v, load m s = some v

/-- Specification. What is stored in places. -/
def Holds (m : Mem P) (ss : List Slot) (vs : List (Option P)) : Prop := ss.map (load m) = vs.map some

/-- Specification. The points that a linestring shows. -/
def shows (m : Mem P) (h : LS) : List (Option P) := if h.inv then (m h.data).reverse else m h.data

/-! ### Joining -/

theorem insertRange_copy (ss : List Slot) (m : Mem P) (h : Exist m ss) :
    ∃ vs, insertRange false ss m = some (vs, m) ∧ Holds m ss vs := by
  induction ss with
  | nil => exact ⟨[], rfl, rfl⟩
  | cons s ss ih =>
    obtain ⟨v, hv⟩ := h s (by simp)
    obtain ⟨vs, h1, h2⟩ := ih fun t ht => h t (by simp [ht])
    refine ⟨v :: vs, by simp [insertRange, hv, h1], ?_⟩
    simp only [Holds, List.map_cons, hv] at h2 ⊢
    rw [h2]

theorem load_moveOut (m : Mem P) (s t : Slot) (h : ∃ v, load m s = some v) :
    load (moveOut m s) t = if t = s then some none else load m t := by
  obtain ⟨v, hv⟩ := h
  obtain ⟨c, i⟩ := s
  obtain ⟨d, j⟩ := t
  simp only [load, moveOut] at hv ⊢
  by_cases hc : d = c
  · subst hc
    simp only [if_true, Prod.mk.injEq, true_and]
    by_cases hj : j = i
    · subst hj
      have := (List.getElem?_eq_some_iff.1 hv).1
      simp [this]
    · simp [hj, List.getElem?_set_ne (Ne.symm hj)]
  · simp [hc]

theorem insertRange_move (ss : List Slot) (m : Mem P) (h : Exist m ss) :
    ∃ vs m', insertRange true ss m = some (vs, m') ∧ vs.length = ss.length ∧
      (∀ (k : Nat) s, ss[k]? = some s → vs[k]? = if s ∈ ss.take k then some none else load m s) ∧
      ∀ s, load m' s = if s ∈ ss then some none else load m s := by
  induction ss generalizing m with
  | nil => exact ⟨[], m, rfl, rfl, by simp, by simp⟩
  | cons s ss ih =>
    obtain ⟨v, hv⟩ := h s (by simp)
    have hl := fun t => load_moveOut m s t ⟨v, hv⟩
    obtain ⟨vs, m', h1, h2, h3, h4⟩ := ih (moveOut m s) (by
      intro t ht
      rw [hl]
      by_cases hts : t = s
      · exact ⟨none, if_pos hts⟩
      · rw [if_neg hts]; exact h t (by simp [ht]))
    refine ⟨v :: vs, m', by simp [insertRange, hv, h1], by simp [h2], ?_, ?_⟩
    · intro k t ht
      cases k with
      | zero => simp only [List.getElem?_cons_zero, Option.some.injEq] at ht; subst ht; simp [hv]
      | succ k =>
        simp only [List.getElem?_cons_succ] at ht ⊢
        rw [h3 k t ht, hl]
        simp only [List.take_succ_cons, List.mem_cons]
        by_cases h5 : t = s <;> by_cases h6 : t ∈ ss.take k <;> simp [h5, h6]
    · intro t
      rw [h4, hl]
      simp only [List.mem_cons]
      by_cases h5 : t = s <;> by_cases h6 : t ∈ ss <;> simp [h5, h6]

theorem insertRange_append (mv : Bool) (ss ts : List Slot) (m : Mem P) :
    insertRange mv (ss ++ ts) m = (insertRange mv ss m).bind fun (vs, m') =>
      (insertRange mv ts m').map fun (ws, m'') => (vs ++ ws, m'') := by
  induction ss generalizing m with
  | nil => simp only [List.nil_append, insertRange, Option.bind_some]; cases insertRange mv ts m <;> rfl
  | cons s ss ih =>
    simp only [List.cons_append, insertRange]
    cases load m s with
    | none => rfl
    | some v =>
      simp only [ih]
      cases insertRange mv ss (if mv then moveOut m s else m) with
      | none => rfl
      | some p =>
        obtain ⟨vs, m'⟩ := p
        simp only [Option.bind_some]
        cases insertRange mv ts m' <;> simp

theorem concatenateRange_eq (a : Arg) (constIt : Bool) (f : A → List Slot) (xs : List A) (m : Mem P) :
    concatenateRange a constIt f xs m = insertRange (a.rvalue && !constIt) (xs.flatMap f) m := by
  induction xs generalizing m with
  | nil => rfl
  | cons x xs ih =>
    simp only [concatenateRange, List.flatMap_cons, insertRange_append]
    cases insertRange (a.rvalue && !constIt) (f x) m with
    | none => rfl
    | some p =>
      obtain ⟨vs, m'⟩ := p
      simp only [ih, Option.bind_some]
      cases insertRange (a.rvalue && !constIt) (xs.flatMap f) m' <;> rfl

/-- C98. concatenateRange of a named container, or with ranges of constants, gives the elements of all ranges one after the other and
changes nothing. -/
theorem concatenateRange_copies (a : Arg) (constIt : Bool) (f : A → List Slot) (xs : List A) (m : Mem P) (h : Exist m (xs.flatMap f))
    (ha : a = .named ∨ constIt = true) :
    ∃ vs, concatenateRange a constIt f xs m = some (vs, m) ∧ Holds m (xs.flatMap f) vs := by
  have : (a.rvalue && !constIt) = false := by
    rcases ha with ha | ha
    · subst ha; rfl
    · subst ha; simp
  rw [concatenateRange_eq, this]
  exact insertRange_copy _ m h

/-- C98. concatenateRange of a temporary container with ranges of elements that are not constants: an element is in the result where it
occurs first, and null where it occurs again; and where it came from there is a null handle afterwards. All other places keep what they
have. -/
theorem concatenateRange_moves (a : Arg) (f : A → List Slot) (xs : List A) (m : Mem P) (h : Exist m (xs.flatMap f)) (ha : a ≠ .named) :
    ∃ vs m', concatenateRange a false f xs m = some (vs, m') ∧ vs.length = (xs.flatMap f).length ∧
      (∀ (k : Nat) s, (xs.flatMap f)[k]? = some s → vs[k]? = if s ∈ (xs.flatMap f).take k then some none else load m s) ∧
      ∀ s, load m' s = if s ∈ xs.flatMap f then some none else load m s := by
  have : (a.rvalue && !false) = true := by cases a <;> simp_all [Arg.rvalue]
  rw [concatenateRange_eq, this]
  exact insertRange_move _ m h

theorem whole_exist (m : Mem P) (c : Nat) : Exist m (whole m c) := by
  intro s hs
  simp only [whole, List.mem_map, List.mem_range] at hs
  obtain ⟨i, hi, rfl⟩ := hs
  exact ⟨(m c)[i], by simp [load, hi]⟩

theorem whole_load (m : Mem P) (c : Nat) : (whole m c).map (load m) = (m c).map some := by
  apply List.ext_getElem?
  intro i
  simp only [whole, List.map_map, List.getElem?_map, Function.comp_def, load]
  by_cases hi : i < (m c).length
  · simp [hi]
  · simp [hi]

theorem mem_whole (m : Mem P) (c : Nat) (s : Slot) : s ∈ whole m c ↔ s.1 = c ∧ s.2 < (m c).length := by
  obtain ⟨d, i⟩ := s
  simp only [whole, List.mem_map, List.mem_range, Prod.mk.injEq]
  constructor
  · rintro ⟨j, hj, rfl, rfl⟩; exact ⟨rfl, hj⟩
  · rintro ⟨rfl, hi⟩; exact ⟨i, hi, rfl, rfl⟩

theorem points_exist (m : Mem P) (h : LS) : Exist m (points m h) := by
  intro s hs
  refine whole_exist m h.data s ?_
  simp only [points] at hs
  split at hs
  · simpa using hs
  · exact hs

theorem points_load (m : Mem P) (h : LS) : (points m h).map (load m) = (shows m h).map some := by
  simp only [points, shows]
  split
  · simp only [List.map_reverse, whole_load]
  · exact whole_load m _

theorem exist_flatMap {f : A → List Slot} {m : Mem P} (xs : List A) (h : ∀ x, Exist m (f x)) : Exist m (xs.flatMap f) := by
  intro s hs
  obtain ⟨x, _, hx⟩ := List.mem_flatMap.1 hs
  exact h x s hx

theorem map_some_inj {l r : List A} (h : l.map some = r.map some) : l = r :=
  (List.map_injective_iff.2 fun _ _ h => Option.some.inj h) h

/-- C98. Creating a map from linestrings or polygons (a named container: the parameter of createMap) collects the points of all of them in
their order, and leaves the linestrings as they are. -/
theorem createMap_points (hs : List LS) (m : Mem P) :
    concatenateRange .named false (points m) hs m = some (hs.flatMap (shows m), m) := by
  obtain ⟨vs, h1, h2⟩ := concatenateRange_copies .named false (points m) hs m (exist_flatMap hs (points_exist m)) (.inl rfl)
  rw [h1]
  have : (hs.flatMap (points m)).map (load m) = (hs.flatMap (shows m)).map some := by
    simp only [List.map_flatMap, points_load]
  simp only [Holds] at h2
  rw [map_some_inj (h2.symm.trans this)]

/-- C98. concatenate of containers gives their elements one after the other. Named containers and those in braces are not changed, moved
ones hold null handles afterwards. -/
theorem concatenate_spec (a : Arg) (cs : List Nat) (m : Mem P) (hnd : cs.Nodup) :
    ∃ m', concatenate a cs m = some (cs.flatMap m, m') ∧
      ∀ c, m' c = if a = .temporary ∧ c ∈ cs then (m c).map fun _ => none else m c := by
  have hex : Exist m (cs.flatMap (whole m)) := exist_flatMap cs (whole_exist m)
  have hload : (cs.flatMap (whole m)).map (load m) = (cs.flatMap m).map some := by
    simp only [List.map_flatMap, whole_load]
  by_cases ha : a = .temporary
  · subst ha
    obtain ⟨vs, m', h1, h2, h3, h4⟩ := concatenateRange_moves .temporary (whole m) cs m hex (by decide)
    have hn : (cs.flatMap (whole m)).Nodup := by
      rw [List.nodup_flatMap]
      constructor
      · intro c _
        exact List.nodup_range.map fun i j hij => (Prod.mk.injEq .. ▸ hij).2
      · refine hnd.imp ?_
        intro c d hcd s h5 h6
        exact hcd (((mem_whole m c s).1 h5).1.symm.trans ((mem_whole m d s).1 h6).1)
    have hvs : vs = cs.flatMap m := by
      apply map_some_inj
      rw [← hload]
      apply List.ext_getElem?
      intro k
      simp only [List.getElem?_map]
      cases hk : (cs.flatMap (whole m))[k]? with
      | none =>
        have : vs[k]? = none := by
          rw [List.getElem?_eq_none_iff] at hk ⊢; omega
        simp [this]
      | some s =>
        have hk' := h3 k s hk
        obtain ⟨hkl, hke⟩ := List.getElem?_eq_some_iff.1 hk
        rw [if_neg] at hk'
        · rw [hk']
          obtain ⟨v, hv⟩ := hex s (hke ▸ List.getElem_mem hkl)
          simp [hv]
        · intro hmem
          obtain ⟨j, hj, hje⟩ := List.mem_iff_getElem.1 hmem
          simp only [List.length_take] at hj
          rw [List.getElem_take] at hje
          have := (List.Nodup.getElem_inj_iff hn).1 (hje.trans hke.symm)
          omega
    refine ⟨m', by rw [← hvs]; exact h1, ?_⟩
    intro c
    apply List.ext_getElem?
    intro i
    have h5 := h4 (c, i)
    simp only [load] at h5
    rw [h5]
    simp only [List.mem_flatMap, mem_whole, true_and]
    by_cases hc : c ∈ cs
    · simp only [hc, if_true, List.getElem?_map]
      by_cases hi : i < (m c).length
      · rw [if_pos ⟨c, hc, rfl, hi⟩]; simp [hi]
      · rw [if_neg (by rintro ⟨d, _, rfl, h⟩; exact hi h)]
        simp [List.getElem?_eq_none (Nat.le_of_not_lt hi)]
    · rw [if_neg (by rintro ⟨d, hd, rfl, _⟩; exact hc hd), if_neg hc]
  · have : a = .named ∨ (a == .braces) = true := by cases a <;> simp_all
    obtain ⟨vs, h1, h2⟩ := concatenateRange_copies a (a == .braces) (whole m) cs m hex this
    refine ⟨m, ?_, fun c => by rw [if_neg (fun h => ha h.1)]⟩
    rw [concatenate, h1]
    simp only [Holds] at h2
    rw [map_some_inj (h2.symm.trans hload)]

/-- C98. concatenate with a function that returns containers gives their elements one after the other, and leaves everything as it was. -/
theorem concatenateWith_spec (t : Nat) (f : A → Mem P → List (Option P)) (xs : List A) (m : Mem P) :
    concatenateWith t f xs m = some (xs.flatMap (f · m), m) := by
  induction xs with
  | nil => rfl
  | cons x xs ih =>
    simp only [concatenateWith]
    have h := concatenate_spec .temporary [t] (fun c => if c = t then f x m else m c) (by simp)
    obtain ⟨m', h1, h2⟩ := h
    simp only [concatenate, concatenateRange_eq, List.flatMap_cons, List.flatMap_nil, List.append_nil, Arg.rvalue, if_true,
      show (Arg.temporary == Arg.braces) = false from rfl, Bool.not_false, Bool.and_true] at h1
    rw [h1]
    have : (fun c => if c = t then m t else m' c) = m := by
      funext c
      by_cases hc : c = t
      · simp [hc]
      · rw [if_neg hc, h2]
        simp [hc]
    simp only
    rw [this, ih]
    rfl

/-! ### The other helpers -/

/-- C98. transform applies the function to every element, in order. -/
theorem transform_spec {B : Type} (f : A → B) (l : List A) (i : Nat) : (transform f l)[i]? = (l[i]?).map f := by
  induction l generalizing i with
  | nil => simp [transform]
  | cons x l ih => cases i with
    | zero => simp [transform]
    | succ i => simpa [transform] using ih i

/-- C98. findIf gives the first element with the property, and nothing exactly if there is none. -/
theorem findIf_spec (p : A → Bool) (l : List A) :
    (∀ x, findIf p l = some x ↔ ∃ l1 l2, l = l1 ++ x :: l2 ∧ p x = true ∧ ∀ y ∈ l1, p y = false) ∧
    (findIf p l = none ↔ ∀ x ∈ l, p x = false) := by
  induction l with
  | nil => simp [findIf]
  | cons a l ih =>
    by_cases ha : p a = true
    · constructor
      · intro x
        simp only [findIf, ha, if_true, Option.some.injEq]
        constructor
        · rintro rfl; exact ⟨[], l, rfl, ha, by simp⟩
        · rintro ⟨l1, l2, h1, h2, h3⟩
          cases l1 with
          | nil => simp only [List.nil_append, List.cons.injEq] at h1; exact h1.1
          | cons b l1 =>
            simp only [List.cons_append, List.cons.injEq] at h1
            have := h3 b (by simp)
            rw [← h1.1, ha] at this; cases this
      · simp [findIf, ha]
    · have ha' : p a = false := by simpa using ha
      constructor
      · intro x
        simp only [findIf, ha', Bool.false_eq_true, if_false, ih.1]
        constructor
        · rintro ⟨l1, l2, rfl, h2, h3⟩
          exact ⟨a :: l1, l2, rfl, h2, by simpa [ha'] using h3⟩
        · rintro ⟨l1, l2, h1, h2, h3⟩
          cases l1 with
          | nil =>
            simp only [List.nil_append, List.cons.injEq] at h1
            rw [h1.1, h2] at ha'; cases ha'
          | cons b l1 =>
            simp only [List.cons_append, List.cons.injEq] at h1
            exact ⟨l1, l2, h1.2, h2, fun y hy => h3 y (by simp [hy])⟩
      · simp [findIf, ha', ih.2]

/-- C98. find and contains find exactly the elements of the container. -/
theorem find_contains [BEq A] [LawfulBEq A] (l : List A) (v : A) :
    (contains l v = true ↔ v ∈ l) ∧ (v ∈ l → find l v = some v) ∧ (v ∉ l → find l v = none) := by
  have h := findIf_spec (· == v) l
  have h1 : v ∈ l → find l v = some v := by
    intro hv
    cases hf : find l v with
    | none =>
      have := h.2.1 hf v hv
      simp at this
    | some x =>
      obtain ⟨_, _, _, h2, _⟩ := (h.1 x).1 hf
      rw [eq_of_beq h2]
  have h2 : v ∉ l → find l v = none := by
    intro hv
    refine h.2.2 fun x hx => ?_
    simp only [beq_eq_false_iff_ne]
    rintro rfl; exact hv hx
  refine ⟨?_, h1, h2⟩
  by_cases hv : v ∈ l
  · have := h1 hv
    simp only [find] at this
    simp [contains, this, hv]
  · have := h2 hv
    simp only [find] at this
    simp [contains, this, hv]

theorem invert_foldl (l out : List A) : l.foldl (fun out x => x :: out) out = l.reverse ++ out := by
  induction l generalizing out with
  | nil => rfl
  | cons x l ih => simp [ih]

/-- C98. invert reverses: the element at position i from the front is at position i from the back, and inverting twice gives the container
back. -/
theorem invert_spec (l : List A) : (∀ i, i < l.length → (invert l)[i]? = l[l.length - 1 - i]?) ∧ invert (invert l) = l := by
  have h : ∀ l : List A, invert l = l.reverse := fun l => by rw [invert, invert_foldl, List.append_nil]
  refine ⟨fun i hi => by rw [h, List.getElem?_reverse hi], by rw [h, h, List.reverse_reverse]⟩

theorem sum_foldl (f : A → Int) (l : List A) (v : Int) : l.foldl (fun v x => v + f x) v = v + sum f l := by
  induction l generalizing v with
  | nil => simp [sum]
  | cons x l ih =>
    simp only [sum, List.foldl_cons] at ih ⊢
    rw [ih, ih (0 + f x)]; omega

/-- C98. sum adds the values of all elements, each once. -/
theorem sum_spec (f : A → Int) (l : List A) : sum f l = (l.map f).sum := by
  induction l with
  | nil => rfl
  | cons x l ih =>
    simp only [sum, List.foldl_cons, List.map_cons, List.sum_cons]
    rw [sum_foldl, ih]; omega

/-- C98. orderedPair does not depend on the order of its arguments, if their ids differ, and the first one has the smaller id. -/
theorem orderedPair_spec (id : A → Int) (a b : A) (h : id a ≠ id b) :
    orderedPair id a b = orderedPair id b a ∧ id (orderedPair id a b).1 < id (orderedPair id a b).2 ∧
      (orderedPair id a b = (a, b) ∨ orderedPair id a b = (b, a)) := by
  unfold orderedPair
  by_cases h1 : id a < id b
  · have h2 : ¬ id b < id a := by omega
    simp [h1, h2]
  · have h2 : id b < id a := by omega
    simp [h1, h2]

/-- C98. strequal of two strings that end with a zero: exactly if they are the same. -/
theorem strequal_spec (l r l' r' : List UInt8) (hl : 0 ∉ l) (hr : 0 ∉ r) :
    strequal (l ++ 0 :: l') (r ++ 0 :: r') = some (decide (l = r)) := by
  induction l generalizing r with
  | nil => cases r with
    | nil => simp [strequal]
    | cons b r =>
      have : b ≠ 0 := fun h => hr (by simp [h])
      simp [strequal, this]
  | cons a l ih =>
    have ha : a ≠ 0 := fun h => hl (by simp [h])
    cases r with
    | nil => simp [strequal, ha]
    | cons b r =>
      have hb : b ≠ 0 := fun h => hr (by simp [h])
      simp only [List.cons_append, strequal, ha, hb, ne_eq, not_false_eq_true, and_self, if_true]
      by_cases hab : a = b
      · subst hab
        simp only [not_true_eq_false, if_false]
        rw [ih r (fun h => hl (by simp [h])) (fun h => hr (by simp [h]))]
        simp
      · simp [hab]

/-! ### Where the code is wrong -/

/-- C98, disagreement. concatenateRange of a list of linestrings that is a temporary (for example what findUsages returns) or written in
braces, with the function that createMap uses, moves the points out of the linestrings: they are still as long as before, but all their
points are null. Linestrings are handles, so that this changes the map. -/
theorem concatenateRange_counterexample (a : Arg) (ha : a ≠ .named) (hs : List LS) (m : Mem P) :
    ∃ vs m', concatenateRange a false (points m) hs m = some (vs, m') ∧ ∀ h ∈ hs, shows m' h = (shows m h).map fun _ => none := by
  obtain ⟨vs, m', h1, _, _, h4⟩ := concatenateRange_moves a (points m) hs m (exist_flatMap hs (points_exist m)) ha
  refine ⟨vs, m', h1, ?_⟩
  intro h hh
  have hm : m' h.data = (m h.data).map fun _ => none := by
    apply List.ext_getElem?
    intro i
    have h5 := h4 (h.data, i)
    simp only [load] at h5
    rw [h5]
    by_cases hi : i < (m h.data).length
    · rw [if_pos]
      · simp [hi]
      · refine List.mem_flatMap.2 ⟨h, hh, ?_⟩
        have : (h.data, i) ∈ whole m h.data := (mem_whole m h.data _).2 ⟨rfl, hi⟩
        simp only [points]
        split
        · simpa using this
        · exact this
    · rw [if_neg]
      · rw [List.getElem?_map, List.getElem?_eq_none (Nat.le_of_not_lt hi)]; rfl
      · intro hmem
        obtain ⟨g, _, hg⟩ := List.mem_flatMap.1 hmem
        have : (h.data, i) ∈ whole m g.data := by
          simp only [points] at hg
          split at hg
          · simpa using hg
          · exact hg
        obtain ⟨e1, e2⟩ := (mem_whole m g.data _).1 this
        simp only at e1 e2
        rw [← e1] at e2
        exact hi e2
  simp only [shows, hm]
  split <;> simp

/-- C98, disagreement. A linestring that occurs twice in a temporary list contributes its points once and null points the second time. -/
theorem concatenateRange_twice_counterexample (h : LS) (m : Mem P) :
    ∃ m', concatenateRange .temporary false (points m) [h, h] m = some (shows m h ++ (shows m h).map fun _ => none, m') := by
  obtain ⟨vs, m', h1, h2, h3, _⟩ := concatenateRange_moves .temporary (points m) [h, h] m (exist_flatMap _ (points_exist m)) (by decide)
  refine ⟨m', ?_⟩
  rw [h1]
  have hfm : [h, h].flatMap (points m) = points m h ++ points m h := by simp
  have hlen : (points m h).length = (shows m h).length := by
    have := congrArg List.length (points_load m h)
    simpa using this
  have hnd : (points m h).Nodup := by
    have : (whole m h.data).Nodup := List.nodup_range.map fun i j hij => (Prod.mk.injEq .. ▸ hij).2
    simp only [points]
    split
    · exact List.nodup_reverse.2 this
    · exact this
  rw [hfm] at h2 h3
  have : vs = shows m h ++ (shows m h).map fun _ => none := by
    apply List.ext_getElem?
    intro k
    by_cases hk : k < (points m h).length
    · have hk' : (points m h ++ points m h)[k]? = some (points m h)[k] := by
        rw [List.getElem?_append_left hk, List.getElem?_eq_getElem hk]
      rw [h3 k _ hk', List.take_append_of_le_length (Nat.le_of_lt hk), if_neg]
      · rw [List.getElem?_append_left (by omega)]
        have := congrArg (·[k]?) (points_load m h)
        simp only [List.getElem?_map, List.getElem?_eq_getElem hk, Option.map_some] at this
        have hk2 : k < (shows m h).length := by omega
        simp only [List.getElem?_eq_getElem hk2, Option.map_some, Option.some.injEq] at this ⊢
        exact this
      · intro hmem
        obtain ⟨j, hj, hje⟩ := List.mem_iff_getElem.1 hmem
        simp only [List.length_take] at hj
        rw [List.getElem_take] at hje
        have := (List.Nodup.getElem_inj_iff hnd).1 hje
        omega
    · rw [List.getElem?_append_right (by omega)]
      by_cases hk2 : k < 2 * (points m h).length
      · have hk3 : k - (points m h).length < (points m h).length := by omega
        have hk' : (points m h ++ points m h)[k]? = some (points m h)[k - (points m h).length] := by
          rw [List.getElem?_append_right (by omega), List.getElem?_eq_getElem hk3]
        rw [h3 k _ hk', if_pos]
        · rw [List.getElem?_map, List.getElem?_eq_getElem (by omega)]; rfl
        · rw [List.take_append]
          refine List.mem_append_left _ ?_
          rw [List.take_of_length_le (by omega)]
          exact List.getElem_mem hk3
      · rw [List.getElem?_eq_none (by rw [h2, List.length_append]; omega), List.getElem?_eq_none (by rw [List.length_map]; omega)]
  rw [this]

/-! ### Examples -/

/-- Example. Two linestrings with the points 1, 2, 3 and 4, 5. -/
def exMem : Mem Nat := fun c => if c = 0 then [some 1, some 2, some 3] else if c = 1 then [some 4, some 5] else []

example : (concatenateRange .named false (points exMem) [⟨0, true⟩, ⟨1, false⟩, ⟨0, false⟩] exMem).map (·.1) =
    some [some 3, some 2, some 1, some 4, some 5, some 1, some 2, some 3] := by decide

example : (concatenateRange .temporary false (points exMem) [⟨0, true⟩, ⟨1, false⟩] exMem).map (fun r => (r.1, r.2 0)) =
    some ([some 3, some 2, some 1, some 4, some 5], [none, none, none]) := by decide

example : Exist exMem ([⟨0, true⟩, ⟨1, false⟩].flatMap (points exMem)) := exist_flatMap _ (points_exist exMem)

example : (concatenate .temporary [1, 0] exMem).map (fun r => (r.1, r.2 1)) =
    some ([some 4, some 5, some 1, some 2, some 3], [none, none]) := by decide

example : strequal [104, 105, 0, 7] [104, 105, 0] = some true := strequal_spec [104, 105] [104, 105] [7] [] (by decide) (by decide)

end Verif.Util.Concat
