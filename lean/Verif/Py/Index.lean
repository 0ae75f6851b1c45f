import Verif.LineStr.Props
import Verif.Lanelet.Cache

/-!
Model of the list protocol of the Python bindings: lanelet2_python/include/lanelet2_python/internal/converter.h (wrappers 11-50) and the
classes that use it in lanelet2_python/python_api/core.cpp (IsConstLineString 332-357, IsLineString 359-379, InnerBounds 1132-1141,
Area 1171-1202).

A linestring is a handle of `Verif.LineStr`. Python's own `int` is unbounded, the wrappers take `int64_t`.
-/
namespace Verif.Py
open Verif.LineStr

variable {P : Type}

/-- The exceptions that a script sees, and undefined behaviour of the C++ code below; converter.h 18-19, 32-33, 45-46 -/
inductive PyErr where
  | index
  | overflow
  | undefined
  deriving DecidableEq

/-- The conversion of a Python int to the parameter `int64_t index` of the wrappers; converter.h 11, 24, 37. Boost.Python raises
OverflowError if the number does not fit. -/
def toInt64 (i : Int) : Except PyErr Int := if -2 ^ 63 ≤ i ∧ i < 2 ^ 63 then .ok i else .error .overflow

/-- Storing a number in an int64_t: two's complement; converter.h 13, 26, 39 (the sum is computed in size_t). -/
def wrap64 (x : Int) : Int := (x + 2 ^ 63) % 2 ^ 64 - 2 ^ 63

/-- The first lines of getItem, setItem and delItem: the position in the container, or nothing if it is out of range; converter.h 12-15,
25-28, 38-41 -/
def position (size : Nat) (index : Int) : Option Nat :=
  let index := if index < 0 then wrap64 (index + size) else index
  if 0 ≤ index ∧ index.toNat < size then some index.toNat else none

/-- wrappers::getItem, converter.h 10-21 -/
def getItem (s : Store P) (h : LS) (index : Int) : Except PyErr P := do
  let index ← toInt64 index
  match position (size s h) index with
  | some i => match get s h i with
    | some x => .ok x
    | none => .error .undefined
  | none => .error .index

/-- wrappers::setItem, converter.h 23-34 -/
def setItem (s : Store P) (h : LS) (index : Int) (x : P) : Except PyErr (Store P) := do
  let index ← toInt64 index
  match position (size s h) index with
  | some i => match set s h i x with
    | some s' => .ok s'
    | none => .error .undefined
  | none => .error .index

/-- wrappers::delItem, converter.h 36-47: `erase(std::next(begin(), index))` -/
def delItem (s : Store P) (h : LS) (index : Int) : Except PyErr (Store P) := do
  let index ← toInt64 index
  match position (size s h) index with
  | some i => match (advance s h (begin s h) i).bind (erase s h) with
    | some r => .ok r.1
    | none => .error .undefined
  | none => .error .index

/-- What a script does to a linestring or polygon: `ls[i]`, `ls[i] = x`, `del ls[i]`, `ls.append(x)`, `len(ls)`, `list(ls)`; core.cpp
361-380 -/
inductive Cmd (P : Type) where
  | get (i : Int)
  | set (i : Int) (x : P)
  | del (i : Int)
  | append (x : P)
  | len
  | iter

/-- What a script gets: a point, a number, a list, None or an exception; core.cpp 361-380 -/
inductive Out (P : Type) where
  | point (x : P)
  | num (n : Nat)
  | list (l : List P)
  | nothing
  | raises (e : PyErr)

/-- One statement, applied to the handle; core.cpp 361-380 (`__getitem__`, `__setitem__`, `__delitem__`, `append`, `__len__`,
`__iter__`) -/
def step (s : Store P) (h : LS) : Cmd P → Out P × Store P
  | .get i => match getItem s h i with
    | .ok x => (.point x, s)
    | .error e => (.raises e, s)
  | .set i x => match setItem s h i x with
    | .ok s' => (.nothing, s')
    | .error e => (.raises e, s)
  | .del i => match delItem s h i with
    | .ok s' => (.nothing, s')
    | .error e => (.raises e, s)
  | .append x => (.nothing, pushBack s h x)
  | .len => (.num (size s h), s)
  | .iter => (.list (iterate s h), s)

/-- A script that works on a linestring through the handle and through `invert()` of it; every statement says which; core.cpp 361-380,
859 -/
def run (h : LS) : List (Bool × Cmd P) → Store P → List (Out P) × Store P
  | [], s => ([], s)
  | c :: cs, s =>
    let r := step s (if c.1 then invert h else h) c.2
    let rest := run h cs r.2
    (r.1 :: rest.1, rest.2)

/-! ### Specification: a Python list -/

/-- Specification: the item of a Python list that an index means, `l[-1]` being the last one. -/
def item (n : Nat) (i : Int) : Option Nat := if -(n : Int) ≤ i ∧ i < n then some (i % n).toNat else none

/-- Specification: a statement applied to a Python list. -/
def onList (l : List P) : Cmd P → Out P × List P
  | .get i => match (item l.length i).bind (l[·]?) with
    | some x => (.point x, l)
    | none => (.raises .index, l)
  | .set i x => match item l.length i with
    | some k => (.nothing, l.set k x)
    | none => (.raises .index, l)
  | .del i => match item l.length i with
    | some k => (.nothing, l.eraseIdx k)
    | none => (.raises .index, l)
  | .append x => (.nothing, l ++ [x])
  | .len => (.num l.length, l)
  | .iter => (.list l, l)

/-- Specification: a script applied to a Python list; statements marked with `true` see and change the list from behind. -/
def runList : List (Bool × Cmd P) → List P → List (Out P) × List P
  | [], l => ([], l)
  | c :: cs, l =>
    let r := onList (if c.1 then l.reverse else l) c.2
    let rest := runList cs (if c.1 then r.2.reverse else r.2)
    (r.1 :: rest.1, rest.2)

/-- Specification: the index of a statement fits in 64 bits. -/
def Fits : Cmd P → Prop
  | .get i => -2 ^ 63 ≤ i ∧ i < 2 ^ 63
  | .set i _ => -2 ^ 63 ≤ i ∧ i < 2 ^ 63
  | .del i => -2 ^ 63 ≤ i ∧ i < 2 ^ 63
  | _ => True

/-! ### Proofs -/

theorem item_lt {n : Nat} {i : Int} {k : Nat} (h : item n i = some k) : k < n := by
  unfold item at h
  split at h
  · rename_i hr
    have hn : (0 : Int) < n := by omega
    have h1 := Int.emod_nonneg i (show (n : Int) ≠ 0 by omega)
    have h2 := Int.emod_lt_of_pos i hn
    simp only [Option.some.injEq] at h
    omega
  · simp at h

/-- The arithmetic of the wrappers finds the item that Python means. -/
theorem position_eq {n : Nat} {i : Int} (hn : n < 2 ^ 63) (hi : -2 ^ 63 ≤ i ∧ i < 2 ^ 63) : position n i = item n i := by
  unfold position item
  by_cases h0 : i < 0
  · have hw : wrap64 (i + n) = i + n := by
      unfold wrap64
      rw [Int.emod_eq_of_lt (by omega) (by omega)]
      omega
    simp only [h0, if_true, hw]
    by_cases h1 : -(n : Int) ≤ i
    · rw [if_pos ⟨by omega, by omega⟩, if_pos ⟨h1, by omega⟩, ← Int.add_emod_right, Int.emod_eq_of_lt (by omega) (by omega)]
    · rw [if_neg (by omega), if_neg (by omega)]
  · simp only [h0, if_false]
    by_cases h1 : i < n
    · rw [if_pos ⟨by omega, by omega⟩, if_pos ⟨by omega, h1⟩, Int.emod_eq_of_lt (by omega) (by omega)]
    · rw [if_neg (by omega), if_neg (by omega)]

theorem toInt64_ok {i : Int} (hi : -2 ^ 63 ≤ i ∧ i < 2 ^ 63) : toInt64 i = .ok i := by
  unfold toInt64
  rw [if_pos hi]

/-- One statement: what it returns and what the linestring looks like afterwards, seen from both directions, is what a list does; all
other linestrings stay as they are. -/
theorem step_spec (s : Store P) (h : LS) (c : Cmd P) (hc : Fits c) (hn : (view s h).length < 2 ^ 63) :
    (step s h c).1 = (onList (view s h) c).1 ∧ Shows s (step s h c).2 h (onList (view s h) c).2 := by
  have hsize : size s h = (view s h).length := (read_spec s h).2.1
  have keep : Shows s s h (view s h) := ⟨rfl, (invert_spec s h).1, fun _ _ => rfl⟩
  cases c with
  | get i =>
    simp only [step, getItem, toInt64_ok hc, bind, Except.bind, hsize, position_eq hn hc, onList]
    cases hk : item (view s h).length i with
    | none => exact ⟨rfl, keep⟩
    | some k =>
      have hlt := item_lt hk
      simp only [(read_spec s h).2.2.2.1 k, Option.bind_some, List.getElem?_eq_getElem hlt]
      exact ⟨trivial, keep⟩
  | set i x =>
    simp only [step, setItem, toInt64_ok hc, bind, Except.bind, hsize, position_eq hn hc, onList]
    cases hk : item (view s h).length i with
    | none => exact ⟨rfl, keep⟩
    | some k =>
      obtain ⟨s', h1, h2⟩ := set_spec s h k x (item_lt hk)
      simp only [h1]
      exact ⟨trivial, h2⟩
  | del i =>
    simp only [step, delItem, toInt64_ok hc, bind, Except.bind, hsize, position_eq hn hc, onList]
    cases hk : item (view s h).length i with
    | none => exact ⟨rfl, keep⟩
    | some k =>
      have hlt := item_lt hk
      have hadv := advance_begin s h k (by rw [← length_view]; omega)
      obtain ⟨s', it', h1, h2, -⟩ := erase_spec s h _ k ((at_iff s h _ k).mpr ⟨by rw [← length_view]; omega, rfl⟩) hlt
      simp only [hadv, Option.bind_some, h1]
      refine ⟨trivial, ?_⟩
      rw [List.eraseIdx_eq_take_drop_succ]
      exact h2
  | append x => exact ⟨rfl, pushBack_spec s h x⟩
  | len => exact ⟨by simp only [step, onList, hsize], keep⟩
  | iter => exact ⟨by simp only [step, onList, (read_spec s h).1], keep⟩

theorem onList_length (l : List P) (c : Cmd P) : (onList l c).2.length ≤ l.length + 1 := by
  cases c with
  | get i => simp only [onList]; split <;> simp
  | set i x => simp only [onList]; split <;> simp
  | del i => simp only [onList]; split <;> simp [List.length_eraseIdx]; split <;> omega
  | append x => simp [onList]
  | len => simp [onList]
  | iter => simp [onList]

/-- **C78.** A script that indexes, assigns, deletes, appends, counts and iterates, on a linestring and on its inverted view in any
order, gets exactly the results it would get from a Python list (and from the same list read from behind), exceptions included, and
leaves exactly the points that the list would have. All other linestrings keep their points. -/
theorem list_like (h : LS) (cs : List (Bool × Cmd P)) (s : Store P) (hc : ∀ c ∈ cs, Fits c.2)
    (hn : (view s h).length + cs.length < 2 ^ 63) :
    (run h cs s).1 = (runList cs (view s h)).1 ∧ view (run h cs s).2 h = (runList cs (view s h)).2 ∧
    ∀ d, d ≠ h.data → (run h cs s).2 d = s d := by
  induction cs generalizing s with
  | nil => exact ⟨rfl, rfl, fun _ _ => rfl⟩
  | cons c cs ih =>
    obtain ⟨b, c⟩ := c
    have hf := hc (b, c) (by simp)
    simp only [List.length_cons] at hn
    cases b with
    | false =>
      obtain ⟨h1, h2, h3, h4⟩ := step_spec s h c hf (by omega)
      have hl := onList_length (view s h) c
      have := ih (step s h c).2 (fun c hc' => hc c (List.mem_cons_of_mem _ hc')) (by rw [h2]; omega)
      simp only [run, runList, Bool.false_eq_true, if_false]
      rw [← h2, h1]
      exact ⟨by rw [this.1], this.2.1, fun d hd => by rw [this.2.2 d hd, h4 d hd]⟩
    | true =>
      have hlen : (view s (invert h)).length = (view s h).length := by rw [(invert_spec s h).1, List.length_reverse]
      obtain ⟨h1, h2, h3, h4⟩ := step_spec s (invert h) c hf (by omega)
      rw [(invert_spec s h).2.1] at h3
      rw [(invert_spec s h).1] at h1 h2 h3
      have hl := onList_length (view s h).reverse c
      rw [List.length_reverse] at hl
      have := ih (step s (invert h) c).2 (fun c hc' => hc c (List.mem_cons_of_mem _ hc')) (by rw [h3, List.length_reverse]; omega)
      simp only [run, runList, if_true]
      rw [← h3, h1]
      exact ⟨by rw [this.1], this.2.1, fun d hd => by rw [this.2.2 d hd, h4 d hd]⟩

/-- An index that does not fit in 64 bits raises OverflowError (a list raises IndexError) and changes nothing. -/
theorem huge_index (s : Store P) (h : LS) (i : Int) (x : P) (hi : ¬ (-2 ^ 63 ≤ i ∧ i < 2 ^ 63)) :
    step s h (.get i) = (.raises .overflow, s) ∧ step s h (.set i x) = (.raises .overflow, s) ∧
    step s h (.del i) = (.raises .overflow, s) := by
  have : toInt64 i = .error .overflow := by unfold toInt64; rw [if_neg hi]
  simp [step, getItem, setItem, delItem, this, bind, Except.bind]

/-- Case: `ls[-1]`, `del inv[0]`, `inv.append(9)`, `ls[0] = 8`, `ls[3]`, `list(ls)`, `list(inv)`. -/
example :
    (run (P := Nat) ⟨0, false⟩ [(false, .get (-1)), (true, .del 0), (true, .append 9), (false, .set 0 8), (false, .get 3),
      (false, .iter), (true, .iter)] (fun _ => [1, 2, 3])).1 =
      [.point 3, .nothing, .nothing, .nothing, .raises .index, .list [8, 1, 2], .list [2, 1, 8]] := by
  rfl

/-! ### Areas -/

section Areas
open Verif.Lanelet

/-- What a script does to the holes of an area: `a.innerBounds[i]`, `a.innerBounds[i] = x`, `del a.innerBounds[i]`,
`a.innerBounds.append(x)`, `len`, iteration; core.cpp 1132-1141, 1181-1186. The list-like object is the vector of the area itself
(`const_cast`). -/
def holes (w : World P) (a : Nat) (c : Cmd (List LS)) : Out (List LS) × World P :=
  let r := step (fun _ => (w.ars a).inner) ⟨0, false⟩ c
  (r.1, w.setAr a { w.ars a with inner := r.2 0 })

/-- Several statements; core.cpp 1132-1141 -/
def runHoles (w : World P) (a : Nat) : List (Cmd (List LS)) → List (Out (List LS)) × World P
  | [] => ([], w)
  | c :: cs =>
    let r := holes w a c
    let rest := runHoles r.2 a cs
    (r.1 :: rest.1, rest.2)

/-- `a.innerBounds = holes`; core.cpp 1187 -/
def assignHoles (w : World P) (a : Nat) (l : List (List LS)) : World P := setInner w a l

/-- `a.innerBounds`, read; core.cpp 1181-1186 -/
def readHoles (w : World P) (a : Nat) : List (List LS) := (w.ars a).inner

/-- `a.innerBoundPolygons()`: the linestrings of the polygons; core.cpp 1198 -/
def holePolygons (w : World P) (a : Nat) : List (List LS) := (w.ars a).innerPolys

/-- **C79, the part that holds.** The holes of an area behave like a Python list, whatever is done to them, and changes arrive in the
area (not in a copy); the outer bound, all other areas and everything else stay. Assigning the holes as a whole also renews the polygons
of the area. -/
theorem holes_list_like_partial (w : World P) (a : Nat) (cs : List (Cmd (List LS))) (hc : ∀ c ∈ cs, Fits c)
    (hn : (readHoles w a).length + cs.length < 2 ^ 63) :
    let r := runHoles w a cs
    r.1 = (runList (cs.map (false, ·)) (readHoles w a)).1 ∧ readHoles r.2 a = (runList (cs.map (false, ·)) (readHoles w a)).2 ∧
    (r.2.ars a).outer = (w.ars a).outer ∧ (∀ a', a' ≠ a → r.2.ars a' = w.ars a') ∧ r.2.lls = w.lls ∧ r.2.pts = w.pts ∧
    ∀ l, readHoles (assignHoles r.2 a l) a = l ∧ holePolygons (assignHoles r.2 a l) a = l := by
  induction cs generalizing w with
  | nil =>
    refine ⟨rfl, rfl, rfl, fun _ _ => rfl, rfl, rfl, fun l => ?_⟩
    simp [assignHoles, readHoles, holePolygons, setInner, World.setAr, resetCacheA, runHoles]
  | cons c cs ih =>
    simp only [List.length_cons] at hn
    obtain ⟨h1, h2, -, -⟩ := step_spec (fun _ => (w.ars a).inner) ⟨0, false⟩ c (hc c (by simp)) (by
      simp only [view, Bool.false_eq_true, if_false]; unfold readHoles at hn; omega)
    have hv : view (fun _ => (w.ars a).inner) ⟨0, false⟩ = readHoles w a := rfl
    rw [hv] at h1 h2
    have hr : readHoles (holes w a c).2 a = (onList (readHoles w a) c).2 := by
      rw [← h2]; simp [readHoles, holes, World.setAr, view]
    have hl := onList_length (readHoles w a) c
    obtain ⟨i1, i2, i3, i4, i5, i6, i7⟩ := ih (holes w a c).2 (fun c h => hc c (List.mem_cons_of_mem _ h)) (by rw [hr]; omega)
    simp only [runHoles, runList, List.map_cons, Bool.false_eq_true, if_false]
    rw [hr] at i1 i2
    refine ⟨by rw [i1]; congr 1, i2, ?_, ?_, by rw [i5]; rfl, by rw [i6]; rfl, i7⟩
    · rw [i3]; simp [holes, World.setAr]
    · intro a' ha
      rw [i4 a' ha]; simp [holes, World.setAr, ha]

/-- Disagreement: after `area.innerBounds.append(hole)` the hole is among the inner bounds, but not among the polygons of the area
(`innerBoundPolygons()`), which is what all geometric functions use: the bindings change the vector without telling the area. -/
theorem holes_append_counterexample (w : World P) (a : Nat) (hole : List LS) (hf : (w.ars a).innerPolys = (w.ars a).inner) :
    readHoles (holes w a (.append hole)).2 a = readHoles w a ++ [hole] ∧
    holePolygons (holes w a (.append hole)).2 a = readHoles w a ∧
    holePolygons (holes w a (.append hole)).2 a ≠ readHoles (holes w a (.append hole)).2 a := by
  have h1 : readHoles (holes w a (.append hole)).2 a = readHoles w a ++ [hole] := by
    simp [readHoles, holes, step, pushBack, Store.put, World.setAr]
  have h2 : holePolygons (holes w a (.append hole)).2 a = readHoles w a := by
    simp [holePolygons, readHoles, holes, World.setAr, hf]
  refine ⟨h1, h2, ?_⟩
  rw [h1, h2]
  intro e
  have := congrArg List.length e
  simp at this

/-- Case: an area with one hole; a second hole is appended, the first one deleted, then the holes are assigned. -/
example :
    let w : World Nat := ⟨fun _ => [], fun _ => 1, fun _ => ⟨⟨1, false⟩, ⟨2, false⟩, [], none⟩, fun _ => mkArea [⟨1, false⟩] [[⟨2, false⟩]] []⟩
    let r := runHoles w 7 [.append [⟨3, false⟩, ⟨4, true⟩], .del (-2), .len]
    (r.1 = [.nothing, .nothing, .num 1]) ∧ readHoles r.2 7 = [[⟨3, false⟩, ⟨4, true⟩]] ∧ holePolygons r.2 7 = [[⟨2, false⟩]] ∧
    holePolygons (assignHoles r.2 7 (readHoles r.2 7)) 7 = [[⟨3, false⟩, ⟨4, true⟩]] :=
  ⟨rfl, rfl, rfl, rfl⟩

end Areas

end Verif.Py
