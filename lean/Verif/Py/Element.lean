import Verif.Py.Index
import Mathlib.Tactic.ByContra

/-!
Model of what a Python variable holds after `p = ls[i]`: lanelet2_python/python_api/core.cpp 376-379 (IsLineString::addGetitem) returns
an internal reference, so that the Python object is a pointer to the place of the point in the vector of the linestring (LineString.h
183, 493-496). It keeps the linestring alive, but neither the point nor the memory of the vector. Iterating and the layers of a map
return copies (Boost.Python's default for `iterator`, core.cpp 371 and 445-449), and so do constructors.

std::vector: the elements stay where they are unless an element before them is inserted or removed, or an element is added while the
capacity is used up. By how much the capacity grows is a parameter. Undefined behaviour is `none`.
-/
namespace Verif.Py.Element
open Verif.LineStr Verif.Py

variable {P : Type}

/-- The vector of the points of a linestring, LineString.h 183: the number of its allocation, its capacity and its elements -/
structure Vec (P : Type) where
  /-- the allocation -/
  buf : Nat
  /-- the capacity -/
  cap : Nat
  /-- the points -/
  pts : List P

/-- A Python object for a point: with a handle of its own (core.cpp 766-781, Point3d), or a pointer to an element of the vector of a
linestring (core.cpp 378, return_internal_reference) -/
inductive Ref (P : Type) where
  | own (p : P)
  | slot (data buf idx : Nat)

/-- The state of a script: the linestrings by their data objects, the number of the next allocation, the variables; LineString.h 183 -/
structure St (P : Type) where
  /-- the linestrings -/
  vecs : Nat → Vec P
  /-- the next allocation -/
  fresh : Nat
  /-- the variables for points -/
  vars : Nat → Option (Ref P)

/-- The statements of a script: `x = Point3d(...)` (or x from a loop over a linestring or from a layer), `x = y`, `x = ls[i]`, `ls[i] = x`,
`del ls[i]`, `ls.append(x)`, a look at `x`, `list(ls)`; core.cpp 361-380 -/
inductive Stmt (P : Type) where
  | make (x : Nat) (p : P)
  | bind (x y : Nat)
  | take (x : Nat) (h : LS) (i : Int)
  | put (h : LS) (i : Int) (x : Nat)
  | del (h : LS) (i : Int)
  | append (h : LS) (x : Nat)
  | use (x : Nat)
  | items (h : LS)

/-- What a script sees: a point, a list, nothing, or an exception; core.cpp 361-380, converter.h 18-19, 32-33, 45-46 -/
inductive Res (P : Type) where
  | point (p : P)
  | list (l : List P)
  | nothing
  | indexError
  | overflowError
  | nameError
  deriving DecidableEq

/-- Following the pointer that the Python object has: it has to point to an element that still exists; core.cpp 378 -/
def follow (st : St P) : Ref P → Option P
  | .own p => some p
  | .slot d b i => if (st.vecs d).buf = b then (st.vecs d).pts[i]? else none

/-- The place in the vector of the element at a position of the handle, LineString.h 495 -/
def place (inv : Bool) (n k : Nat) : Nat := if inv then n - 1 - k else k

/-- Assignment to one vector. -/
def St.setVec (st : St P) (d : Nat) (v : Vec P) : St P := { st with vecs := fun e => if e = d then v else st.vecs e }

/-- Assignment to one variable. -/
def St.setVar (st : St P) (x : Nat) (r : Ref P) : St P := { st with vars := fun y => if y = x then some r else st.vars y }

/-- The index of a statement as place in the vector, or the exception: converter.h 11-20, 24-33, 37-46 -/
def locate (st : St P) (h : LS) (i : Int) : Except (Res P) Nat :=
  match toInt64 i with
  | .error _ => .error .overflowError
  | .ok j => match position (st.vecs h.data).pts.length j with
    | some k => .ok (place h.inv (st.vecs h.data).pts.length k)
    | none => .error .indexError

/-- LineStringImpl::push_back, LineString.h 434-436: at the end of the vector, at its begin if the handle is inverted. A new allocation if
the capacity is used up; `grow` gives the additional capacity. The point is copied before the vector changes. -/
def pushVec (grow : Nat → Nat) (inv : Bool) (fresh : Nat) (v : Vec P) (p : P) : Vec P :=
  let pts := if inv then p :: v.pts else v.pts ++ [p]
  if v.pts.length < v.cap then { v with pts := pts } else ⟨fresh, v.cap + 1 + grow v.cap, pts⟩

/-- One statement; core.cpp 361-380 with converter.h 11-47. An assignment copies the point that the object on the right hand side is at
this moment (the parameter `ValT value` of setItem, converter.h 24). -/
def step (grow : Nat → Nat) (st : St P) : Stmt P → Option (Res P × St P)
  | .make x p => some (.nothing, st.setVar x (.own p))
  | .bind x y => match st.vars y with
    | none => some (.nameError, st)
    | some r => some (.nothing, st.setVar x r)
  | .take x h i => match locate st h i with
    | .error e => some (e, st)
    | .ok k => some (.nothing, st.setVar x (.slot h.data (st.vecs h.data).buf k))
  | .put h i x => match st.vars x with
    | none => some (.nameError, st)
    | some r => match follow st r with
      | none => none
      | some p => match locate st h i with
        | .error e => some (e, st)
        | .ok k => some (.nothing, st.setVec h.data { st.vecs h.data with pts := (st.vecs h.data).pts.set k p })
  | .del h i => match locate st h i with
    | .error e => some (e, st)
    | .ok k => some (.nothing, st.setVec h.data { st.vecs h.data with pts := (st.vecs h.data).pts.eraseIdx k })
  | .append h x => match st.vars x with
    | none => some (.nameError, st)
    | some r => match follow st r with
      | none => none
      | some p => some (.nothing, { st.setVec h.data (pushVec grow h.inv st.fresh (st.vecs h.data) p) with fresh := st.fresh + 1 })
  | .use x => match st.vars x with
    | none => some (.nameError, st)
    | some r => match follow st r with
      | none => none
      | some p => some (.point p, st)
  | .items h => some (.list (if h.inv then (st.vecs h.data).pts.reverse else (st.vecs h.data).pts), st)

/-- A script, its exceptions being caught; core.cpp 361-380 -/
def run (grow : Nat → Nat) : List (Stmt P) → St P → Option (List (Res P) × St P)
  | [], st => some ([], st)
  | c :: cs, st => match step grow st c with
    | none => none
    | some (r, st') => match run grow cs st' with
      | none => none
      | some (rs, st'') => some (r :: rs, st'')

/-! ### Specification: Python lists and variables -/

/-- Specification. A variable: the point that was assigned to it, where it was taken from if it comes from `ls[i]`, and whether this part
of the linestring has been touched since. Only the point matters for what Python does with a list. -/
structure SVar (P : Type) where
  /-- the point -/
  val : P
  /-- the linestring and the place in it, counted from its first point -/
  src : Option (Nat × Nat)
  /-- whether a statement has changed, moved or possibly moved this place -/
  touched : Bool

/-- Specification. Lists of points and variables. -/
structure SSt (P : Type) where
  /-- the points of the linestrings, in their own direction -/
  lists : Nat → List P
  /-- the variables -/
  vars : Nat → Option (SVar P)

/-- Specification. The places of list `d` that satisfy `f` are touched. -/
def SSt.touch (s : SSt P) (d : Nat) (f : Nat → Bool) : SSt P :=
  { s with vars := fun x => (s.vars x).map fun v =>
      match v.src with
      | some (e, k) => if e = d ∧ f k = true then { v with touched := true } else v
      | none => v }

/-- Specification. Assignment to one variable. -/
def SSt.setVar (s : SSt P) (x : Nat) (v : SVar P) : SSt P := { s with vars := fun y => if y = x then some v else s.vars y }

/-- Specification. Assignment to one list. -/
def SSt.setList (s : SSt P) (d : Nat) (l : List P) : SSt P := { s with lists := fun e => if e = d then l else s.lists e }

/-- Specification. The item that an index means, counted from the first point of the list; an inverted linestring is the list read from
behind. -/
def itemAt (l : List P) (inv : Bool) (i : Int) : Option Nat :=
  (item l.length i).map fun k => if inv then l.length - 1 - k else k

/-- Specification. The meaning of a statement if linestrings are Python lists. Variables are never changed by a statement about a list. -/
def onLists (s : SSt P) : Stmt P → Res P × SSt P
  | .make x p => (.nothing, s.setVar x ⟨p, none, false⟩)
  | .bind x y => match s.vars y with
    | none => (.nameError, s)
    | some v => (.nothing, s.setVar x v)
  | .take x h i => match itemAt (s.lists h.data) h.inv i with
    | none => (.indexError, s)
    | some k => match (s.lists h.data)[k]? with
      | none => (.indexError, s)
      | some p => (.nothing, s.setVar x ⟨p, some (h.data, k), false⟩)
  | .put h i x => match s.vars x with
    | none => (.nameError, s)
    | some v => match itemAt (s.lists h.data) h.inv i with
      | none => (.indexError, s)
      | some k => (.nothing, (s.setList h.data ((s.lists h.data).set k v.val)).touch h.data (· == k))
  | .del h i => match itemAt (s.lists h.data) h.inv i with
    | none => (.indexError, s)
    | some k => (.nothing, (s.setList h.data ((s.lists h.data).eraseIdx k)).touch h.data (k ≤ ·))
  | .append h x => match s.vars x with
    | none => (.nameError, s)
    | some v => (.nothing, (s.setList h.data (if h.inv then v.val :: s.lists h.data else s.lists h.data ++ [v.val])).touch h.data
        fun _ => true)
  | .use x => match s.vars x with
    | none => (.nameError, s)
    | some v => (.point v.val, s)
  | .items h => (.list (if h.inv then (s.lists h.data).reverse else s.lists h.data), s)

/-- Specification. A script on lists. -/
def runLists : List (Stmt P) → SSt P → List (Res P) × SSt P
  | [], s => ([], s)
  | c :: cs, s =>
    let r := onLists s c
    let rest := runLists cs r.2
    (r.1 :: rest.1, rest.2)

/-- Specification. The variable that a statement looks at. -/
def Stmt.reads : Stmt P → Option Nat
  | .put _ _ x => some x
  | .append _ x => some x
  | .use x => some x
  | _ => none

/-- Specification. The index of a statement fits in 64 bits. -/
def Stmt.Fits : Stmt P → Prop
  | .take _ _ i => -2 ^ 63 ≤ i ∧ i < 2 ^ 63
  | .put _ i _ => -2 ^ 63 ≤ i ∧ i < 2 ^ 63
  | .del _ i => -2 ^ 63 ≤ i ∧ i < 2 ^ 63
  | _ => True

/-- Specification. A script that never looks at a variable `x = ls[i]` after the place of the point in the linestring was assigned to, a
point at or before it was deleted, or a point was appended. -/
def Careful : List (Stmt P) → SSt P → Prop
  | [], _ => True
  | c :: cs, s =>
    (∀ x v, c.reads = some x → s.vars x = some v → v.touched = false) ∧ Careful cs (onLists s c).2

/-- Specification. The points of the linestrings are those of the lists. -/
def SamePoints (st : St P) (s : SSt P) : Prop := ∀ d, (st.vecs d).pts = s.lists d

/-! ### Proofs -/

/-- Helper of the proofs. What a reference and the variable of the specification have in common. -/
def Agrees (st : St P) (s : SSt P) (r : Ref P) (v : SVar P) : Prop :=
  match r with
  | .own p => v.val = p ∧ v.src = none
  | .slot d b k => v.src = some (d, k) ∧ (v.touched = false → (st.vecs d).buf = b ∧ (s.lists d)[k]? = some v.val)

/-- Helper of the proofs. -/
structure Sim (st : St P) (s : SSt P) : Prop where
  pts : SamePoints st s
  dom : ∀ x, st.vars x = none ↔ s.vars x = none
  vars : ∀ x r v, st.vars x = some r → s.vars x = some v → Agrees st s r v

theorem Sim.follow {st : St P} {s : SSt P} (h : Sim st s) {x : Nat} {r : Ref P} {v : SVar P} (hr : st.vars x = some r)
    (hv : s.vars x = some v) (ht : v.touched = false) : Element.follow st r = some v.val := by
  have ha := h.vars x r v hr hv
  cases r with
  | own p => simp only [Agrees] at ha; simp [Element.follow, ha.1]
  | slot d b k =>
    simp only [Agrees] at ha
    obtain ⟨h1, h2⟩ := ha.2 ht
    simp only [Element.follow, h1, if_true, h.pts d, h2]

theorem locate_eq {st : St P} {s : SSt P} (h : Sim st s) (ls : LS) (i : Int) (hi : -2 ^ 63 ≤ i ∧ i < 2 ^ 63)
    (hn : (s.lists ls.data).length < 2 ^ 63) :
    locate st ls i = match itemAt (s.lists ls.data) ls.inv i with
      | none => .error .indexError
      | some k => .ok k := by
  unfold locate itemAt
  rw [toInt64_ok hi, h.pts ls.data]
  simp only [position_eq hn hi]
  cases item (s.lists ls.data).length i <;> rfl

theorem itemAt_lt {l : List P} {inv : Bool} {i : Int} {k : Nat} (h : itemAt l inv i = some k) : k < l.length := by
  unfold itemAt at h
  cases hi : item l.length i with
  | none => rw [hi] at h; cases h
  | some j =>
    rw [hi] at h
    simp only [Option.map_some, Option.some.injEq] at h
    have := item_lt hi
    split at h <;> omega

/-- Helper of the proofs. Assigning agreeing values to a variable. -/
theorem Sim.setVar {st : St P} {s : SSt P} (h : Sim st s) (x : Nat) {r : Ref P} {v : SVar P} (ha : Agrees st s r v) :
    Sim (st.setVar x r) (s.setVar x v) := by
  refine ⟨h.pts, ?_, ?_⟩
  · intro y
    simp only [St.setVar, SSt.setVar]
    split
    · simp
    · exact h.dom y
  · intro y r' v' hr hv
    simp only [St.setVar, SSt.setVar] at hr hv
    split at hr
    · next e =>
      rw [if_pos e] at hv
      cases hr; cases hv
      cases r <;> exact ha
    · next e =>
      rw [if_neg e] at hv
      have := h.vars y r' v' hr hv
      cases r' <;> exact this

/-- Helper of the proofs. A change of one linestring: places that are not touched keep their points and stay in the same allocation. -/
theorem Sim.change {st : St P} {s : SSt P} (h : Sim st s) (d : Nat) (w : Vec P) (f : Nat → Bool) (n : Nat)
    (hb : (∃ k, f k = false) → w.buf = (st.vecs d).buf)
    (hk : ∀ (k : Nat) (p : P), f k = false → (s.lists d)[k]? = some p → w.pts[k]? = some p) :
    Sim { st.setVec d w with fresh := n } ((s.setList d w.pts).touch d f) := by
  refine ⟨?_, ?_, ?_⟩
  · intro e
    simp only [St.setVec, SSt.touch, SSt.setList]
    split
    · rfl
    · exact h.pts e
  · intro x
    simp only [St.setVec, SSt.touch, SSt.setList, Option.map_eq_none_iff]
    exact h.dom x
  · intro x r v hr hv
    simp only [St.setVec] at hr
    simp only [SSt.touch, SSt.setList, Option.map_eq_some_iff] at hv
    obtain ⟨u, hu, hv⟩ := hv
    have ha := h.vars x r u hr hu
    cases r with
    | own p =>
      simp only [Agrees] at ha ⊢
      rw [ha.2] at hv
      subst hv
      exact ha
    | slot e b k =>
      simp only [Agrees] at ha ⊢
      rw [ha.1] at hv
      simp only at hv
      split at hv
      · subst hv
        exact ⟨rfl, fun c => by cases c⟩
      · next hc =>
        subst hv
        refine ⟨ha.1, fun ht => ?_⟩
        obtain ⟨h1, h2⟩ := ha.2 ht
        simp only [St.setVec, SSt.touch, SSt.setList]
        by_cases hd : e = d
        · subst hd
          have hf : f k = false := by
            cases hfk : f k
            · rfl
            · exact absurd ⟨rfl, hfk⟩ hc
          rw [if_pos rfl, if_pos rfl]
          exact ⟨by rw [hb ⟨k, hf⟩]; exact h1, hk k _ hf h2⟩
        · rw [if_neg hd, if_neg hd]
          exact ⟨h1, h2⟩

theorem pushVec_pts (grow : Nat → Nat) (inv : Bool) (n : Nat) (v : Vec P) (p : P) :
    (pushVec grow inv n v p).pts = if inv then p :: v.pts else v.pts ++ [p] := by
  unfold pushVec
  simp only
  split <;> rfl

/-- Helper of the proofs. -/
theorem step_sim (grow : Nat → Nat) {st : St P} {s : SSt P} (h : Sim st s) (c : Stmt P) (hf : c.Fits)
    (hn : ∀ d, (s.lists d).length < 2 ^ 63) (hc : ∀ x v, c.reads = some x → s.vars x = some v → v.touched = false) :
    ∃ st', step grow st c = some ((onLists s c).1, st') ∧ Sim st' (onLists s c).2 := by
  have both : ∀ x, (st.vars x = none ∧ s.vars x = none) ∨ ∃ r v, st.vars x = some r ∧ s.vars x = some v := by
    intro x
    cases hr : st.vars x with
    | none => exact Or.inl ⟨rfl, (h.dom x).1 hr⟩
    | some r =>
      cases hv : s.vars x with
      | none => rw [(h.dom x).2 hv] at hr; cases hr
      | some v => exact Or.inr ⟨r, v, rfl, rfl⟩
  cases c with
  | make x p => exact ⟨_, rfl, h.setVar x ⟨rfl, rfl⟩⟩
  | bind x y =>
    simp only [step, onLists]
    rcases both y with ⟨e1, e2⟩ | ⟨r, v, e1, e2⟩
    · rw [e1, e2]; exact ⟨_, rfl, h⟩
    · rw [e1, e2]; exact ⟨_, rfl, h.setVar x (h.vars y r v e1 e2)⟩
  | take x ls i =>
    simp only [step, onLists, locate_eq h ls i hf (hn _)]
    cases hk : itemAt (s.lists ls.data) ls.inv i with
    | none => exact ⟨_, rfl, h⟩
    | some k =>
      have hlt := itemAt_lt hk
      simp only [List.getElem?_eq_getElem hlt]
      exact ⟨_, rfl, h.setVar x ⟨rfl, fun _ => ⟨rfl, List.getElem?_eq_getElem hlt⟩⟩⟩
  | put ls i x =>
    simp only [step, onLists]
    rcases both x with ⟨e1, e2⟩ | ⟨r, v, e1, e2⟩
    · rw [e1, e2]; exact ⟨_, rfl, h⟩
    · rw [e1, e2]
      simp only [h.follow e1 e2 (hc x v rfl e2), locate_eq h ls i hf (hn _)]
      cases hk : itemAt (s.lists ls.data) ls.inv i with
      | none => exact ⟨_, rfl, h⟩
      | some k =>
        refine ⟨_, rfl, ?_⟩
        have := h.change ls.data ⟨(st.vecs ls.data).buf, (st.vecs ls.data).cap, (s.lists ls.data).set k v.val⟩ (· == k) st.fresh
          (fun _ => rfl) (by
            intro j p hj hp
            have : k ≠ j := by
              rintro rfl
              simp at hj
            simp only [List.getElem?_set_ne this]
            exact hp)
        simp only [h.pts ls.data]
        exact this
  | del ls i =>
    simp only [step, onLists, locate_eq h ls i hf (hn _)]
    cases hk : itemAt (s.lists ls.data) ls.inv i with
    | none => exact ⟨_, rfl, h⟩
    | some k =>
      refine ⟨_, rfl, ?_⟩
      have := h.change ls.data ⟨(st.vecs ls.data).buf, (st.vecs ls.data).cap, (s.lists ls.data).eraseIdx k⟩ (k ≤ ·) st.fresh
        (fun _ => rfl) (by
          intro j p hj hp
          have : j < k := by simpa using hj
          simp only [List.getElem?_eraseIdx_of_lt this]
          exact hp)
      simp only [h.pts ls.data]
      exact this
  | append ls x =>
    simp only [step, onLists]
    rcases both x with ⟨e1, e2⟩ | ⟨r, v, e1, e2⟩
    · rw [e1, e2]; exact ⟨_, rfl, h⟩
    · rw [e1, e2]
      simp only [h.follow e1 e2 (hc x v rfl e2)]
      refine ⟨_, rfl, ?_⟩
      have := h.change ls.data (pushVec grow ls.inv st.fresh (st.vecs ls.data) v.val) (fun _ => true) (st.fresh + 1)
        (fun ⟨_, hk⟩ => by cases hk) (fun _ _ hk => by cases hk)
      rw [pushVec_pts, h.pts ls.data] at this
      exact this
  | use x =>
    simp only [step, onLists]
    rcases both x with ⟨e1, e2⟩ | ⟨r, v, e1, e2⟩
    · rw [e1, e2]; exact ⟨_, rfl, h⟩
    · rw [e1, e2]
      simp only [h.follow e1 e2 (hc x v rfl e2)]
      exact ⟨_, rfl, h⟩
  | items ls =>
    simp only [step, onLists, h.pts ls.data]
    exact ⟨_, rfl, h⟩

theorem onLists_length (s : SSt P) (c : Stmt P) (d : Nat) : ((onLists s c).2.lists d).length ≤ (s.lists d).length + 1 := by
  have hset : ∀ (e : Nat) (l : List P) (f : Nat → Bool), l.length ≤ (s.lists e).length + 1 →
      (((s.setList e l).touch e f).lists d).length ≤ (s.lists d).length + 1 := by
    intro e l f hl
    simp only [SSt.touch, SSt.setList]
    split
    · next hd => subst hd; exact hl
    · omega
  cases c with
  | make x p => simp [onLists, SSt.setVar]
  | bind x y => simp only [onLists]; split <;> simp [SSt.setVar]
  | take x ls i =>
    simp only [onLists]
    split
    · simp
    · split <;> simp [SSt.setVar]
  | put ls i x =>
    simp only [onLists]
    split
    · simp
    · split
      · simp
      · exact hset _ _ _ (by simp)
  | del ls i =>
    simp only [onLists]
    split
    · simp
    · exact hset _ _ _ (by rw [List.length_eraseIdx]; split <;> omega)
  | append ls x =>
    simp only [onLists]
    split
    · simp
    · exact hset _ _ _ (by split <;> simp)
  | use x => simp only [onLists]; split <;> simp
  | items ls => simp [onLists]

theorem run_sim (grow : Nat → Nat) (cs : List (Stmt P)) :
    ∀ (st : St P) (s : SSt P), Sim st s → (∀ c ∈ cs, c.Fits) → (∀ d, (s.lists d).length + cs.length < 2 ^ 63) → Careful cs s →
      ∃ st', run grow cs st = some ((runLists cs s).1, st') ∧ Sim st' (runLists cs s).2 := by
  induction cs with
  | nil => intro st s h _ _ _; exact ⟨st, rfl, h⟩
  | cons c cs ih =>
    intro st s h hf hn hc
    simp only [List.length_cons] at hn
    obtain ⟨st', h1, h2⟩ := step_sim grow h c (hf c (by simp)) (fun d => by have := hn d; omega) hc.1
    obtain ⟨st'', h3, h4⟩ := ih st' _ h2 (fun c' hc' => hf c' (by simp [hc']))
      (fun d => by have := hn d; have := onLists_length s c d; omega) hc.2
    refine ⟨st'', ?_, h4⟩
    simp only [run, h1, h3, runLists]

/-- **C96.** A script that does not look at points taken out of a linestring with `ls[i]` after this part of the linestring was changed gets
what Python lists would give it, exceptions included, and leaves the points that the lists would have: for any number of linestrings,
also seen through inverted handles, and however their memory grows. -/
theorem careful_script (grow : Nat → Nat) (cs : List (Stmt P)) (st : St P) (hv : ∀ x, st.vars x = none) (hf : ∀ c ∈ cs, c.Fits)
    (hn : ∀ d, (st.vecs d).pts.length + cs.length < 2 ^ 63)
    (hc : Careful cs ⟨fun d => (st.vecs d).pts, fun _ => none⟩) :
    ∃ st', run grow cs st = some ((runLists cs ⟨fun d => (st.vecs d).pts, fun _ => none⟩).1, st') ∧
      SamePoints st' (runLists cs ⟨fun d => (st.vecs d).pts, fun _ => none⟩).2 := by
  obtain ⟨st', h1, h2⟩ := run_sim grow cs st ⟨fun d => (st.vecs d).pts, fun _ => none⟩
    ⟨fun _ => rfl, fun x => by simp [hv x], fun x r v hr => by rw [hv x] at hr; cases hr⟩ hf hn hc
  exact ⟨st', h1, h2.pts⟩

/-- Specification. The script takes no point with `ls[i]`: its variables come from constructors, from layers and from loops. -/
def NoTake (cs : List (Stmt P)) : Prop := ∀ c ∈ cs, ∀ x h i, c ≠ .take x h i

theorem careful_noTake (cs : List (Stmt P)) :
    ∀ (s : SSt P), NoTake cs → (∀ x v, s.vars x = some v → v.src = none ∧ v.touched = false) → Careful cs s := by
  induction cs with
  | nil => intro s _ _; trivial
  | cons c cs ih =>
    intro s ht hs
    refine ⟨fun x v _ hv => (hs x v hv).2, ih _ (fun c' hc' => ht c' (by simp [hc'])) ?_⟩
    have htouch : ∀ (d : Nat) (l : List P) (f : Nat → Bool) x v, ((s.setList d l).touch d f).vars x = some v →
        v.src = none ∧ v.touched = false := by
      intro d l f x v hv
      simp only [SSt.touch, SSt.setList, Option.map_eq_some_iff] at hv
      obtain ⟨u, hu, hv⟩ := hv
      have := hs x u hu
      rw [this.1] at hv
      subst hv
      exact this
    have hset : ∀ (y : Nat) (w : SVar P), w.src = none ∧ w.touched = false → ∀ x v, (s.setVar y w).vars x = some v →
        v.src = none ∧ v.touched = false := by
      intro y w hw x v hv
      simp only [SSt.setVar] at hv
      split at hv
      · cases hv; exact hw
      · exact hs x v hv
    cases c with
    | make x p => exact hset _ _ ⟨rfl, rfl⟩
    | bind x y =>
      simp only [onLists]
      cases hy : s.vars y with
      | none => exact hs
      | some v => exact hset _ _ (hs y v hy)
    | take x h i => exact absurd rfl (ht _ (by simp) x h i)
    | put ls i x =>
      simp only [onLists]
      split
      · exact hs
      · split
        · exact hs
        · exact htouch _ _ _
    | del ls i =>
      simp only [onLists]
      split
      · exact hs
      · exact htouch _ _ _
    | append ls x =>
      simp only [onLists]
      split
      · exact hs
      · exact htouch _ _ _
    | use x => simp only [onLists]; split <;> exact hs
    | items ls => exact hs

/-- **C96.** In particular scripts whose variables come from constructors, layers and loops over linestrings may change the linestrings at
any time. -/
theorem copies_script (grow : Nat → Nat) (cs : List (Stmt P)) (st : St P) (hv : ∀ x, st.vars x = none) (hf : ∀ c ∈ cs, c.Fits)
    (hn : ∀ d, (st.vecs d).pts.length + cs.length < 2 ^ 63) (ht : NoTake cs) :
    ∃ st', run grow cs st = some ((runLists cs ⟨fun d => (st.vecs d).pts, fun _ => none⟩).1, st') ∧
      SamePoints st' (runLists cs ⟨fun d => (st.vecs d).pts, fun _ => none⟩).2 :=
  careful_script grow cs st hv hf hn (careful_noTake cs _ ht (fun x v h => by cases h))

/-! ### Where the bindings differ from lists -/

/-- Specification. `ls[i], ls[j] = ls[j], ls[i]` with the two values in the variables 0 and 1 -/
def swap (h : LS) (i j : Int) : List (Stmt P) := [.take 0 h j, .take 1 h i, .put h i 0, .put h j 1]

/-- Specification. The index `i` of a statement fits in 64 bits and means the place `k` of the linestring. -/
def Means (st : St P) (h : LS) (i : Int) (k : Nat) : Prop :=
  (-2 ^ 63 ≤ i ∧ i < 2 ^ 63) ∧ itemAt (st.vecs h.data).pts h.inv i = some k

theorem locate_means {st : St P} {h : LS} {i : Int} {k : Nat} (hm : Means st h i k) (hn : (st.vecs h.data).pts.length < 2 ^ 63)
    (st' : St P) (hl : (st'.vecs h.data).pts.length = (st.vecs h.data).pts.length) : locate st' h i = .ok k := by
  obtain ⟨hi, hk⟩ := hm
  unfold locate
  rw [toInt64_ok hi, hl]
  simp only [position_eq hn hi]
  unfold itemAt at hk
  cases hx : item (st.vecs h.data).pts.length i with
  | none => rw [hx] at hk; cases hk
  | some j =>
    rw [hx] at hk
    simp only [Option.map_some, Option.some.injEq] at hk
    simp only [place, hk]

/-- C96, disagreement. Exchanging two points the way Python programs do, `ls[a], ls[b] = ls[b], ls[a]`, loses one of them: afterwards both
places have the point that was at b, while a list has both points exchanged. This holds for every linestring, inverted or not, and for
all places. -/
theorem swap_counterexample (grow : Nat → Nat) (st : St P) (h : LS) (a b : Int) (i j : Nat) (p q : P) (hij : i ≠ j)
    (ha : Means st h a i) (hb : Means st h b j) (hi : (st.vecs h.data).pts[i]? = some p) (hj : (st.vecs h.data).pts[j]? = some q)
    (hn : (st.vecs h.data).pts.length < 2 ^ 63) :
    (∃ rs st', run grow (swap h a b) st = some (rs, st') ∧
      (st'.vecs h.data).pts[i]? = some q ∧ (st'.vecs h.data).pts[j]? = some q) ∧
    ((runLists (swap h a b) ⟨fun d => (st.vecs d).pts, fun _ => none⟩).2.lists h.data)[i]? = some q ∧
    ((runLists (swap h a b) ⟨fun d => (st.vecs d).pts, fun _ => none⟩).2.lists h.data)[j]? = some p := by
  obtain ⟨hil, hie⟩ := List.getElem?_eq_some_iff.1 hi
  obtain ⟨hjl, hje⟩ := List.getElem?_eq_some_iff.1 hj
  have la := locate_means ha hn
  have lb := locate_means hb hn
  constructor
  · have l1 := lb st rfl
    have l2 : ∀ (r : Ref P), locate (st.setVar 0 r) h a = .ok i := fun r => la _ rfl
    simp only [swap, run, step, l1, l2]
    simp only [St.setVar, follow]
    have l3 : ∀ (vars : Nat → Option (Ref P)), locate (⟨st.vecs, st.fresh, vars⟩ : St P) h a = .ok i := fun vars => la _ rfl
    simp only [if_true, show (0 : Nat) ≠ 1 from by decide, if_false, hj, l3, St.setVec, List.getElem?_set_self hil]
    have l4 : ∀ (vars : Nat → Option (Ref P)),
        locate (⟨fun e => if e = h.data then { st.vecs h.data with pts := (st.vecs h.data).pts.set i q } else st.vecs e,
          st.fresh, vars⟩ : St P) h b = .ok j := by
      intro vars
      exact lb _ (by simp)
    simp only [l4]
    refine ⟨_, _, rfl, ?_, ?_⟩
    · simp [List.getElem?_set_ne (Ne.symm hij), List.getElem?_set_self hil]
    · simp [hjl]
  · have e1 := ha.2
    have e2 := hb.2
    have e3 : itemAt ((st.vecs h.data).pts.set i q) h.inv b = some j := by
      unfold itemAt at e2 ⊢
      rw [List.length_set]
      exact e2
    simp only [swap, runLists, onLists, e1, e2, hi, hj, SSt.setVar, SSt.setList, SSt.touch, if_true,
      show (0 : Nat) ≠ 1 from by decide, if_false, Option.map_some, e3]
    constructor
    · simp [List.getElem?_set_ne (Ne.symm hij), List.getElem?_set_self hil]
    · simp [hjl]

/-- C96, disagreement. After `p = ls[i]` and `ls.append(q)` looking at `p` is undefined behaviour whenever the memory of the linestring was
used up. -/
theorem append_counterexample (grow : Nat → Nat) (st : St P) (h : LS) (i : Int) (k : Nat) (q : P) (hm : Means st h i k)
    (hn : (st.vecs h.data).pts.length < 2 ^ 63) (hcap : (st.vecs h.data).cap ≤ (st.vecs h.data).pts.length)
    (hfresh : (st.vecs h.data).buf < st.fresh) :
    run grow [.make 1 q, .take 0 h i, .append h 1, .use 0] st = none := by
  have l : ∀ (vars : Nat → Option (Ref P)), locate (⟨st.vecs, st.fresh, vars⟩ : St P) h i = .ok k :=
    fun vars => locate_means hm hn _ rfl
  simp only [run, step, St.setVar, l, if_true, show (1 : Nat) ≠ 0 from by decide, show (0 : Nat) ≠ 1 from by decide, if_false, follow,
    St.setVec, pushVec, show ¬ (st.vecs h.data).pts.length < (st.vecs h.data).cap from by omega]
  rw [if_neg (by omega)]

/-- C96, disagreement. After `p = ls[i]` and `del ls[i]` the variable `p` is the point that was stored behind the deleted one, and looking
at it is undefined behaviour if there is none. -/
theorem del_counterexample (grow : Nat → Nat) (st : St P) (h : LS) (i : Int) (k : Nat) (hm : Means st h i k)
    (hn : (st.vecs h.data).pts.length < 2 ^ 63) :
    (run grow [.take 0 h i, .del h i, .use 0] st).map (·.1) =
      (st.vecs h.data).pts[k + 1]?.map fun q => [.nothing, .nothing, .point q] := by
  have l : ∀ (vars : Nat → Option (Ref P)), locate (⟨st.vecs, st.fresh, vars⟩ : St P) h i = .ok k :=
    fun vars => locate_means hm hn _ rfl
  have l0 := locate_means hm hn st rfl
  simp only [run, step, l0, St.setVar, l, if_true, follow, St.setVec, List.getElem?_eraseIdx_of_ge (Nat.le_refl k)]
  cases (st.vecs h.data).pts[k + 1]? <;> rfl

/-! ### Examples -/

/-- Example. One linestring with the points 10, 20, 30 whose memory is used up -/
def exSt : St Nat := ⟨fun _ => ⟨0, 3, [10, 20, 30]⟩, 1, fun _ => none⟩

/-- Example. A careful script: `p = ls[0]`, `ls[1] = p`, `del inv[0]` (the last point), look at p, `ls.append(q)`, `p = ls[2]`, look at p -/
def exScript : List (Stmt Nat) :=
  [.make 1 70, .take 0 ⟨0, false⟩ 0, .put ⟨0, false⟩ 1 0, .del ⟨0, true⟩ 0, .use 0, .append ⟨0, false⟩ 1, .take 0 ⟨0, false⟩ 2, .use 0,
    .items ⟨0, true⟩, .take 0 ⟨0, false⟩ 5]

-- the hypotheses of careful_script hold and it does something
example : (run (fun n => n) exScript exSt).map (·.1) =
    some [.nothing, .nothing, .nothing, .nothing, .point 10, .nothing, .nothing, .point 70, .list [70, 10, 10], .indexError] := by
  decide +kernel

example : Careful exScript ⟨fun d => (exSt.vecs d).pts, fun _ => none⟩ := by
  refine ⟨?_, ?_, ?_, ?_, ?_, ?_, ?_, ?_, ?_, ?_, trivial⟩ <;> intro x v h hv <;> cases h <;> cases hv <;> rfl

-- swapping the first and the last point
example : (run (fun n => n) (swap ⟨0, false⟩ 0 2 ++ [.items ⟨0, false⟩]) exSt).map (·.1) =
    some [.nothing, .nothing, .nothing, .nothing, .list [30, 20, 30]] := by
  decide +kernel

-- the hypotheses of append_counterexample
example : run (fun n => n) [.make 1 70, .take 0 ⟨0, false⟩ 0, .append ⟨0, false⟩ 1, .use 0] exSt = none :=
  append_counterexample _ exSt ⟨0, false⟩ 0 0 70 ⟨by decide, by decide⟩ (by decide) (by decide) (by decide)

end Verif.Py.Element
