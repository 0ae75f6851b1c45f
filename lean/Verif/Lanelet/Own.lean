import Mathlib.Data.List.Basic
import Mathlib.Data.List.Perm.Basic
import Mathlib.Tactic.Tauto

/-!
How long primitives live: handles own the data they refer to (Primitive.h 189: a std::shared_ptr), data own what their handles refer to,
and regulatory elements refer to lanelets and areas by weak handles (RegulatoryElement.h 90, Lanelet.h 316-352, Area.h 271-310).

The memory is a list of cells that are never used again, each with the use count of its std::shared_ptr. Data that is only kept twice is left
out: the compound polygons of an area (Area.h 107-108) refer to the same linestrings as its bounds. Coordinates, attributes and ids do not
matter here and are left out (different data have different ids), and so are null handles and other containers of handles (a vector of lanelets
counts as one handle of the program each). The layers of a map are one list. What else LaneletMap::add does is in Verif.LMap.
-/
namespace Verif.Own

/-- A place in memory. -/
abbrev Addr := Nat

/-- RuleParameter, RegulatoryElement.h 90: handles of points and linestrings (or polygons, which share their data), weak handles of lanelets
and areas -/
inductive Param where
  | point (a : Addr)
  | line (a : Addr)
  | lanelet (a : Addr)
  | area (a : Addr)
  deriving DecidableEq

/-- What the data of a primitive refers to: LineString.h 183; the parameters of a regulatory element in the order of their roles;
Lanelet.h 77-82 (`center`: a custom centerline); Area.h 102-104; the layers and regelemObjects_ of a submap, LaneletMap.h 353-358, 499; the layers
of a map -/
inductive Data where
  | point
  | line (points : List Addr)
  | reg (params : List Param)
  | lanelet (left right : Addr) (center : Option Addr) (regs : List Addr)
  | area (outer : List Addr) (inner : List (List Addr)) (regs : List Addr)
  | submap (elements tracked : List Addr)
  | map (elements : List Addr)
  deriving DecidableEq

/-- The classes of the data. -/
inductive Kind where
  | point | line | reg | lanelet | area | submap | map
  deriving DecidableEq

/-- LaneletMap and LaneletSubmap, the classes derived from LaneletMapLayers (LaneletMap.h 375, 451) -/
def Kind.isMap (k : Kind) : Bool := decide (k = .submap) || decide (k = .map)

/-- The class; Primitive.h 189 -/
def Data.kind : Data → Kind
  | .point => .point
  | .line _ => .line
  | .reg _ => .reg
  | .lanelet .. => .lanelet
  | .area .. => .area
  | .submap .. => .submap
  | .map _ => .map

/-- The handles in the data, by which it owns other data; places as at `Data` -/
def Data.strong : Data → List Addr
  | .point => []
  | .line ps => ps
  | .reg ps => ps.filterMap fun p => match p with
    | .point a => some a
    | .line a => some a
    | _ => none
  | .lanelet l r c rs => l :: r :: (c.toList ++ rs)
  | .area o i rs => o ++ i.flatten ++ rs
  | .submap es ts => es ++ ts
  | .map es => es

/-- The weak handles in the data; RegulatoryElement.h 90 -/
def Data.weak : Data → List Addr
  | .reg ps => ps.filterMap fun p => match p with
    | .lanelet a => some a
    | .area a => some a
    | _ => none
  | _ => []

/-- Memory: for each place nothing if the data was destroyed, otherwise use count and data; Primitive.h 189 -/
abbrev Mem := List (Option (Nat × Data))

/-- Reading a place; `none` if the data was destroyed -/
def at? (m : Mem) (a : Addr) : Option (Nat × Data) := (m[a]?).join

/-- The static types of C++: what a handle in the data refers to has the class that the field asks for; LineString.h 183, RegulatoryElement.h 90,
Lanelet.h 77-82, Area.h 102-104. Weak handles may be expired. Maps are made empty. -/
def fits (m : Mem) (d : Data) : Bool :=
  let is (k : Kind) (a : Addr) : Bool := ((at? m a).map fun c => decide (c.2.kind = k)).getD false
  match d with
  | .point => true
  | .line ps => ps.all (is .point)
  | .reg ps => ps.all fun p => match p with
    | .point a => is .point a
    | .line a => is .line a
    | .lanelet a => (at? m a).isNone || is .lanelet a
    | .area a => (at? m a).isNone || is .area a
  | .lanelet l r c rs => is .line l && is .line r && c.toList.all (is .line) && rs.all (is .reg)
  | .area o i rs => o.all (is .line) && i.all (fun ls => ls.all (is .line)) && rs.all (is .reg)
  | .submap es ts => es.all (fun a => !is .submap a && !is .map a && (at? m a).isSome) && ts.all fun a => is .lanelet a || is .area a
  | .map es => es.isEmpty

/-- The numbers of handles in all data. -/
def size (m : Mem) : Nat := (m.map fun c => match c with | none => 0 | some (_, d) => d.strong.length).sum

/-- The destructor of handles (Primitive.h 189): the use count decreases; at zero the data is destroyed and then its own handles. `none`: a handle
to destroyed data. The first argument bounds the number of steps; `release_spec` shows that it does not matter. -/
def releaseN : Nat → List Addr → Mem → Option Mem
  | _, [], m => some m
  | 0, _ :: _, _ => none
  | k + 1, a :: as, m => match at? m a with
    | none => none
    | some (n, d) => if n = 1 then releaseN k (d.strong ++ as) (m.set a none) else releaseN k as (m.set a (some (n - 1, d)))

/-- Destroying handles; Primitive.h 189 -/
def release (as : List Addr) (m : Mem) : Option Mem := releaseN (as.length + size m) as m

/-- Copying handles (Primitive.h 189): use counts increase; `none`: a handle to destroyed data -/
def acquire : List Addr → Mem → Option Mem
  | [], m => some m
  | a :: as, m => match at? m a with
    | none => none
    | some (n, d) => acquire as (m.set a (some (n + 1, d)))

/-- A program: its memory and its handles -/
structure St where
  /-- the memory -/
  mem : Mem
  /-- the handles, as variables or in containers of the program -/
  vars : List Addr

/-- How a step fails: the program does not compile or uses an index that does not exist; NullptrError for an expired weak handle (Lanelet.h 328-330);
use of destroyed data -/
inductive Fault where
  | invalid
  | expired
  | freed
  deriving DecidableEq

/-- Steps of a program. `new`: constructors; `copy`: copying a handle; `get`: any function that gives a handle that data refers to (leftBound, operator[],
regulatoryElements and so on); `lock`: the handle of a weak one (Lanelet.h 330, 351, Area.h 285, 309); `drop`: the end of a handle;
`set`: any function that changes what data refers to (push_back, setLeftBound, setCenterline, addRegulatoryElement, addParameter and so on);
`add`: LaneletSubmap::add; `addMap`: LaneletMap::add -/
inductive Stmt where
  | new (d : Data)
  | copy (i : Nat)
  | get (i j : Nat)
  | lock (i j : Nat)
  | drop (i : Nat)
  | set (i : Nat) (d : Data)
  | add (i j : Nat)
  | addMap (i j : Nat)

/-- trackParameters, LaneletMap.cpp 747-768: weak handles that are not expired -/
def tracked (m : Mem) : Data → List Addr
  | .reg ps => (Data.reg ps).weak.filter fun a => (at? m a).isSome
  | _ => []

/-- What LaneletSubmap::add keeps besides the element: LaneletMap.cpp 687 (lanelet), 693 (area), 699 (regulatory element) -/
def keeps (m : Mem) : Data → List Addr
  | .reg ps => tracked m (.reg ps)
  | .lanelet _ _ _ rs => rs.flatMap fun r => ((at? m r).map fun c => tracked m c.2).getD []
  | .area _ _ rs => rs.flatMap fun r => ((at? m r).map fun c => tracked m c.2).getD []
  | _ => []

/-- What LaneletMap::add adds along with an element: LaneletMap.cpp 576-580, 589-591 (lanelet), 602-609, 618-620 (area), 142-163, 642-643
(regulatory element), 654-656, 668-670 (polygon, linestring) -/
def along (m : Mem) (d : Data) : List Addr := d.strong ++ d.weak.filter fun a => (at? m a).isSome

/-- LaneletMap::add of elements one after the other, LaneletMap.cpp 568-683: nothing happens for those that the map has. In the code bounds and points
come before the element itself; that does not matter for what the map has in the end. `none`: destroyed data. The first argument bounds
the number of steps; `addAll_spec` shows that it does not matter. -/
def addAll (m : Mem) : Nat → List Addr → List Addr → Option (List Addr)
  | _, es, [] => some es
  | 0, _, _ :: _ => none
  | k + 1, es, a :: as => if a ∈ es then addAll m k es as else match at? m a with
    | none => none
    | some (_, d) => addAll m k (a :: es) (along m d ++ as)

/-- The number of all handles and weak handles in data. -/
def links (m : Mem) : Nat := ((List.range m.length).map fun a => match at? m a with | none => 0 | some (_, d) => (along m d).length).sum

/-- A function on data as a step: `none` is the use of destroyed data -/
def orFreed {α : Type} : Option α → Except Fault α
  | none => .error .freed
  | some x => .ok x

/-- Replacing data by other data of its class: new handles are made first, old ones destroyed then; Lanelet.cpp 257-273, Lanelet.h 286-302, Area.h 85-93,
LineString.h 413-496, RegulatoryElement.h 283-292 -/
def assign (m : Mem) (a : Addr) (old new : Data) : Option Mem :=
  match acquire new.strong m with
  | none => none
  | some m' => match at? m' a with
    | none => none
    | some (k, _) => release old.strong (m'.set a (some (k, new)))

/-- One step; places as at `Stmt`. Handles stored by `new` and `set` are copies of handles of the program, or stay as they
are; weak handles are made from handles (Lanelet.h 323, 345, Area.h 278, 303). -/
def step (s : St) : Stmt → Except Fault St
  | .new d =>
    if fits s.mem d && d.strong.all (· ∈ s.vars) && d.weak.all (· ∈ s.vars) then do
      let m ← orFreed (acquire d.strong s.mem)
      return ⟨m ++ [some (1, d)], m.length :: s.vars⟩
    else .error .invalid
  | .copy i => match s.vars[i]? with
    | none => .error .invalid
    | some a => do
      let m ← orFreed (acquire [a] s.mem)
      return ⟨m, a :: s.vars⟩
  | .get i j => match s.vars[i]? with
    | none => .error .invalid
    | some a => match at? s.mem a with
      | none => .error .freed
      | some (_, d) => match d.strong[j]? with
        | none => .error .invalid
        | some b => do
          let m ← orFreed (acquire [b] s.mem)
          return ⟨m, b :: s.vars⟩
  | .lock i j => match s.vars[i]? with
    | none => .error .invalid
    | some a => match at? s.mem a with
      | none => .error .freed
      | some (_, d) => match d.weak[j]? with
        | none => .error .invalid
        | some b => match acquire [b] s.mem with
          | none => .error .expired
          | some m => .ok ⟨m, b :: s.vars⟩
  | .drop i => match s.vars[i]? with
    | none => .error .invalid
    | some a => do
      let m ← orFreed (release [a] s.mem)
      return ⟨m, s.vars.eraseIdx i⟩
  | .set i d => match s.vars[i]? with
    | none => .error .invalid
    | some a => match at? s.mem a with
      | none => .error .freed
      | some (_, old) =>
        if fits s.mem d && decide (d.kind = old.kind) && !d.kind.isMap && d.strong.all (fun b => b ∈ s.vars || b ∈ old.strong) &&
            d.weak.all (fun b => b ∈ s.vars || b ∈ old.weak) then do
          let m ← orFreed (assign s.mem a old d)
          return ⟨m, s.vars⟩
        else .error .invalid
  | .add i j => match s.vars[i]?, s.vars[j]? with
    | some a, some b => match at? s.mem a, at? s.mem b with
      | some (_, .submap es ts), some (_, d) =>
        if d.kind.isMap then .error .invalid
        else do
          let m ← orFreed (assign s.mem a (.submap es ts) (.submap (b :: es) (keeps s.mem d ++ ts)))
          return ⟨m, s.vars⟩
      | none, _ => .error .freed
      | _, none => .error .freed
      | _, _ => .error .invalid
    | _, _ => .error .invalid
  | .addMap i j => match s.vars[i]?, s.vars[j]? with
    | some a, some b => match at? s.mem a, at? s.mem b with
      | some (_, .map es), some (_, d) =>
        if d.kind.isMap then .error .invalid
        else do
          let es' ← orFreed (addAll s.mem (1 + links s.mem) es [b])
          let m ← orFreed (assign s.mem a (.map es) (.map es'))
          return ⟨m, s.vars⟩
      | none, _ => .error .freed
      | _, none => .error .freed
      | _, _ => .error .invalid
    | _, _ => .error .invalid

/-- A program; places as at `Stmt` -/
def run : List Stmt → St → Except Fault St
  | [], s => .ok s
  | c :: cs, s => match step s c with
    | .error e => .error e
    | .ok s' => run cs s'

/-! ### Specification -/

/-- Specification. The data is not destroyed. -/
def Alive (s : St) (a : Addr) : Prop := ∃ n d, at? s.mem a = some (n, d)

/-- Specification. The data has a handle of `b`. -/
def Data.Holds (d : Data) (b : Addr) : Prop := match d with
  | .point => False
  | .line ps => b ∈ ps
  | .reg ps => .point b ∈ ps ∨ .line b ∈ ps
  | .lanelet l r c rs => b = l ∨ b = r ∨ c = some b ∨ b ∈ rs
  | .area o i rs => b ∈ o ∨ (∃ ring ∈ i, b ∈ ring) ∨ b ∈ rs
  | .submap es ts => b ∈ es ∨ b ∈ ts
  | .map es => b ∈ es

/-- Specification. The data is a regulatory element with the lanelet or area `b` as parameter. -/
def Data.Names (d : Data) (b : Addr) : Prop := ∃ ps, d = .reg ps ∧ (.lanelet b ∈ ps ∨ .area b ∈ ps)

/-- Specification. A handle of the program leads to the data, by the handles in data. -/
inductive Reach (s : St) : Addr → Prop where
  | handle {a : Addr} : a ∈ s.vars → Reach s a
  | field {a b : Addr} {n : Nat} {d : Data} : Reach s a → at? s.mem a = some (n, d) → d.Holds b → Reach s b

/-- Specification. Before the program -/
def start : St := ⟨[], []⟩

/-- Specification. The regulatory elements of a lanelet or area. -/
def Data.regs : Data → List Addr
  | .lanelet _ _ _ rs => rs
  | .area _ _ rs => rs
  | _ => []

/-- Specification. `b` is a lanelet or area that a regulatory element refers to; the regulatory element is `e` or one of those of `e`. -/
def RefersTo (s : St) (e b : Addr) : Prop := ∃ r n d, at? s.mem r = some (n, d) ∧ d.Names b ∧
  (r = e ∨ ∃ k c, at? s.mem e = some (k, c) ∧ r ∈ c.regs)

/-- Specification. What the element `e` leads to at the state `s`: by handles, and by weak handles that are not expired. What is in `es` already is not
followed. -/
inductive Uses (s : St) (es : List Addr) (e : Addr) : Addr → Prop where
  | self : e ∉ es → Uses s es e e
  | link {a b : Addr} {n : Nat} {d : Data} : Uses s es e a → at? s.mem a = some (n, d) → d.Holds b ∨ d.Names b ∧ Alive s b → b ∉ es →
      Uses s es e b

/-! ### Proofs -/

theorem mem_strong {d : Data} {b : Addr} : b ∈ d.strong ↔ d.Holds b := by
  cases d with
  | point => simp [Data.strong, Data.Holds]
  | line ps => simp [Data.strong, Data.Holds]
  | reg ps =>
    simp only [Data.strong, Data.Holds, List.mem_filterMap]
    constructor
    · rintro ⟨p, hp, hb⟩
      cases p <;> simp at hb <;> subst hb <;> simp [hp]
    · rintro (h | h)
      · exact ⟨_, h, rfl⟩
      · exact ⟨_, h, rfl⟩
  | lanelet l r c rs => simp [Data.strong, Data.Holds]
  | area o i rs => simp [Data.strong, Data.Holds]
  | submap es ts => simp [Data.strong, Data.Holds]
  | map es => simp [Data.strong, Data.Holds]

theorem mem_weak {d : Data} {b : Addr} : b ∈ d.weak ↔ d.Names b := by
  cases d with
  | reg ps =>
    simp only [Data.weak, Data.Names, List.mem_filterMap, Data.reg.injEq, exists_eq_left']
    constructor
    · rintro ⟨p, hp, hb⟩
      cases p <;> simp at hb <;> subst hb <;> simp [hp]
    · rintro (h | h)
      · exact ⟨_, h, rfl⟩
      · exact ⟨_, h, rfl⟩
  | _ => simp [Data.weak, Data.Names]

/-- Helper of the proofs. Classes that can hold handles of others are above them. -/
def Kind.rank : Kind → Nat
  | .point => 0
  | .line => 1
  | .reg => 2
  | .lanelet => 3
  | .area => 3
  | .submap => 4
  | .map => 4

theorem Kind.rank_lt {k : Kind} : k.isMap = false ↔ k.rank < 4 := by cases k <;> decide

/-- Helper of the proofs. The number of handles to a place in all data. -/
def refs (m : Mem) (a : Addr) : Nat := (m.map fun c => match c with | none => 0 | some (_, d) => d.strong.count a).sum

/-- Helper of the proofs. Use counts are right, nothing refers to destroyed data, and data refers to data of lower classes. -/
structure Inv (m : Mem) (hs : List Addr) : Prop where
  count : ∀ a n d, at? m a = some (n, d) → n = hs.count a + refs m a ∧ 0 < n
  handles : ∀ a ∈ hs, ∃ c, at? m a = some c
  fields : ∀ a n d, at? m a = some (n, d) → ∀ b ∈ d.strong, ∃ k e, at? m b = some (k, e) ∧ e.kind.rank < d.kind.rank

theorem at?_eq_some {m : Mem} {a : Addr} {c : Nat × Data} : at? m a = some c ↔ m[a]? = some (some c) := by
  simp [at?, Option.join_eq_some_iff]

theorem at?_set {m : Mem} {a : Addr} {c c' : Option (Nat × Data)} (h : m[a]? = some c) (b : Addr) :
    at? (m.set a c') b = if b = a then c' else at? m b := by
  obtain ⟨hl, _⟩ := List.getElem?_eq_some_iff.1 h
  unfold at?
  by_cases hb : b = a
  · subst hb; simp [hl]
  · rw [List.getElem?_set_ne (fun h => hb h.symm)]; simp [hb]

theorem sum_set (l : List Nat) (i : Nat) (x y : Nat) (h : l[i]? = some x) : (l.set i y).sum + x = l.sum + y := by
  induction l generalizing i with
  | nil => simp at h
  | cons z l ih =>
    cases i with
    | zero => simp at h; subst h; simp; omega
    | succ i => simp only [List.getElem?_cons_succ] at h; have := ih i h; simp; omega

theorem size_set {m : Mem} {a : Addr} {n : Nat} {d : Data} (h : at? m a = some (n, d)) (c : Option (Nat × Data)) :
    size (m.set a c) + d.strong.length = size m + (match c with | none => 0 | some (_, e) => e.strong.length) := by
  unfold size
  rw [List.map_set]
  exact sum_set _ a _ _ (by rw [List.getElem?_map, at?_eq_some.1 h]; rfl)

theorem refs_set {m : Mem} {a : Addr} {n : Nat} {d : Data} (h : at? m a = some (n, d)) (c : Option (Nat × Data)) (b : Addr) :
    refs (m.set a c) b + d.strong.count b = refs m b + (match c with | none => 0 | some (_, e) => e.strong.count b) := by
  unfold refs
  rw [List.map_set]
  exact sum_set _ a _ _ (by rw [List.getElem?_map, at?_eq_some.1 h]; rfl)

theorem refs_pos {m : Mem} {b : Addr} : 0 < refs m b ↔ ∃ a n d, at? m a = some (n, d) ∧ b ∈ d.strong := by
  unfold refs
  rw [List.sum_pos_iff_exists_pos_nat]
  constructor
  · rintro ⟨x, hx, hpos⟩
    obtain ⟨c, hc, rfl⟩ := List.mem_map.1 hx
    cases c with
    | none => simp at hpos
    | some c =>
      obtain ⟨a, ha⟩ := List.mem_iff_getElem?.1 hc
      exact ⟨a, c.1, c.2, at?_eq_some.2 ha, List.count_pos_iff.1 hpos⟩
  · rintro ⟨a, n, d, h, hb⟩
    exact ⟨_, List.mem_map.2 ⟨_, List.mem_iff_getElem?.2 ⟨a, at?_eq_some.1 h⟩, rfl⟩, List.count_pos_iff.2 hb⟩

/-- Helper of the proofs. The same data, apart from destroyed one. -/
def Shrinks (m m' : Mem) : Prop := m'.length = m.length ∧ ∀ a k e, at? m' a = some (k, e) → ∃ n, at? m a = some (n, e)

theorem releaseN_spec (k : Nat) (as : List Addr) (m : Mem) (hs : List Addr) (hk : as.length + size m ≤ k) (h : Inv m (as ++ hs)) :
    ∃ m', releaseN k as m = some m' ∧ Inv m' hs ∧ Shrinks m m' := by
  induction k generalizing as m with
  | zero =>
    have : as = [] := by cases as with | nil => rfl | cons => simp at hk
    subst this
    exact ⟨m, by rw [releaseN], h, rfl, fun a k e h => ⟨k, h⟩⟩
  | succ k ih =>
    cases as with
    | nil => exact ⟨m, by rw [releaseN], h, rfl, fun a k e h => ⟨k, h⟩⟩
    | cons a as =>
      obtain ⟨⟨n, d⟩, hd⟩ := h.handles a (by simp)
      have hd' := at?_eq_some.1 hd
      obtain ⟨hn, hpos⟩ := h.count a n d hd
      rw [List.cons_append, List.count_cons_self] at hn
      rw [releaseN, hd]
      simp only []
      by_cases h1 : n = 1
      · rw [if_pos h1]
        have hc0 : (as ++ hs).count a = 0 := by omega
        have hr0 : refs m a = 0 := by omega
        have hnm : a ∉ as ++ hs := List.count_eq_zero.1 hc0
        have hnf : ∀ b n d, at? m b = some (n, d) → a ∉ d.strong := fun b n d hb hm => by
          have := refs_pos.2 ⟨b, n, d, hb, hm⟩; omega
        obtain ⟨m', hm', hi, hs'⟩ := ih (d.strong ++ as) (m.set a none) (by
          have := size_set hd none
          simp only [List.length_append, List.length_cons] at *; omega) (by
          refine ⟨fun b k e hb => ?_, fun b hb => ?_, fun b k e hb c hc => ?_⟩
          · rw [at?_set hd'] at hb
            split at hb
            · cases hb
            · next hne =>
              obtain ⟨h2, h3⟩ := h.count b k e hb
              have := refs_set hd none b
              rw [List.cons_append, List.count_cons_of_ne (Ne.symm hne)] at h2
              rw [List.append_assoc, List.count_append]
              simp only [] at this
              omega
          · rw [List.append_assoc, List.mem_append] at hb
            have hne : b ≠ a := by
              rintro rfl
              rcases hb with hb | hb
              · exact hnf b n d hd hb
              · exact hnm hb
            rw [at?_set hd', if_neg hne]
            rcases hb with hb | hb
            · obtain ⟨k, e, he, _⟩ := h.fields a n d hd b hb
              exact ⟨_, he⟩
            · exact h.handles b (by simp only [List.cons_append, List.mem_cons]; exact .inr hb)
          · rw [at?_set hd'] at hb
            split at hb
            · cases hb
            · obtain ⟨k', e', he', hr⟩ := h.fields b k e hb c hc
              refine ⟨k', e', ?_, hr⟩
              rw [at?_set hd', if_neg]
              · exact he'
              · rintro rfl; exact hnf b k e hb hc)
        refine ⟨m', hm', hi, by rw [hs'.1, List.length_set], fun b k e hb => ?_⟩
        obtain ⟨k', hk'⟩ := hs'.2 b k e hb
        rw [at?_set hd'] at hk'
        split at hk'
        · cases hk'
        · exact ⟨k', hk'⟩
      · rw [if_neg h1]
        have hrefs : ∀ b, refs (m.set a (some (n - 1, d))) b = refs m b := fun b => by
          have := refs_set hd (some (n - 1, d)) b
          simp only [] at this; omega
        have hat : ∀ b k e, at? (m.set a (some (n - 1, d))) b = some (k, e) → ∃ k', at? m b = some (k', e) := by
          intro b k e hb
          rw [at?_set hd'] at hb
          split at hb
          · next hba => cases hb; exact ⟨n, hba ▸ hd⟩
          · exact ⟨k, hb⟩
        have hat' : ∀ b k e, at? m b = some (k, e) → ∃ k', at? (m.set a (some (n - 1, d))) b = some (k', e) := by
          intro b k e hb
          rw [at?_set hd']
          by_cases hba : b = a
          · subst hba; rw [hd] at hb; cases hb; exact ⟨n - 1, by simp⟩
          · exact ⟨k, by simpa [hba] using hb⟩
        obtain ⟨m', hm', hi, hs'⟩ := ih as (m.set a (some (n - 1, d))) (by
          have := size_set hd (some (n - 1, d))
          simp only [List.length_cons] at *; omega) (by
          refine ⟨fun b k e hb => ?_, fun b hb => ?_, fun b k e hb c hc => ?_⟩
          · rw [hrefs]
            rw [at?_set hd'] at hb
            split at hb
            · next hba => cases hb; subst hba; omega
            · next hne =>
              obtain ⟨h2, h3⟩ := h.count b k e hb
              rw [List.cons_append, List.count_cons_of_ne (Ne.symm hne)] at h2
              exact ⟨h2, h3⟩
          · obtain ⟨⟨k, e⟩, he⟩ := h.handles b (by simp only [List.cons_append, List.mem_cons]; exact .inr hb)
            obtain ⟨k', hk'⟩ := hat' b k e he
            exact ⟨_, hk'⟩
          · obtain ⟨k0, hk0⟩ := hat b k e hb
            obtain ⟨k', e', he', hr⟩ := h.fields b k0 e hk0 c hc
            obtain ⟨k'', hk''⟩ := hat' c k' e' he'
            exact ⟨k'', e', hk'', hr⟩)
        refine ⟨m', hm', hi, by rw [hs'.1, List.length_set], fun b k e hb => ?_⟩
        obtain ⟨k', hk'⟩ := hs'.2 b k e hb
        exact hat b k' e hk'

theorem release_spec (as : List Addr) (m : Mem) (hs : List Addr) (h : Inv m (as ++ hs)) :
    ∃ m', release as m = some m' ∧ Inv m' hs ∧ Shrinks m m' := releaseN_spec _ as m hs (Nat.le_refl _) h

/-- Helper of the proofs. The same data. -/
def Same (m m' : Mem) : Prop := m'.length = m.length ∧ ∀ a e, (∃ k, at? m a = some (k, e)) ↔ ∃ k, at? m' a = some (k, e)

theorem acquire_spec (as : List Addr) (m : Mem) (hs : List Addr) (h : Inv m hs) (ha : ∀ a ∈ as, ∃ c, at? m a = some c) :
    ∃ m', acquire as m = some m' ∧ Inv m' (as ++ hs) ∧ Same m m' := by
  induction as generalizing m hs with
  | nil => exact ⟨m, rfl, h, rfl, fun _ _ => Iff.rfl⟩
  | cons a as ih =>
    obtain ⟨⟨n, d⟩, hd⟩ := ha a (by simp)
    have hd' := at?_eq_some.1 hd
    rw [acquire, hd]
    simp only []
    have hrefs : ∀ b, refs (m.set a (some (n + 1, d))) b = refs m b := fun b => by
      have := refs_set hd (some (n + 1, d)) b
      simp only [] at this; omega
    have hat : ∀ b e, (∃ k, at? m b = some (k, e)) ↔ ∃ k, at? (m.set a (some (n + 1, d))) b = some (k, e) := by
      intro b e
      rw [at?_set hd']
      by_cases hba : b = a
      · subst hba; simp [hd]
      · simp [hba]
    obtain ⟨m', hm', hi, hs'⟩ := ih (m.set a (some (n + 1, d))) (a :: hs) (by
      refine ⟨fun b k e hb => ?_, fun b hb => ?_, fun b k e hb c hc => ?_⟩
      · rw [hrefs]
        rw [at?_set hd'] at hb
        split at hb
        · next hba =>
          cases hb; subst hba
          obtain ⟨h2, h3⟩ := h.count b n d hd
          rw [List.count_cons_self]; omega
        · next hne =>
          obtain ⟨h2, h3⟩ := h.count b k e hb
          rw [List.count_cons_of_ne (Ne.symm hne)]
          exact ⟨h2, h3⟩
      · have : ∃ c, at? m b = some c := by
          rcases List.mem_cons.1 hb with rfl | hb
          · exact ⟨_, hd⟩
          · exact h.handles b hb
        obtain ⟨⟨k, e⟩, he⟩ := this
        obtain ⟨k', hk'⟩ := (hat b e).1 ⟨k, he⟩
        exact ⟨_, hk'⟩
      · obtain ⟨k0, hk0⟩ := (hat b e).2 ⟨k, hb⟩
        obtain ⟨k', e', he', hr⟩ := h.fields b k0 e hk0 c hc
        obtain ⟨k'', hk''⟩ := (hat c e').1 ⟨k', he'⟩
        exact ⟨k'', e', hk'', hr⟩) (by
      intro b hb
      obtain ⟨⟨k, e⟩, he⟩ := ha b (List.mem_cons_of_mem _ hb)
      obtain ⟨k', hk'⟩ := (hat b e).1 ⟨k, he⟩
      exact ⟨_, hk'⟩)
    refine ⟨m', hm', ?_, by rw [hs'.1, List.length_set], fun b e => (hat b e).trans (hs'.2 b e)⟩
    have hp : ∀ b, (as ++ a :: hs).count b = (a :: as ++ hs).count b := fun b => by
      simp only [List.count_append, List.count_cons, List.cons_append]; omega
    refine ⟨fun b k e hb => by rw [← hp]; exact hi.count b k e hb, fun b hb => hi.handles b ?_, hi.fields⟩
    simp only [List.cons_append, List.mem_cons, List.mem_append] at hb ⊢
    tauto

theorem assign_spec (m : Mem) (hs : List Addr) (a : Addr) (n : Nat) (old new : Data) (h : Inv m hs) (ha : at? m a = some (n, old))
    (hk : new.kind = old.kind) (hf : ∀ b ∈ new.strong, ∃ k e, at? m b = some (k, e) ∧ e.kind.rank < new.kind.rank) :
    ∃ m', assign m a old new = some m' ∧ Inv m' hs ∧ m'.length = m.length ∧
      ∀ b k e, at? m' b = some (k, e) → if b = a then e = new else ∃ n, at? m b = some (n, e) := by
  obtain ⟨m1, hm1, hi1, hl1, hs1⟩ := acquire_spec new.strong m hs h fun b hb => by
    obtain ⟨k, e, he, _⟩ := hf b hb; exact ⟨_, he⟩
  obtain ⟨k1, hk1⟩ := (hs1 a old).1 ⟨n, ha⟩
  have hk1' := at?_eq_some.1 hk1
  have hat : ∀ b e, b ≠ a → ((∃ k, at? m b = some (k, e)) ↔ ∃ k, at? (m1.set a (some (k1, new))) b = some (k, e)) := by
    intro b e hb
    rw [at?_set hk1', if_neg hb]; exact hs1 b e
  have hal : ∀ b k e, at? m b = some (k, e) → ∃ k' e', at? (m1.set a (some (k1, new))) b = some (k', e') ∧ e'.kind = e.kind := by
    intro b k e hb
    by_cases hba : b = a
    · subst hba
      rw [ha] at hb; cases hb
      exact ⟨k1, new, by rw [at?_set hk1']; simp, hk⟩
    · obtain ⟨k', hk'⟩ := (hat b e hba).1 ⟨k, hb⟩
      exact ⟨k', e, hk', rfl⟩
  obtain ⟨m2, hm2, hi2, hl2, hs2⟩ := release_spec old.strong (m1.set a (some (k1, new))) hs (by
    refine ⟨fun b k e hb => ?_, fun b hb => ?_, fun b k e hb c hc => ?_⟩
    · have hr := refs_set hk1 (some (k1, new)) b
      simp only [] at hr
      have : ∃ e', at? m1 b = some (k, e') := by
        rw [at?_set hk1'] at hb
        split at hb
        · next hba => cases hb; exact ⟨old, hba ▸ hk1⟩
        · exact ⟨e, hb⟩
      obtain ⟨e', he'⟩ := this
      obtain ⟨h2, h3⟩ := hi1.count b k e' he'
      rw [List.count_append] at h2 ⊢
      omega
    · have : ∃ c, at? m b = some c := by
        rcases List.mem_append.1 hb with hb | hb
        · obtain ⟨k, e, he, _⟩ := h.fields a n old ha b hb; exact ⟨_, he⟩
        · exact h.handles b hb
      obtain ⟨⟨k, e⟩, he⟩ := this
      obtain ⟨k', e', he', _⟩ := hal b k e he
      exact ⟨_, he'⟩
    · by_cases hba : b = a
      · subst hba
        rw [at?_set hk1', if_pos rfl] at hb
        cases hb
        obtain ⟨k', e', he', hr⟩ := hf c hc
        obtain ⟨k2, e2, he2, hk2⟩ := hal c k' e' he'
        exact ⟨k2, e2, he2, hk2 ▸ hr⟩
      · obtain ⟨k0, hk0⟩ := (hat b e hba).2 ⟨k, hb⟩
        obtain ⟨k', e', he', hr⟩ := h.fields b k0 e hk0 c hc
        obtain ⟨k2, e2, he2, hk2⟩ := hal c k' e' he'
        exact ⟨k2, e2, he2, hk2 ▸ hr⟩)
  refine ⟨m2, ?_, hi2, by rw [hl2, List.length_set, hl1], fun b k e hb => ?_⟩
  · unfold assign
    rw [hm1]; simp only [hk1]; exact hm2
  · obtain ⟨k', hk'⟩ := hs2 b k e hb
    rw [at?_set hk1'] at hk'
    split
    · next hba => rw [if_pos hba] at hk'; cases hk'; rfl
    · next hba => rw [if_neg hba] at hk'; exact (hs1 b e).2 ⟨k', hk'⟩

/-- Helper of the proofs. Weak handles were made from handles of lanelets and areas. -/
def Weak (m : Mem) : Prop := ∀ a n d, at? m a = some (n, d) → ∀ b ∈ d.weak, b < m.length ∧
  ∀ k e, at? m b = some (k, e) → e.kind = .lanelet ∨ e.kind = .area

theorem lt_of_at? {m : Mem} {a : Addr} {c : Nat × Data} (h : at? m a = some c) : a < m.length := by
  have := at?_eq_some.1 h
  exact (List.getElem?_eq_some_iff.1 this).1

/-- Helper of the proofs. -/
theorem fits_strong {m : Mem} {d : Data} (h : fits m d = true) (b : Addr) (hb : b ∈ d.strong) :
    ∃ k e, at? m b = some (k, e) ∧ e.kind.rank < d.kind.rank := by
  have key : ∀ k a, ((at? m a).map fun c => decide (c.2.kind = k)).getD false = true → ∃ n e, at? m a = some (n, e) ∧ e.kind = k := by
    intro k a h
    cases hc : at? m a with
    | none => rw [hc] at h; simp at h
    | some c => rw [hc] at h; exact ⟨c.1, c.2, rfl, by simpa using h⟩
  have fin : ∀ k, (∃ n e, at? m b = some (n, e) ∧ e.kind = k) → k.rank < d.kind.rank →
      ∃ k e, at? m b = some (k, e) ∧ e.kind.rank < d.kind.rank := by
    rintro k ⟨n, e, he, rfl⟩ h; exact ⟨n, e, he, h⟩
  cases d with
  | point => simp [Data.strong] at hb
  | line ps =>
    simp only [fits, List.all_eq_true] at h
    exact fin .point (key _ _ (h b hb)) (by simp [Data.kind, Kind.rank])
  | reg ps =>
    simp only [fits, List.all_eq_true] at h
    simp only [Data.strong, List.mem_filterMap] at hb
    obtain ⟨p, hp, hpb⟩ := hb
    have := h p hp
    cases p with
    | point a => simp only [Option.some.injEq] at hpb; subst hpb; exact fin .point (key _ _ this) (by simp [Data.kind, Kind.rank])
    | line a => simp only [Option.some.injEq] at hpb; subst hpb; exact fin .line (key _ _ this) (by simp [Data.kind, Kind.rank])
    | lanelet a => simp at hpb
    | area a => simp at hpb
  | lanelet l r c rs =>
    simp only [fits, Bool.and_eq_true, List.all_eq_true] at h
    obtain ⟨⟨⟨h1, h2⟩, h3⟩, h4⟩ := h
    simp only [Data.strong, List.mem_cons, List.mem_append] at hb
    rcases hb with rfl | rfl | hb | hb
    · exact fin .line (key _ _ h1) (by simp [Data.kind, Kind.rank])
    · exact fin .line (key _ _ h2) (by simp [Data.kind, Kind.rank])
    · exact fin .line (key _ _ (h3 b hb)) (by simp [Data.kind, Kind.rank])
    · exact fin .reg (key _ _ (h4 b hb)) (by simp [Data.kind, Kind.rank])
  | area o i rs =>
    simp only [fits, Bool.and_eq_true, List.all_eq_true] at h
    obtain ⟨⟨h1, h2⟩, h4⟩ := h
    simp only [Data.strong, List.mem_append, List.mem_flatten] at hb
    rcases hb with (hb | ⟨l, hl, hb⟩) | hb
    · exact fin .line (key _ _ (h1 b hb)) (by simp [Data.kind, Kind.rank])
    · exact fin .line (key _ _ (h2 l hl b hb)) (by simp [Data.kind, Kind.rank])
    · exact fin .reg (key _ _ (h4 b hb)) (by simp [Data.kind, Kind.rank])
  | submap es ts =>
    simp only [fits, Bool.and_eq_true, Bool.or_eq_true, List.all_eq_true] at h
    obtain ⟨h1, h2⟩ := h
    simp only [Data.strong, List.mem_append] at hb
    rcases hb with hb | hb
    · obtain ⟨h3, h4⟩ := h1 b hb
      cases hc : at? m b with
      | none => rw [hc] at h4; simp at h4
      | some c =>
        rw [hc] at h3
        refine ⟨c.1, c.2, rfl, ?_⟩
        refine Kind.rank_lt.1 ?_
        simpa [Kind.isMap] using h3
    · rcases h2 b hb with h | h
      · exact fin .lanelet (key _ _ h) (by simp [Data.kind, Kind.rank])
      · exact fin .area (key _ _ h) (by simp [Data.kind, Kind.rank])
  | map es =>
    simp only [fits, List.isEmpty_iff] at h
    simp [Data.strong, h] at hb

theorem fits_weak {m : Mem} {d : Data} (h : fits m d = true) (b : Addr) (hb : b ∈ d.weak) (k : Nat) (e : Data)
    (he : at? m b = some (k, e)) : e.kind = .lanelet ∨ e.kind = .area := by
  cases d with
  | reg ps =>
    simp only [fits, List.all_eq_true] at h
    simp only [Data.weak, List.mem_filterMap] at hb
    obtain ⟨p, hp, hpb⟩ := hb
    have := h p hp
    cases p with
    | point a => simp at hpb
    | line a => simp at hpb
    | lanelet a => simp only [Option.some.injEq] at hpb; subst hpb; simp only [he] at this; left; simpa using this
    | area a => simp only [Option.some.injEq] at hpb; subst hpb; simp only [he] at this; right; simpa using this
  | _ => simp [Data.weak] at hb

/-- Helper of the proofs. What each step keeps. -/
def Good (s : St) : Prop := Inv s.mem s.vars ∧ Weak s.mem

/-- Helper of the proofs. Memory grows only by new data; data stays as it is, apart from changed data of its class, and maps only grow. -/
def Evolves (m m' : Mem) : Prop := m.length ≤ m'.length ∧ ∀ a < m.length, ∀ k e, at? m' a = some (k, e) →
  ∃ n d, at? m a = some (n, d) ∧ e.kind = d.kind ∧ (d.kind.isMap = true → ∀ b ∈ d.strong, b ∈ e.strong)

theorem Evolves.refl (m : Mem) : Evolves m m := ⟨Nat.le_refl _, fun _ _ k e h => ⟨k, e, h, rfl, fun _ _ h => h⟩⟩

theorem Evolves.trans {m1 m2 m3 : Mem} (h1 : Evolves m1 m2) (h2 : Evolves m2 m3) : Evolves m1 m3 := by
  refine ⟨Nat.le_trans h1.1 h2.1, fun a ha k e he => ?_⟩
  obtain ⟨n, d, hd, hk, hs⟩ := h2.2 a (Nat.lt_of_lt_of_le ha h1.1) k e he
  obtain ⟨n', d', hd', hk', hs'⟩ := h1.2 a ha n d hd
  exact ⟨n', d', hd', hk.trans hk', fun hh b hb => hs (hk' ▸ hh) b (hs' hh b hb)⟩

theorem weak_of {m m' : Mem} (h : Weak m) (hl : m'.length = m.length) (hs : ∀ b k e, at? m' b = some (k, e) → ∃ n, at? m b = some (n, e)) :
    Weak m' := by
  intro a n d hd b hb
  obtain ⟨n', hn'⟩ := hs a n d hd
  obtain ⟨h1, h2⟩ := h a n' d hn' b hb
  refine ⟨hl ▸ h1, fun k e he => ?_⟩
  obtain ⟨k', hk'⟩ := hs b k e he
  exact h2 k' e hk'

theorem evolves_of {m m' : Mem} (hl : m'.length = m.length) (hs : ∀ b k e, at? m' b = some (k, e) → ∃ n, at? m b = some (n, e)) :
    Evolves m m' := by
  refine ⟨Nat.le_of_eq hl.symm, fun a _ k e he => ?_⟩
  obtain ⟨n, hn⟩ := hs a k e he
  exact ⟨n, e, hn, rfl, fun _ _ h => h⟩

theorem same_weaken {m m' : Mem} (h : Same m m') : ∀ b k e, at? m' b = some (k, e) → ∃ n, at? m b = some (n, e) :=
  fun b k e hb => (h.2 b e).2 ⟨k, hb⟩

/-- Helper of the proofs. -/
theorem acquire_one {s : St} (h : Good s) (a : Addr) (ha : ∃ c, at? s.mem a = some c) :
    ∃ m, acquire [a] s.mem = some m ∧ Good ⟨m, a :: s.vars⟩ ∧ Evolves s.mem m := by
  obtain ⟨m, hm, hi, hs⟩ := acquire_spec [a] s.mem s.vars h.1 (by simpa using ha)
  exact ⟨m, hm, ⟨hi, weak_of h.2 hs.1 (same_weaken hs)⟩, evolves_of hs.1 (same_weaken hs)⟩

theorem acquire_none {m : Mem} {a : Addr} : acquire [a] m = none ↔ at? m a = none := by
  cases h : at? m a with
  | none => simp [acquire, h]
  | some c => simp [acquire, h]

theorem mem_keeps {m : Mem} {d : Data} {b : Addr} (hb : b ∈ keeps m d) :
    (at? m b).isSome = true ∧ (b ∈ d.weak ∨ ∃ r n e, at? m r = some (n, e) ∧ b ∈ e.weak) := by
  have key : ∀ e, b ∈ tracked m e → (at? m b).isSome = true ∧ b ∈ e.weak := by
    intro e he
    cases e with
    | reg ps => exact (List.mem_filter.1 he).symm
    | _ => simp [tracked] at he
  have key2 : ∀ rs : List Addr, (b ∈ rs.flatMap fun r => ((at? m r).map fun c => tracked m c.2).getD []) →
      (at? m b).isSome = true ∧ ∃ r n e, at? m r = some (n, e) ∧ b ∈ e.weak := by
    intro rs h
    obtain ⟨r, _, hr⟩ := List.mem_flatMap.1 h
    cases hc : at? m r with
    | none => rw [hc] at hr; simp at hr
    | some c =>
      rw [hc] at hr
      obtain ⟨h1, h2⟩ := key c.2 hr
      exact ⟨h1, r, c.1, c.2, hc, h2⟩
  cases d with
  | reg ps => exact ⟨(key (.reg ps) hb).1, .inl (key (.reg ps) hb).2⟩
  | lanelet l r c rs => exact ⟨(key2 rs hb).1, .inr (key2 rs hb).2⟩
  | area o i rs => exact ⟨(key2 rs hb).1, .inr (key2 rs hb).2⟩
  | _ => simp [keeps] at hb

/-- Helper of the proofs. Maps grow. -/
theorem assign_grow {s : St} (h : Good s) (a : Addr) (n : Nat) (old new : Data) (hd : at? s.mem a = some (n, old)) (hk : new.kind = old.kind)
    (hr : new.kind.rank = 4) (hnw : new.weak = []) (hsub : ∀ b ∈ old.strong, b ∈ new.strong)
    (hf : ∀ b ∈ new.strong, ∃ k e, at? s.mem b = some (k, e) ∧ e.kind.rank < 4) :
    ∃ m, assign s.mem a old new = some m ∧ Good ⟨m, s.vars⟩ ∧ Evolves s.mem m ∧ m.length = s.mem.length ∧
      ∀ b k e, at? m b = some (k, e) → if b = a then e = new else ∃ n, at? s.mem b = some (n, e) := by
  obtain ⟨hi, hw⟩ := h
  obtain ⟨m, hm, hi', hl', hs'⟩ := assign_spec s.mem s.vars a n old new hi hd hk (hr ▸ hf)
  have hkind : ∀ b k e, at? m b = some (k, e) → ∃ n e', at? s.mem b = some (n, e') ∧ e.kind = e'.kind := by
    intro b k e hb
    have := hs' b k e hb
    split at this
    · next hba => subst hba; subst this; exact ⟨n, _, hd, hk⟩
    · obtain ⟨n', hn'⟩ := this; exact ⟨n', e, hn', rfl⟩
  refine ⟨m, hm, ⟨hi', ?_⟩, ⟨Nat.le_of_eq hl'.symm, fun x _ k e hb => ?_⟩, hl', hs'⟩
  · intro x k e hx c hc
    have := hs' x k e hx
    split at this
    · subst this; rw [hnw] at hc; simp at hc
    · obtain ⟨nx, hnx⟩ := this
      obtain ⟨h1, h2⟩ := hw x nx e hnx c hc
      refine ⟨hl' ▸ h1, fun k e he => ?_⟩
      obtain ⟨n', e', he', hk'⟩ := hkind c k e he
      exact hk' ▸ h2 n' e' he'
  · have := hs' x k e hb
    split at this
    · next hba => subst hba; subst this; exact ⟨n, _, hd, hk, fun _ => hsub⟩
    · obtain ⟨n', hn'⟩ := this
      exact ⟨n', e, hn', rfl, fun _ _ h => h⟩

theorem keeps_rank {s : St} (h : Good s) {a b n n' es ts d} (hd : at? s.mem a = some (n, .submap es ts)) (hd' : at? s.mem b = some (n', d))
    (hk : d.kind.isMap = false) (c : Addr) (hc : c ∈ (Data.submap (b :: es) (keeps s.mem d ++ ts)).strong) :
    ∃ k e, at? s.mem c = some (k, e) ∧ e.kind.rank < 4 := by
  obtain ⟨hi, hw⟩ := h
  simp only [Data.strong, List.cons_append, List.mem_cons, List.mem_append] at hc
  have hold : c ∈ (Data.submap es ts).strong → ∃ k e, at? s.mem c = some (k, e) ∧ e.kind.rank < 4 :=
    fun h => hi.fields a n _ hd c h
  rcases hc with rfl | hc | hc | hc
  · exact ⟨n', d, hd', Kind.rank_lt.1 hk⟩
  · exact hold (List.mem_append_left _ hc)
  · obtain ⟨hal, hwe⟩ := mem_keeps hc
    obtain ⟨⟨k, e⟩, he⟩ := Option.isSome_iff_exists.1 hal
    refine ⟨k, e, he, ?_⟩
    have : e.kind = .lanelet ∨ e.kind = .area := by
      rcases hwe with hwe | ⟨r, nr, er, hr, hwe⟩
      · exact (hw b n' d hd' c hwe).2 k e he
      · exact (hw r nr er hr c hwe).2 k e he
    rcases this with h | h <;> rw [h] <;> simp [Kind.rank]
  · exact hold (List.mem_append_right _ hc)

/-- Helper of the proofs. The handles and weak handles in data that is not yet in `es`. -/
def todo (m : Mem) (es : List Addr) (n : Nat) : Nat := ((List.range n).map fun a => if a ∈ es then 0 else
  match at? m a with | none => 0 | some (_, d) => (along m d).length).sum

theorem todo_cons (m : Mem) (es : List Addr) (a : Addr) (ha : a ∉ es) (c : Nat) (d : Data) (hd : at? m a = some (c, d)) (n : Nat) :
    todo m (a :: es) n + (if a < n then (along m d).length else 0) = todo m es n := by
  induction n with
  | zero => simp [todo]
  | succ n ih =>
    have hs : ∀ es, todo m es (n + 1) = todo m es n + (if n ∈ es then 0 else
        match at? m n with | none => 0 | some (_, d) => (along m d).length) := by
      intro es; simp [todo, List.range_succ]
    rw [hs, hs]
    by_cases hn : n = a
    · subst hn
      rw [if_neg (Nat.lt_irrefl _)] at ih
      simp only [List.mem_cons, true_or, if_true, ha, if_false, hd, Nat.lt_succ_self]
      omega
    · have h1 : (n ∈ a :: es) ↔ n ∈ es := by simp [hn]
      have h2 : (a < n + 1) ↔ a < n := by
        constructor
        · intro h; exact Nat.lt_of_le_of_ne (Nat.le_of_lt_succ h) (fun h => hn h.symm)
        · exact Nat.lt_succ_of_lt
      simp only [h1, h2]
      omega

theorem todo_nil (m : Mem) : todo m [] m.length = links m := by simp [todo, links]

theorem todo_le (m : Mem) (es : List Addr) (n : Nat) : todo m es n ≤ todo m [] n := by
  unfold todo
  induction n with
  | zero => simp
  | succ n ih =>
    simp only [List.range_succ, List.map_append, List.sum_append] at ih ⊢
    by_cases h : n ∈ es
    · simp [h]; simp at ih; omega
    · simp [h]; simp at ih; omega

theorem mem_along {m : Mem} {d : Data} {b : Addr} : b ∈ along m d ↔ b ∈ d.strong ∨ b ∈ d.weak ∧ (at? m b).isSome = true := by
  simp [along]

theorem Uses.mono {s : St} {es es' : List Addr} (h : ∀ a ∈ es, a ∈ es') {e x : Addr} (hu : Uses s es' e x) : Uses s es e x := by
  induction hu with
  | self hn => exact .self fun hh => hn (h _ hh)
  | link _ ha hb hn ih => exact .link ih ha hb fun hh => hn (h _ hh)

theorem Uses.trans {s : St} {es : List Addr} {e b x : Addr} (h1 : Uses s es e b) (h2 : Uses s es b x) : Uses s es e x := by
  induction h2 with
  | self _ => exact h1
  | link _ ha hb hn ih => exact .link ih ha hb hn

theorem alive_of_isSome {s : St} {b : Addr} : (at? s.mem b).isSome = true ↔ Alive s b := by
  constructor
  · intro h; obtain ⟨⟨n, d⟩, h⟩ := Option.isSome_iff_exists.1 h; exact ⟨n, d, h⟩
  · rintro ⟨n, d, h⟩; rw [h]; rfl

theorem addAll_spec {s : St} (hi : Inv s.mem s.vars) (k : Nat) (es as : List Addr) (hk : as.length + todo s.mem es s.mem.length ≤ k)
    (ha : ∀ a ∈ as, Alive s a) : ∃ es', addAll s.mem k es as = some es' ∧ (∀ x ∈ es, x ∈ es') ∧ (∀ x ∈ as, x ∈ es') ∧
      (∀ x ∈ es', x ∉ es → ∃ a ∈ as, Uses s es a x) ∧
      (∀ x ∈ es', x ∉ es → ∃ n d, at? s.mem x = some (n, d) ∧ ∀ b ∈ along s.mem d, b ∈ es') := by
  induction k generalizing es as with
  | zero =>
    cases as with
    | nil => exact ⟨es, rfl, fun _ h => h, by simp, fun x h hn => absurd h hn, fun x h hn => absurd h hn⟩
    | cons a as => simp at hk
  | succ k ih =>
    cases as with
    | nil => exact ⟨es, by rw [addAll], fun _ h => h, by simp, fun x h hn => absurd h hn, fun x h hn => absurd h hn⟩
    | cons a as =>
      rw [addAll]
      by_cases hae : a ∈ es
      · rw [if_pos hae]
        obtain ⟨es', h1, h2, h3, h4, h5⟩ := ih es as (by simp at hk; omega) fun x hx => ha x (List.mem_cons_of_mem _ hx)
        refine ⟨es', h1, h2, ?_, ?_, h5⟩
        · intro x hx
          rcases List.mem_cons.1 hx with rfl | hx
          · exact h2 x hae
          · exact h3 x hx
        · intro x hx hn
          obtain ⟨b, hb, hu⟩ := h4 x hx hn
          exact ⟨b, List.mem_cons_of_mem _ hb, hu⟩
      · rw [if_neg hae]
        obtain ⟨n, d, hd⟩ := ha a (by simp)
        rw [hd]
        have hpot := todo_cons s.mem es a hae n d hd s.mem.length
        rw [if_pos (lt_of_at? hd)] at hpot
        obtain ⟨es', h1, h2, h3, h4, h5⟩ := ih (a :: es) (along s.mem d ++ as) (by simp at hk ⊢; omega) (by
          intro x hx
          rcases List.mem_append.1 hx with hx | hx
          · rcases mem_along.1 hx with hx | hx
            · obtain ⟨k, e, he, _⟩ := hi.fields a n d hd x hx; exact ⟨k, e, he⟩
            · exact alive_of_isSome.1 hx.2
          · exact ha x (List.mem_cons_of_mem _ hx))
        refine ⟨es', h1, fun x hx => h2 x (List.mem_cons_of_mem _ hx), ?_, ?_, ?_⟩
        · intro x hx
          rcases List.mem_cons.1 hx with rfl | hx
          · exact h2 _ (by simp)
          · exact h3 x (List.mem_append_right _ hx)
        · intro x hx hn
          by_cases hxa : x = a
          · subst hxa; exact ⟨x, by simp, .self hae⟩
          · obtain ⟨b, hb, hu⟩ := h4 x hx (by simp [hxa, hn])
            have hu' := hu.mono (es := es) fun y hy => List.mem_cons_of_mem _ hy
            rcases List.mem_append.1 hb with hb | hb
            · refine ⟨a, by simp, ?_⟩
              have hbe : b ∉ es := by
                have : ∀ {x}, Uses s es b x → b ∉ es := by
                  intro x hu; induction hu with
                  | self h => exact h
                  | link _ _ _ _ ih => exact ih
                exact this hu'
              refine Uses.trans (.link (.self hae) hd ?_ hbe) hu'
              rcases mem_along.1 hb with h | h
              · exact .inl (mem_strong.1 h)
              · exact .inr ⟨mem_weak.1 h.1, alive_of_isSome.1 h.2⟩
            · exact ⟨b, List.mem_cons_of_mem _ hb, hu'⟩
        · intro x hx hn
          by_cases hxa : x = a
          · subst hxa; exact ⟨n, d, hd, fun b hb => h3 b (List.mem_append_left _ hb)⟩
          · exact h5 x hx (by simp [hxa, hn])

theorem uses_rank {s : St} (h : Good s) {b n' es d} (hd' : at? s.mem b = some (n', d)) (hk : d.kind.isMap = false) {x : Addr}
    (hu : Uses s es b x) : ∃ k e, at? s.mem x = some (k, e) ∧ e.kind.rank < 4 := by
  obtain ⟨hi, hw⟩ := h
  induction hu with
  | self _ => exact ⟨n', d, hd', Kind.rank_lt.1 hk⟩
  | link hu ha hb hn ih =>
    obtain ⟨k, e, he, hr⟩ := ih
    rw [ha] at he; cases he
    rcases hb with hb | ⟨hb, k2, e2, he2⟩
    · obtain ⟨k2, e2, he2, hr2⟩ := hi.fields _ _ _ ha _ (mem_strong.2 hb)
      exact ⟨k2, e2, he2, Nat.lt_trans hr2 hr⟩
    · refine ⟨k2, e2, he2, ?_⟩
      rcases (hw _ _ _ ha _ (mem_weak.2 hb)).2 k2 e2 he2 with h | h <;> rw [h] <;> simp [Kind.rank]

theorem addMap_spec {s : St} (h : Good s) {a b n n' es d} (hd : at? s.mem a = some (n, .map es)) (hd' : at? s.mem b = some (n', d))
    (hk : d.kind.isMap = false) : ∃ es', addAll s.mem (1 + links s.mem) es [b] = some es' ∧
      (∀ c ∈ (Data.map es').strong, ∃ k e, at? s.mem c = some (k, e) ∧ e.kind.rank < 4) ∧
      (∀ c ∈ (Data.map es).strong, c ∈ (Data.map es').strong) ∧ (∀ x, x ∈ es' ↔ x ∈ es ∨ Uses s es b x) ∧
      (∀ x ∈ es', x ∉ es → ∃ n d, at? s.mem x = some (n, d) ∧ ∀ b ∈ along s.mem d, b ∈ es') := by
  obtain ⟨hi, hw⟩ := h
  obtain ⟨es', h1, h2, h3, h4, h5⟩ := addAll_spec hi (1 + links s.mem) es [b]
    (by have := todo_le s.mem es s.mem.length; rw [todo_nil] at this; simp; omega) (by simpa using ⟨n', d, hd'⟩)
  have hrank := fun x => uses_rank (x := x) (es := es) ⟨hi, hw⟩ hd' hk
  refine ⟨es', h1, ?_, h2, ?_, h5⟩
  · intro c hc
    by_cases hce : c ∈ es
    · exact hi.fields a n _ hd c hce
    · obtain ⟨x, hx, hu⟩ := h4 c hc hce
      simp at hx; subst hx
      exact hrank c hu
  · intro x
    constructor
    · intro hx
      by_cases hce : x ∈ es
      · exact .inl hce
      · obtain ⟨y, hy, hu⟩ := h4 x hx hce
        simp at hy; subst hy
        exact .inr hu
    · rintro (hx | hu)
      · exact h2 x hx
      · have : x ∈ es' ∧ x ∉ es := by
          induction hu with
          | self hn => exact ⟨h3 b (by simp), hn⟩
          | link hu ha hb hn ih =>
            obtain ⟨n, d, hd, hall⟩ := h5 _ ih.1 ih.2
            rw [ha] at hd; cases hd
            refine ⟨hall _ (mem_along.2 ?_), hn⟩
            rcases hb with hb | hb
            · exact .inl (mem_strong.2 hb)
            · exact .inr ⟨mem_weak.2 hb.1, alive_of_isSome.2 hb.2⟩
        exact this.1

/-- Helper of the proofs. No step uses destroyed data, and each keeps the invariant. -/
theorem step_good (s : St) (h : Good s) (c : Stmt) :
    step s c ≠ .error .freed ∧ ∀ s', step s c = .ok s' → Good s' ∧ Evolves s.mem s'.mem := by
  obtain ⟨hi, hw⟩ := h
  cases c with
  | new d =>
    rw [step]
    split
    · next hc =>
      simp only [Bool.and_eq_true, List.all_eq_true, decide_eq_true_eq] at hc
      obtain ⟨⟨hf, hst⟩, hwk⟩ := hc
      obtain ⟨m, hm, hi1, hs1⟩ := acquire_spec d.strong s.mem s.vars hi fun b hb => hi.handles b (hst b hb)
      rw [hm]
      refine ⟨by simp [orFreed, bind, Except.bind, pure, Except.pure], fun s' hs' => ?_⟩
      simp only [orFreed, bind, Except.bind, pure, Except.pure, Except.ok.injEq] at hs'
      subst hs'
      have happ : ∀ b, b ≠ m.length → at? (m ++ [some (1, d)]) b = at? m b := by
        intro b hb
        unfold at?
        by_cases hlt : b < m.length
        · rw [List.getElem?_append_left hlt]
        · rw [List.getElem?_eq_none (by simp; omega), List.getElem?_eq_none (by omega)]
      have hnew : at? (m ++ [some (1, d)]) m.length = some (1, d) := by unfold at?; simp
      have hrefs : ∀ b, refs (m ++ [some (1, d)]) b = refs m b + d.strong.count b := by
        intro b; unfold refs; simp
      have hfresh : ∀ b c, at? m b = some c → b ≠ m.length := fun b c hb => Nat.ne_of_lt (lt_of_at? hb)
      have hnone : at? m m.length = none := by unfold at?; simp
      have hmemlt : ∀ b ∈ d.strong ++ s.vars, b ≠ m.length := fun b hb => by
        obtain ⟨c, hc⟩ := hi1.handles b hb; exact hfresh b c hc
      refine ⟨⟨⟨fun b k e hb => ?_, fun b hb => ?_, fun b k e hb c hc => ?_⟩, ?_⟩, ?_⟩
      · simp only [] at hb ⊢
        rw [hrefs]
        by_cases hbl : b = m.length
        · subst hbl
          rw [hnew] at hb; cases hb
          have h1 : s.vars.count m.length = 0 := List.count_eq_zero.2 fun hm => hmemlt _ (List.mem_append_right _ hm) rfl
          have h2 : d.strong.count m.length = 0 := List.count_eq_zero.2 fun hm => hmemlt _ (List.mem_append_left _ hm) rfl
          have h3 : refs m m.length = 0 := by
            rcases Nat.eq_zero_or_pos (refs m m.length) with h | h
            · exact h
            · obtain ⟨a, n, e, ha, hae⟩ := refs_pos.1 h
              obtain ⟨k, e', he', _⟩ := hi1.fields a n e ha _ hae
              rw [hnone] at he'; cases he'
          rw [List.count_cons_self, h1, h2, h3]; exact ⟨rfl, by omega⟩
        · rw [happ b hbl] at hb
          obtain ⟨h1, h2⟩ := hi1.count b k e hb
          rw [List.count_append] at h1
          rw [List.count_cons_of_ne (Ne.symm hbl)]
          omega
      · simp only [] at hb ⊢
        rcases List.mem_cons.1 hb with rfl | hb
        · exact ⟨_, hnew⟩
        · rw [happ b (hmemlt b (List.mem_append_right _ hb))]
          exact hi1.handles b (List.mem_append_right _ hb)
      · simp only [] at hb ⊢
        by_cases hbl : b = m.length
        · subst hbl
          rw [hnew] at hb; cases hb
          obtain ⟨k', e', he', hr⟩ := fits_strong hf c hc
          obtain ⟨k2, hk2⟩ := (hs1.2 c e').1 ⟨k', he'⟩
          exact ⟨k2, e', by rw [happ c (hfresh c _ hk2)]; exact hk2, hr⟩
        · rw [happ b hbl] at hb
          obtain ⟨k', e', he', hr⟩ := hi1.fields b k e hb c hc
          exact ⟨k', e', by rw [happ c (hfresh c _ he')]; exact he', hr⟩
      · intro a n e ha b hb
        simp only [] at ha ⊢
        have hlen : (m ++ [some (1, d)]).length = m.length + 1 := by simp
        by_cases hal : a = m.length
        · subst hal
          rw [hnew] at ha; cases ha
          have hbv := hwk b hb
          have hbne := hmemlt b (List.mem_append_right _ hbv)
          obtain ⟨c, hc⟩ := hi.handles b hbv
          have hlt := lt_of_at? hc
          refine ⟨by rw [hlen, hs1.1]; exact Nat.lt_succ_of_lt hlt, fun k e he => ?_⟩
          rw [happ b hbne] at he
          obtain ⟨k', hk'⟩ := (hs1.2 b e).2 ⟨k, he⟩
          exact fits_weak hf b hb k' e hk'
        · rw [happ a hal] at ha
          obtain ⟨n', hn'⟩ := (hs1.2 a e).2 ⟨n, ha⟩
          obtain ⟨h1, h2⟩ := hw a n' e hn' b hb
          refine ⟨by rw [hlen, hs1.1]; exact Nat.lt_succ_of_lt h1, fun k e' he => ?_⟩
          rw [happ b (by rw [hs1.1]; exact Nat.ne_of_lt h1)] at he
          obtain ⟨k', hk'⟩ := (hs1.2 b e').2 ⟨k, he⟩
          exact h2 k' e' hk'
      · refine ⟨by simp [hs1.1], fun a ha k e he => ?_⟩
        simp only [] at he
        rw [happ a (by rw [hs1.1]; omega)] at he
        obtain ⟨k', hk'⟩ := (hs1.2 a e).2 ⟨k, he⟩
        exact ⟨k', e, hk', rfl, fun _ _ h => h⟩
    · exact ⟨by simp, by simp⟩
  | copy i =>
    rw [step]
    cases hv : s.vars[i]? with
    | none => exact ⟨by simp, by simp⟩
    | some a =>
      obtain ⟨m, hm, hg, he⟩ := acquire_one ⟨hi, hw⟩ a (hi.handles a (List.mem_of_getElem? hv))
      simp only [hm]
      refine ⟨by simp [orFreed, bind, Except.bind, pure, Except.pure], fun s' hs' => ?_⟩
      simp only [orFreed, bind, Except.bind, pure, Except.pure, Except.ok.injEq] at hs'
      subst hs'; exact ⟨hg, he⟩
  | get i j =>
    rw [step]
    cases hv : s.vars[i]? with
    | none => exact ⟨by simp, by simp⟩
    | some a =>
      obtain ⟨⟨n, d⟩, hd⟩ := hi.handles a (List.mem_of_getElem? hv)
      simp only [hd]
      cases hj : d.strong[j]? with
      | none => exact ⟨by simp, by simp⟩
      | some b =>
        obtain ⟨k, e, hbe, _⟩ := hi.fields a n d hd b (List.mem_of_getElem? hj)
        obtain ⟨m, hm, hg, he⟩ := acquire_one ⟨hi, hw⟩ b ⟨_, hbe⟩
        simp only [hm]
        refine ⟨by simp [orFreed, bind, Except.bind, pure, Except.pure], fun s' hs' => ?_⟩
        simp only [orFreed, bind, Except.bind, pure, Except.pure, Except.ok.injEq] at hs'
        subst hs'; exact ⟨hg, he⟩
  | lock i j =>
    rw [step]
    cases hv : s.vars[i]? with
    | none => exact ⟨by simp, by simp⟩
    | some a =>
      obtain ⟨⟨n, d⟩, hd⟩ := hi.handles a (List.mem_of_getElem? hv)
      simp only [hd]
      cases hj : d.weak[j]? with
      | none => exact ⟨by simp, by simp⟩
      | some b =>
        cases hbe : at? s.mem b with
        | none => simp only [acquire_none.2 hbe]; exact ⟨by simp, by simp⟩
        | some c =>
          obtain ⟨m, hm, hg, he⟩ := acquire_one ⟨hi, hw⟩ b ⟨_, hbe⟩
          simp only [hm]
          refine ⟨by simp, fun s' hs' => ?_⟩
          simp only [Except.ok.injEq] at hs'
          subst hs'; exact ⟨hg, he⟩
  | drop i =>
    rw [step]
    cases hv : s.vars[i]? with
    | none => exact ⟨by simp, by simp⟩
    | some a =>
      have hperm : ∀ b, s.vars.count b = (a :: s.vars.eraseIdx i).count b := fun b => by
        obtain ⟨hlt, rfl⟩ := List.getElem?_eq_some_iff.1 hv
        exact (List.getElem_cons_eraseIdx_perm hlt).symm.count_eq b
      have hmem : ∀ b, b ∈ a :: s.vars.eraseIdx i → b ∈ s.vars := fun b hb => by
        rw [← List.count_pos_iff, hperm, List.count_pos_iff]; exact hb
      obtain ⟨m, hm, hi', hs'⟩ := release_spec [a] s.mem (s.vars.eraseIdx i)
        ⟨fun b k e hb => by rw [List.singleton_append, ← hperm]; exact hi.count b k e hb,
         fun b hb => hi.handles b (hmem b hb), hi.fields⟩
      simp only [hm]
      refine ⟨by simp [orFreed, bind, Except.bind, pure, Except.pure], fun s' hs'' => ?_⟩
      simp only [orFreed, bind, Except.bind, pure, Except.pure, Except.ok.injEq] at hs''
      subst hs''
      exact ⟨⟨hi', weak_of hw hs'.1 hs'.2⟩, evolves_of hs'.1 hs'.2⟩
  | set i d =>
    rw [step]
    cases hv : s.vars[i]? with
    | none => exact ⟨by simp, by simp⟩
    | some a =>
      obtain ⟨⟨n, old⟩, hd⟩ := hi.handles a (List.mem_of_getElem? hv)
      simp only [hd]
      split
      · next hc =>
        simp only [Bool.and_eq_true, List.all_eq_true, decide_eq_true_eq, Bool.or_eq_true, Bool.not_eq_true'] at hc
        obtain ⟨⟨⟨⟨hf, hk⟩, hsub⟩, hst⟩, hwk⟩ := hc
        obtain ⟨m, hm, hi', hl', hs'⟩ := assign_spec s.mem s.vars a n old d hi hd hk (fits_strong hf)
        simp only [hm]
        refine ⟨by simp [orFreed, bind, Except.bind, pure, Except.pure], fun s' hs'' => ?_⟩
        simp only [orFreed, bind, Except.bind, pure, Except.pure, Except.ok.injEq] at hs''
        subst hs''
        have hkind : ∀ b k e, at? m b = some (k, e) → ∃ n e', at? s.mem b = some (n, e') ∧ e.kind = e'.kind := by
          intro b k e hb
          have := hs' b k e hb
          split at this
          · next hba => subst hba; subst this; exact ⟨n, old, hd, hk⟩
          · obtain ⟨n', hn'⟩ := this; exact ⟨n', e, hn', rfl⟩
        refine ⟨⟨hi', ?_⟩, Nat.le_of_eq hl'.symm, fun b _ k e hb => ?_⟩
        · intro b k e hb c hc
          have hlt : c < s.mem.length ∧ ∀ k e, at? s.mem c = some (k, e) → e.kind = .lanelet ∨ e.kind = .area := by
            have := hs' b k e hb
            split at this
            · next hba =>
              subst this
              refine ⟨?_, fun k e he => fits_weak hf c hc k e he⟩
              rcases hwk c hc with h | h
              · obtain ⟨x, hx⟩ := hi.handles c h; exact lt_of_at? hx
              · exact (hw a n old hd c h).1
            · obtain ⟨n', hn'⟩ := this
              exact hw b n' e hn' c hc
          refine ⟨hl' ▸ hlt.1, fun k e he => ?_⟩
          obtain ⟨n', e', he', hk'⟩ := hkind c k e he
          exact hk' ▸ hlt.2 n' e' he'
        · have := hs' b k e hb
          split at this
          · next hba =>
            subst hba; subst this
            exact ⟨n, old, hd, hk, fun h => by rw [← hk, hsub] at h; cases h⟩
          · obtain ⟨n', hn'⟩ := this
            exact ⟨n', e, hn', rfl, fun _ _ h => h⟩
      · exact ⟨by simp, by simp⟩
  | add i j =>
    rw [step]
    cases hv : s.vars[i]? with
    | none => exact ⟨by simp, by simp⟩
    | some a =>
      cases hv' : s.vars[j]? with
      | none => exact ⟨by simp, by simp⟩
      | some b =>
        obtain ⟨⟨n, old⟩, hd⟩ := hi.handles a (List.mem_of_getElem? hv)
        obtain ⟨⟨n', d⟩, hd'⟩ := hi.handles b (List.mem_of_getElem? hv')
        simp only [hd, hd']
        cases old with
        | submap es ts =>
          simp only []
          split
          · exact ⟨by simp, by simp⟩
          · next hkd =>
            obtain ⟨m, hm, hg, hev, _⟩ := assign_grow ⟨hi, hw⟩ a n (.submap es ts) (.submap (b :: es) (keeps s.mem d ++ ts)) hd rfl rfl rfl
              (by intro y hy; simp only [Data.strong, List.cons_append, List.mem_cons, List.mem_append] at hy ⊢; tauto)
              (keeps_rank ⟨hi, hw⟩ hd hd' (by simpa using hkd))
            simp only [hm]
            refine ⟨by simp [orFreed, bind, Except.bind, pure, Except.pure], fun s' hs'' => ?_⟩
            simp only [orFreed, bind, Except.bind, pure, Except.pure, Except.ok.injEq] at hs''
            subst hs''
            exact ⟨hg, hev⟩
        | _ => exact ⟨by simp, by simp⟩
  | addMap i j =>
    rw [step]
    cases hv : s.vars[i]? with
    | none => exact ⟨by simp, by simp⟩
    | some a =>
      cases hv' : s.vars[j]? with
      | none => exact ⟨by simp, by simp⟩
      | some b =>
        obtain ⟨⟨n, old⟩, hd⟩ := hi.handles a (List.mem_of_getElem? hv)
        obtain ⟨⟨n', d⟩, hd'⟩ := hi.handles b (List.mem_of_getElem? hv')
        simp only [hd, hd']
        cases old with
        | map es =>
          simp only []
          split
          · exact ⟨by simp, by simp⟩
          · next hkd =>
            obtain ⟨es', hes, hr, hsub, _⟩ := addMap_spec ⟨hi, hw⟩ hd hd' (by simpa using hkd)
            obtain ⟨m, hm, hg, hev, _⟩ := assign_grow ⟨hi, hw⟩ a n (.map es) (.map es') hd rfl rfl rfl hsub hr
            simp only [hes, orFreed, bind, Except.bind, hm]
            refine ⟨by simp [pure, Except.pure], fun s' hs'' => ?_⟩
            simp only [pure, Except.pure, Except.ok.injEq] at hs''
            subst hs''
            exact ⟨hg, hev⟩
        | _ => exact ⟨by simp, by simp⟩

theorem run_append (cs ds : List Stmt) (s : St) : run (cs ++ ds) s = match run cs s with
    | .error e => .error e
    | .ok s' => run ds s' := by
  induction cs generalizing s with
  | nil => rfl
  | cons c cs ih =>
    simp only [List.cons_append, run]
    cases step s c with
    | error e => rfl
    | ok s' => exact ih s'

theorem run_good (cs : List Stmt) (s : St) (h : Good s) :
    run cs s ≠ .error .freed ∧ ∀ s', run cs s = .ok s' → Good s' ∧ Evolves s.mem s'.mem := by
  induction cs generalizing s with
  | nil => exact ⟨by simp [run], fun s' h' => by simp only [run, Except.ok.injEq] at h'; subst h'; exact ⟨h, .refl _⟩⟩
  | cons c cs ih =>
    obtain ⟨h1, h2⟩ := step_good s h c
    rw [run]
    cases hc : step s c with
    | error e => rw [hc] at h1; exact ⟨fun h => h1 (by simpa using h), by simp⟩
    | ok s1 =>
      obtain ⟨hg, he⟩ := h2 s1 hc
      obtain ⟨h3, h4⟩ := ih s1 hg
      exact ⟨h3, fun s' hs' => ⟨(h4 s' hs').1, he.trans (h4 s' hs').2⟩⟩

theorem good_start : Good start :=
  ⟨⟨fun a n d h => by simp [start, at?] at h, fun a h => by simp [start] at h, fun a n d h => by simp [start, at?] at h⟩,
   fun a n d h => by simp [start, at?] at h⟩

theorem alive_iff (s : St) (h : Good s) (a : Addr) : Alive s a ↔ Reach s a := by
  obtain ⟨hi, _⟩ := h
  constructor
  · have key : ∀ k a n d, at? s.mem a = some (n, d) → 4 - d.kind.rank ≤ k → Reach s a := by
      intro k
      induction k with
      | zero =>
        intro a n d had hk
        obtain ⟨hn, hpos⟩ := hi.count a n d had
        by_cases hv : a ∈ s.vars
        · exact .handle hv
        · have : 0 < refs s.mem a := by have := List.count_eq_zero.2 hv; omega
          obtain ⟨b, m, e, hb, hab⟩ := refs_pos.1 this
          obtain ⟨n', d', hd', hr⟩ := hi.fields b m e hb a hab
          rw [had] at hd'; cases hd'
          have : e.kind.rank ≤ 4 := by cases e.kind <;> simp [Kind.rank]
          omega
      | succ k ih =>
        intro a n d had hk
        obtain ⟨hn, hpos⟩ := hi.count a n d had
        by_cases hv : a ∈ s.vars
        · exact .handle hv
        · have : 0 < refs s.mem a := by have := List.count_eq_zero.2 hv; omega
          obtain ⟨b, m, e, hb, hab⟩ := refs_pos.1 this
          obtain ⟨n', d', hd', hr⟩ := hi.fields b m e hb a hab
          rw [had] at hd'; cases hd'
          exact .field (ih b m e hb (by omega)) hb (mem_strong.1 hab)
    rintro ⟨n, d, had⟩
    exact key _ a n d had (Nat.le_refl _)
  · intro hr
    induction hr with
    | handle hv => obtain ⟨⟨n, d⟩, h⟩ := hi.handles _ hv; exact ⟨n, d, h⟩
    | field _ ha hb _ => obtain ⟨k, e, he, _⟩ := hi.fields _ _ _ ha _ (mem_strong.2 hb); exact ⟨k, e, he⟩

/-- Primitives live exactly as long as a handle of the program leads to them. -/
theorem alive_iff_reach (cs : List Stmt) (s : St) (h : run cs start = .ok s) (a : Addr) : Alive s a ↔ Reach s a :=
  alive_iff s ((run_good cs start good_start).2 s h).1 a

/-- No program uses destroyed data. -/
theorem never_freed (cs : List Stmt) : run cs start ≠ .error .freed := (run_good cs start good_start).1

/-- When the last handle is gone, everything is destroyed. -/
theorem no_leak (cs : List Stmt) (s : St) (h : run cs start = .ok s) (hv : s.vars = []) (a : Addr) : ¬ Alive s a := by
  rw [alive_iff_reach cs s h]
  intro hr
  have : ∀ a, ¬ Reach s a := by
    intro a hr
    induction hr with
    | handle h => rw [hv] at h; simp at h
    | field _ _ _ ih => exact ih
  exact this a hr

/-- A weak handle gives its lanelet or area exactly while a handle of the program leads to it; otherwise NullptrError. -/
theorem lock_iff (cs : List Stmt) (s : St) (h : run cs start = .ok s) (i j : Nat) (a b : Addr) (n : Nat) (d : Data)
    (hi : s.vars[i]? = some a) (ha : at? s.mem a = some (n, d)) (hj : d.weak[j]? = some b) :
    ((∃ s', step s (.lock i j) = .ok s' ∧ s'.vars = b :: s.vars) ↔ Reach s b) ∧
    (step s (.lock i j) = .error .expired ↔ ¬ Reach s b) := by
  rw [← alive_iff_reach cs s h]
  have hstep : step s (.lock i j) = match acquire [b] s.mem with
      | none => .error .expired
      | some m => .ok ⟨m, b :: s.vars⟩ := by
    rw [step]; simp only [hi, ha, hj]
  cases hb : at? s.mem b with
  | none =>
    rw [hstep, acquire_none.2 hb]
    simp [Alive, hb]
  | some c =>
    cases hq : acquire [b] s.mem with
    | none => rw [acquire_none.1 hq] at hb; cases hb
    | some m =>
      rw [hstep, hq]
      have : Alive s b := ⟨c.1, c.2, hb⟩
      simp [this]

/-- Regulatory elements do not keep lanelets and areas: a program that has only points, linestrings and regulatory elements left finds all
of them expired. -/
theorem rules_do_not_own (cs : List Stmt) (s : St) (h : run cs start = .ok s)
    (hv : ∀ a ∈ s.vars, ∀ n d, at? s.mem a = some (n, d) → d.kind = .point ∨ d.kind = .line ∨ d.kind = .reg)
    (a : Addr) (n : Nat) (d : Data) (ha : at? s.mem a = some (n, d)) (b : Addr) (hb : d.Names b) : ¬ Alive s b := by
  obtain ⟨hi, hw⟩ := ((run_good cs start good_start).2 s h).1
  have key : ∀ b, Reach s b → ∀ k e, at? s.mem b = some (k, e) → e.kind.rank ≤ 2 := by
    intro b hr
    induction hr with
    | handle hb =>
      intro k e he
      rcases hv _ hb k e he with h | h | h <;> rw [h] <;> decide
    | field _ hb hm ih =>
      intro k e he
      obtain ⟨k', e', he', hlt⟩ := hi.fields _ _ _ hb _ (mem_strong.2 hm)
      rw [he] at he'; cases he'
      have := ih _ _ hb
      omega
  rintro ⟨k, c, hbc⟩
  have hr := (alive_iff_reach cs s h b).1 ⟨k, c, hbc⟩
  have h1 := key b hr k c hbc
  rcases (hw a n d ha b (mem_weak.2 hb)).2 k c hbc with h | h <;> rw [h] at h1 <;> simp [Kind.rank] at h1

theorem add_result (s s1 : St) (hg : Good s) (i j : Nat) (m e : Addr) (h : step s (.add i j) = .ok s1) (hm : s.vars[i]? = some m)
    (he : s.vars[j]? = some e) : ∃ k es ts n d, at? s1.mem m = some (k, .submap (e :: es) (keeps s.mem d ++ ts)) ∧ at? s.mem e = some (n, d) := by
  obtain ⟨hi, hw⟩ := hg
  obtain ⟨⟨n, old⟩, hd⟩ := hi.handles m (List.mem_of_getElem? hm)
  obtain ⟨⟨n', d⟩, hd'⟩ := hi.handles e (List.mem_of_getElem? he)
  have hg1 := ((step_good s ⟨hi, hw⟩ (.add i j)).2 s1 h).1
  rw [step] at h
  simp only [hm, he, hd, hd'] at h
  cases old with
  | submap es ts =>
    simp only [] at h
    split at h
    · cases h
    · next hkd =>
      cases hq : assign s.mem m (.submap es ts) (.submap (e :: es) (keeps s.mem d ++ ts)) with
      | none => rw [hq] at h; simp [orFreed, bind, Except.bind] at h
      | some m' =>
        rw [hq] at h
        simp only [orFreed, bind, Except.bind, pure, Except.pure, Except.ok.injEq] at h
        subst h
        obtain ⟨⟨k, x⟩, hx⟩ := hg1.1.handles m (List.mem_of_getElem? hm)
        refine ⟨k, es, ts, n', d, ?_, hd'⟩
        simp only [] at hx ⊢
        rw [hx]
        -- the data of the submap is the new one
        obtain ⟨m2, hm2, _, _, _, hs2⟩ := assign_grow ⟨hi, hw⟩ m n (.submap es ts) (.submap (e :: es) (keeps s.mem d ++ ts)) hd rfl rfl rfl
          (by intro y hy; simp only [Data.strong, List.cons_append, List.mem_cons, List.mem_append] at hy ⊢; tauto)
          (keeps_rank ⟨hi, hw⟩ hd hd' (by simpa using hkd))
        rw [hq] at hm2; cases hm2
        have := hs2 m k x hx
        rw [if_pos rfl] at this
        rw [this]
  | _ => simp at h

/-- While a submap lives, so does everything added to it, and every lanelet or area that was not expired when it was added and that the
element itself, or one of its regulatory elements, referred to. -/
theorem submap_keeps (cs ds : List Stmt) (s s1 s2 : St) (i j : Nat) (m e : Addr) (h : run cs start = .ok s) (hm : s.vars[i]? = some m)
    (he : s.vars[j]? = some e) (h1 : step s (.add i j) = .ok s1) (h2 : run ds s1 = .ok s2) (hl : Alive s2 m) :
    Alive s2 e ∧ ∀ b, RefersTo s e b → Reach s b → Alive s2 b := by
  have hg := ((run_good cs start good_start).2 s h).1
  obtain ⟨hg1, _⟩ := (step_good s hg _).2 s1 h1
  obtain ⟨hg2, hev⟩ := (run_good ds s1 hg1).2 s2 h2
  obtain ⟨k, es, ts, n, d, hms, hed⟩ := add_result s s1 hg i j m e h1 hm he
  obtain ⟨k2, x, hx⟩ := hl
  obtain ⟨k3, y, hy, hky, hsub⟩ := hev.2 m (lt_of_at? hms) k2 x hx
  rw [hms] at hy; cases hy
  have hin := hsub rfl
  have fin : ∀ b, b ∈ e :: es ++ (keeps s.mem d ++ ts) → Alive s2 b := by
    intro b hb
    obtain ⟨k, z, hz, _⟩ := hg2.1.fields m k2 x hx b (hin b hb)
    exact ⟨k, z, hz⟩
  refine ⟨fin e (by simp), ?_⟩
  rintro b ⟨r, nr, dr, hr, hbw, hre⟩ hb
  replace hbw := mem_weak.2 hbw
  apply fin
  obtain ⟨nb, xb, hxb⟩ := (alive_iff s hg b).2 hb
  have htr : b ∈ tracked s.mem dr := by
    cases dr with
    | reg ps => exact List.mem_filter.2 ⟨hbw, by rw [hxb]; rfl⟩
    | _ => simp [Data.weak] at hbw
  have : b ∈ keeps s.mem d := by
    rcases hre with rfl | ⟨k4, c, hc, hrc⟩
    · rw [hed] at hr; cases hr
      cases d with
      | reg ps => exact htr
      | _ => simp [Data.weak] at hbw
    · rw [hed] at hc; cases hc
      have fm : ∀ rs : List Addr, r ∈ rs → b ∈ rs.flatMap fun r => ((at? s.mem r).map fun c => tracked s.mem c.2).getD [] :=
        fun rs hrs => List.mem_flatMap.2 ⟨r, hrs, by rw [hr]; exact htr⟩
      cases d with
      | lanelet _ _ _ rs => exact fm rs hrc
      | area _ _ rs => exact fm rs hrc
      | _ => simp [Data.regs] at hrc
  simp [this]

theorem addMap_result (s s1 : St) (hg : Good s) (i j : Nat) (m e : Addr) (h : step s (.addMap i j) = .ok s1) (hm : s.vars[i]? = some m)
    (he : s.vars[j]? = some e) : ∃ k es es' n n' d, at? s.mem m = some (n, .map es) ∧ at? s.mem e = some (n', d) ∧ d.kind.isMap = false ∧
      at? s1.mem m = some (k, .map es') ∧ (∀ x, x ∈ es' ↔ x ∈ es ∨ Uses s es e x) ∧
      (∀ x ∈ es', x ∉ es → ∃ n d, at? s.mem x = some (n, d) ∧ ∀ b ∈ along s.mem d, b ∈ es') ∧
      (∀ b k d, at? s1.mem b = some (k, d) → if b = m then d = .map es' else ∃ n, at? s.mem b = some (n, d)) := by
  have hi := hg.1
  obtain ⟨⟨n, old⟩, hd⟩ := hi.handles m (List.mem_of_getElem? hm)
  obtain ⟨⟨n', d⟩, hd'⟩ := hi.handles e (List.mem_of_getElem? he)
  have hg1 := ((step_good s hg (.addMap i j)).2 s1 h).1
  rw [step] at h
  simp only [hm, he, hd, hd'] at h
  cases old with
  | map es =>
    simp only [] at h
    split at h
    · cases h
    · next hkd =>
      obtain ⟨es', hes, hr, hsub, hiff, hcl⟩ := addMap_spec hg hd hd' (by simpa using hkd)
      obtain ⟨m', hm', _, _, _, hs'⟩ := assign_grow hg m n (.map es) (.map es') hd rfl rfl rfl hsub hr
      simp only [hes, orFreed, bind, Except.bind, hm', pure, Except.pure, Except.ok.injEq] at h
      subst h
      obtain ⟨⟨k, x⟩, hx⟩ := hg1.1.handles m (List.mem_of_getElem? hm)
      have := hs' m k x hx
      rw [if_pos rfl] at this
      subst this
      exact ⟨k, es, es', n, n', d, hd, hd', by simpa using hkd, hx, hiff, hcl, hs'⟩
  | _ => simp at h

/-- What a map has after an element was added to it: what it had before, the element, and all that this leads to, by handles and by weak handles that
are not expired, but not beyond what the map had already. While the map lives, so does all of this. -/
theorem map_keeps (cs ds : List Stmt) (s s1 s2 : St) (i j : Nat) (m e : Addr) (h : run cs start = .ok s) (hm : s.vars[i]? = some m)
    (he : s.vars[j]? = some e) (h1 : step s (.addMap i j) = .ok s1) (h2 : run ds s1 = .ok s2) :
    ∃ n k es es', at? s.mem m = some (n, .map es) ∧ at? s1.mem m = some (k, .map es') ∧ (∀ x, x ∈ es' ↔ x ∈ es ∨ Uses s es e x) ∧
      (Alive s2 m → ∀ x ∈ es', Alive s2 x) := by
  have hg := ((run_good cs start good_start).2 s h).1
  obtain ⟨hg1, _⟩ := (step_good s hg _).2 s1 h1
  obtain ⟨hg2, hev⟩ := (run_good ds s1 hg1).2 s2 h2
  obtain ⟨k, es, es', n, n', d, hms, _, _, hms1, hiff, _⟩ := addMap_result s s1 hg i j m e h1 hm he
  refine ⟨n, k, es, es', hms, hms1, hiff, ?_⟩
  rintro ⟨k2, x, hx⟩ b hb
  obtain ⟨k3, y, hy, hky, hsub⟩ := hev.2 m (lt_of_at? hms1) k2 x hx
  rw [hms1] at hy; cases hy
  obtain ⟨k, z, hz, _⟩ := hg2.1.fields m k2 x hx b (hsub rfl b hb)
  exact ⟨k, z, hz⟩

/-- Helper of the proofs. Maps have all that their elements lead to. -/
def Closed (m : Mem) : Prop := ∀ a n es, at? m a = some (n, .map es) → ∀ x ∈ es, ∀ k d, at? m x = some (k, d) → ∀ b ∈ along m d, b ∈ es

theorem along_sub {m m' : Mem} (h : ∀ b, (at? m' b).isSome = true → (at? m b).isSome = true) {d : Data} {b : Addr} (hb : b ∈ along m' d) :
    b ∈ along m d := by
  rcases mem_along.1 hb with hb | hb
  · exact mem_along.2 (.inl hb)
  · exact mem_along.2 (.inr ⟨hb.1, h b hb.2⟩)

theorem closed_of {m m' : Mem} (h : Closed m) (hs : ∀ b k e, at? m' b = some (k, e) → ∃ n, at? m b = some (n, e)) : Closed m' := by
  intro a n es ha x hx k d hd b hb
  obtain ⟨n1, h1⟩ := hs a n _ ha
  obtain ⟨n2, h2⟩ := hs x k _ hd
  refine h a n1 es h1 x hx n2 d h2 b (along_sub (fun c hc => ?_) hb)
  obtain ⟨⟨k, e⟩, hc⟩ := Option.isSome_iff_exists.1 hc
  obtain ⟨n3, h3⟩ := hs c k e hc
  rw [h3]; rfl

/-- Helper of the proofs. Only changes of data let maps miss something. -/
theorem step_closed (s s' : St) (h : Good s) (hcl : Closed s.mem) (c : Stmt) (hns : ∀ i d, c ≠ .set i d) (hc : step s c = .ok s') :
    Closed s'.mem := by
  obtain ⟨hi, hw⟩ := h
  have acq : ∀ a m, acquire [a] s.mem = some m → (∃ c, at? s.mem a = some c) → Closed m := by
    intro a m hm ha
    obtain ⟨m', hm', _, hs⟩ := acquire_spec [a] s.mem s.vars hi (by simpa using ha)
    rw [hm] at hm'; cases hm'
    exact closed_of hcl (same_weaken hs)
  cases c with
  | set i d => exact absurd rfl (hns i d)
  | new d =>
    rw [step] at hc
    split at hc
    · next hif =>
      simp only [Bool.and_eq_true, List.all_eq_true, decide_eq_true_eq] at hif
      obtain ⟨⟨hf, hst⟩, hwk⟩ := hif
      obtain ⟨m, hm, hi1, hs1⟩ := acquire_spec d.strong s.mem s.vars hi fun b hb => hi.handles b (hst b hb)
      rw [hm] at hc
      simp only [orFreed, bind, Except.bind, pure, Except.pure, Except.ok.injEq] at hc
      subst hc
      have hcm : Closed m := closed_of hcl (same_weaken hs1)
      have hwm : Weak m := weak_of hw hs1.1 (same_weaken hs1)
      have happ : ∀ b, b ≠ m.length → at? (m ++ [some (1, d)]) b = at? m b := by
        intro b hb
        unfold at?
        by_cases hlt : b < m.length
        · rw [List.getElem?_append_left hlt]
        · rw [List.getElem?_eq_none (by simp; omega), List.getElem?_eq_none (by omega)]
      have hnew : at? (m ++ [some (1, d)]) m.length = some (1, d) := by unfold at?; simp
      intro a n es ha x hx k e he b hb
      simp only [] at ha he hb
      by_cases hal : a = m.length
      · subst hal
        rw [hnew] at ha; cases ha
        simp only [fits, List.isEmpty_iff] at hf
        rw [hf] at hx; simp at hx
      · rw [happ a hal] at ha
        obtain ⟨k2, e2, he2, _⟩ := hi1.fields a n _ ha x hx
        rw [happ x (Nat.ne_of_lt (lt_of_at? he2))] at he
        refine hcm a n es ha x hx k e he b ?_
        rcases mem_along.1 hb with hb | ⟨hb, hbs⟩
        · exact mem_along.2 (.inl hb)
        · rw [happ b (Nat.ne_of_lt (hwm x k e he b hb).1)] at hbs
          exact mem_along.2 (.inr ⟨hb, hbs⟩)
    · cases hc
  | copy i =>
    rw [step] at hc
    cases hv : s.vars[i]? with
    | none => rw [hv] at hc; cases hc
    | some a =>
      simp only [hv] at hc
      cases hm : acquire [a] s.mem with
      | none => rw [hm] at hc; simp [orFreed, bind, Except.bind] at hc
      | some m =>
        rw [hm] at hc
        simp only [orFreed, bind, Except.bind, pure, Except.pure, Except.ok.injEq] at hc
        subst hc
        exact acq a m hm (hi.handles a (List.mem_of_getElem? hv))
  | get i j =>
    rw [step] at hc
    cases hv : s.vars[i]? with
    | none => rw [hv] at hc; cases hc
    | some a =>
      obtain ⟨⟨n, d⟩, hd⟩ := hi.handles a (List.mem_of_getElem? hv)
      simp only [hv, hd] at hc
      cases hj : d.strong[j]? with
      | none => rw [hj] at hc; cases hc
      | some b =>
        simp only [hj] at hc
        obtain ⟨k, e, hbe, _⟩ := hi.fields a n d hd b (List.mem_of_getElem? hj)
        cases hm : acquire [b] s.mem with
        | none => rw [hm] at hc; simp [orFreed, bind, Except.bind] at hc
        | some m =>
          rw [hm] at hc
          simp only [orFreed, bind, Except.bind, pure, Except.pure, Except.ok.injEq] at hc
          subst hc
          exact acq b m hm ⟨_, hbe⟩
  | lock i j =>
    rw [step] at hc
    cases hv : s.vars[i]? with
    | none => rw [hv] at hc; cases hc
    | some a =>
      obtain ⟨⟨n, d⟩, hd⟩ := hi.handles a (List.mem_of_getElem? hv)
      simp only [hv, hd] at hc
      cases hj : d.weak[j]? with
      | none => rw [hj] at hc; cases hc
      | some b =>
        simp only [hj] at hc
        cases hm : acquire [b] s.mem with
        | none => rw [hm] at hc; cases hc
        | some m =>
          rw [hm] at hc
          simp only [Except.ok.injEq] at hc
          subst hc
          cases hb : at? s.mem b with
          | none => rw [acquire_none.2 hb] at hm; cases hm
          | some c => exact acq b m hm ⟨_, hb⟩
  | drop i =>
    rw [step] at hc
    cases hv : s.vars[i]? with
    | none => rw [hv] at hc; cases hc
    | some a =>
      simp only [hv] at hc
      have hperm : ∀ b, s.vars.count b = (a :: s.vars.eraseIdx i).count b := fun b => by
        obtain ⟨hlt, rfl⟩ := List.getElem?_eq_some_iff.1 hv
        exact (List.getElem_cons_eraseIdx_perm hlt).symm.count_eq b
      have hmem : ∀ b, b ∈ a :: s.vars.eraseIdx i → b ∈ s.vars := fun b hb => by
        rw [← List.count_pos_iff, hperm, List.count_pos_iff]; exact hb
      obtain ⟨m, hm, hi', hs'⟩ := release_spec [a] s.mem (s.vars.eraseIdx i)
        ⟨fun b k e hb => by rw [List.singleton_append, ← hperm]; exact hi.count b k e hb,
         fun b hb => hi.handles b (hmem b hb), hi.fields⟩
      rw [hm] at hc
      simp only [orFreed, bind, Except.bind, pure, Except.pure, Except.ok.injEq] at hc
      subst hc
      exact closed_of hcl hs'.2
  | add i j =>
    have hst := hc
    rw [step] at hc
    cases hv : s.vars[i]? with
    | none => simp [hv] at hc
    | some a =>
      cases hv' : s.vars[j]? with
      | none => simp [hv, hv'] at hc
      | some b =>
        obtain ⟨⟨n, old⟩, hd⟩ := hi.handles a (List.mem_of_getElem? hv)
        obtain ⟨⟨n', d⟩, hd'⟩ := hi.handles b (List.mem_of_getElem? hv')
        simp only [hv, hv', hd, hd'] at hc
        cases old with
        | submap es ts =>
          simp only [] at hc
          split at hc
          · cases hc
          · next hkd =>
            obtain ⟨m, hm, _, _, _, hs'⟩ := assign_grow ⟨hi, hw⟩ a n (.submap es ts) (.submap (b :: es) (keeps s.mem d ++ ts)) hd rfl rfl rfl
              (by intro y hy; simp only [Data.strong, List.cons_append, List.mem_cons, List.mem_append] at hy ⊢; tauto)
              (keeps_rank ⟨hi, hw⟩ hd hd' (by simpa using hkd))
            rw [hm] at hc
            simp only [orFreed, bind, Except.bind, pure, Except.pure, Except.ok.injEq] at hc
            subst hc
            intro x k es' hx y hy k' e' he' z hz
            simp only [] at hx he' hz
            have h1 := hs' x k _ hx
            split at h1
            · cases h1
            · obtain ⟨n1, h1⟩ := h1
              obtain ⟨k2, e2, he2, hr2⟩ := hi.fields x n1 _ h1 y hy
              have hya : y ≠ a := by
                rintro rfl; rw [hd] at he2; cases he2; simp [Data.kind, Kind.rank] at hr2
              have h2 := hs' y k' e' he'
              rw [if_neg hya] at h2
              obtain ⟨n2, h2⟩ := h2
              refine hcl x n1 es' h1 y hy n2 e' h2 z (along_sub (fun c hc => ?_) hz)
              obtain ⟨⟨k3, e3⟩, hc⟩ := Option.isSome_iff_exists.1 hc
              have h3 := hs' c k3 e3 hc
              split at h3
              · next hca => rw [hca, hd]; rfl
              · obtain ⟨n3, h3⟩ := h3; rw [h3]; rfl
        | _ => simp at hc
  | addMap i j =>
    cases hv : s.vars[i]? with
    | none => rw [step] at hc; simp [hv] at hc
    | some a =>
      cases hv' : s.vars[j]? with
      | none => rw [step] at hc; simp [hv, hv'] at hc
      | some b =>
        obtain ⟨k, es, es', n, n', d, hd, hd', hkd, hms1, hiff, hall, hs'⟩ := addMap_result s s' ⟨hi, hw⟩ i j a b hc hv hv'
        have hsub : ∀ c, (at? s'.mem c).isSome = true → (at? s.mem c).isSome = true := by
          intro c hc
          obtain ⟨⟨k3, e3⟩, hc⟩ := Option.isSome_iff_exists.1 hc
          have h3 := hs' c k3 e3 hc
          split at h3
          · next hca => rw [hca, hd]; rfl
          · obtain ⟨n3, h3⟩ := h3; rw [h3]; rfl
        have old : ∀ x n es0, at? s.mem x = some (n, .map es0) → ∀ y ∈ es0, ∀ k' e', at? s'.mem y = some (k', e') →
            ∀ z ∈ along s'.mem e', z ∈ es0 := by
          intro x n1 es0 h1 y hy k' e' he' z hz
          obtain ⟨k2, e2, he2, hr2⟩ := hi.fields x n1 _ h1 y hy
          have hya : y ≠ a := by
            rintro rfl; rw [hd] at he2; cases he2; simp [Data.kind, Kind.rank] at hr2
          have h2 := hs' y k' e' he'
          rw [if_neg hya] at h2
          obtain ⟨n2, h2⟩ := h2
          exact hcl x n1 es0 h1 y hy n2 e' h2 z (along_sub hsub hz)
        intro x k1 es0 hx y hy k' e' he' z hz
        have h1 := hs' x k1 _ hx
        split at h1
        · cases h1
          by_cases hye : y ∈ es
          · exact (hiff z).2 (.inl (old a n es hd y hye k' e' he' z hz))
          · obtain ⟨n2, d2, hd2, hz2⟩ := hall y hy hye
            have hya : y ≠ a := by
              rintro rfl
              rcases (hiff y).1 hy with h | h
              · exact hye h
              · obtain ⟨es2, _, hr, _⟩ := addMap_spec ⟨hi, hw⟩ hd hd' hkd
                obtain ⟨k, e, he, hlt⟩ := uses_rank ⟨hi, hw⟩ hd' hkd h
                rw [hd] at he; cases he; simp [Data.kind, Kind.rank] at hlt
            have h2 := hs' y k' e' he'
            rw [if_neg hya] at h2
            obtain ⟨n3, h2⟩ := h2
            rw [h2] at hd2; cases hd2
            exact hz2 z (along_sub hsub hz)
        · obtain ⟨n1, h1⟩ := h1
          exact old x n1 es0 h1 y hy k' e' he' z hz

theorem run_closed (cs : List Stmt) (s s' : St) (h : Good s) (hcl : Closed s.mem) (hns : ∀ c ∈ cs, ∀ i d, c ≠ .set i d)
    (hc : run cs s = .ok s') : Closed s'.mem := by
  induction cs generalizing s with
  | nil => simp only [run, Except.ok.injEq] at hc; subst hc; exact hcl
  | cons c cs ih =>
    rw [run] at hc
    cases hq : step s c with
    | error e => rw [hq] at hc; cases hc
    | ok s1 =>
      rw [hq] at hc
      exact ih s1 ((step_good s h c).2 s1 hq).1 (step_closed s s1 h hcl c (hns c (by simp)) hq)
        (fun c hc => hns c (List.mem_cons_of_mem _ hc)) hc

/-- If no primitive was changed before an element is added to a map, then all that the element leads to at that time lives while the map does,
whatever the program does then. -/
theorem map_keeps_all (cs ds : List Stmt) (s s1 s2 : St) (i j : Nat) (m e : Addr) (h : run cs start = .ok s)
    (hns : ∀ c ∈ cs, ∀ i d, c ≠ .set i d) (hm : s.vars[i]? = some m) (he : s.vars[j]? = some e)
    (h1 : step s (.addMap i j) = .ok s1) (h2 : run ds s1 = .ok s2) (hl : Alive s2 m) (b : Addr) (hb : Uses s [] e b) : Alive s2 b := by
  obtain ⟨n, k, es, es', hms, _, hiff, hall⟩ := map_keeps cs ds s s1 s2 i j m e h hm he h1 h2
  have hcl := run_closed cs start s good_start (fun a n es h => by simp [start, at?] at h) hns h
  refine hall hl b ((hiff b).2 ?_)
  induction hb with
  | self _ =>
    by_cases hx : e ∈ es
    · exact .inl hx
    · exact .inr (.self hx)
  | @link a b na d hu ha hb _ ih =>
    by_cases hx : b ∈ es
    · exact .inl hx
    · rcases ih with ih | ih
      · refine .inl (hcl m n es hms a ih na d ha b (mem_along.2 ?_))
        rcases hb with hb | hb
        · exact .inl (mem_strong.2 hb)
        · exact .inr ⟨mem_weak.2 hb.1, alive_of_isSome.2 hb.2⟩
      · exact .inr (.link ih ha hb hx)

/-! ### Examples -/

/-- Example. The lanelet 6 has the regulatory element 5, which refers to the lanelet 4; that has the regulatory element 3, which refers to the lanelet
2. The bounds are 0 and 1, the submap is 7. -/
def exPrep : List Stmt :=
  [.new (.line []), .new (.line []), .new (.lanelet 0 1 none []), .new (.reg [.lanelet 2]), .new (.lanelet 0 1 none [3]), .new (.reg [.lanelet 4]),
   .new (.lanelet 0 1 none [5]), .new (.submap [] [])]

/-- Example. All handles but the first end. -/
def exDrop : List Stmt := List.replicate 7 (.drop 1)

/-- Example. The memory after the submap got the lanelet 6 and all other handles ended: the lanelet 2 is destroyed. -/
def exEnd : St := ⟨[some (2, .line []), some (2, .line []), none, some (1, .reg [.lanelet 2]), some (1, .lanelet 0 1 none [3]),
  some (1, .reg [.lanelet 4]), some (1, .lanelet 0 1 none [5]), some (1, .submap [6] [4])], [7]⟩

theorem exEnd_run : run (exPrep ++ .add 0 1 :: exDrop) start = .ok exEnd := by rfl

/-- A submap does not keep everything that its regulatory elements refer to: a lanelet has a regulatory element that refers to a second lanelet,
whose regulatory element refers to a third one. With only a submap of the first one left, the second is kept, the third is destroyed: the
weak handle that the program reaches from the submap is expired. -/
theorem submap_counterexample : ∃ (cs ds : List Stmt) (s s' : St) (r b : Addr) (n : Nat) (d : Data),
    run cs start = .ok s ∧ Alive s b ∧ run (.add 0 1 :: ds) s = .ok s' ∧ (∀ c ∈ ds, ∃ i, c = .drop i) ∧
    Reach s' r ∧ at? s'.mem r = some (n, d) ∧ d.Names b ∧ ¬ Alive s' b :=
  ⟨exPrep, exDrop, ⟨[some (4, .line []), some (4, .line []), some (1, .lanelet 0 1 none []), some (2, .reg [.lanelet 2]),
      some (1, .lanelet 0 1 none [3]), some (2, .reg [.lanelet 4]), some (1, .lanelet 0 1 none [5]), some (1, .submap [] [])],
      [7, 6, 5, 4, 3, 2, 1, 0]⟩, exEnd, 3, 2, 1, .reg [.lanelet 2], by rfl, ⟨1, _, rfl⟩, by rfl,
    fun c hc => ⟨1, List.eq_of_mem_replicate hc⟩,
    .field (.field (.handle (a := 7) (by simp [exEnd])) (b := 4) (n := 1) (d := .submap [6] [4]) rfl (by simp [Data.Holds])) (n := 1)
      (d := .lanelet 0 1 none [3]) rfl (by simp [Data.Holds]), rfl, ⟨_, rfl, by simp⟩, by rintro ⟨n, d, h⟩; cases h⟩

/-- Neither does it keep what a regulatory element refers to only after it was added: the lanelet 2 is a parameter of the regulatory element 3, which
was added to the submap 4 before it got this parameter. -/
theorem later_parameter_counterexample : ∃ s, run [.new (.line []), .new (.line []), .new (.lanelet 0 1 none []), .new (.reg []), .new (.submap [] []),
      .add 0 1, .set 1 (.reg [.lanelet 2]), .drop 4, .drop 3, .drop 2, .drop 1] start = .ok s ∧
    s.vars = [4] ∧ at? s.mem 4 = some (1, .submap [3] []) ∧ at? s.mem 3 = some (1, .reg [.lanelet 2]) ∧ ¬ Alive s 2 :=
  ⟨⟨[none, none, none, some (1, .reg [.lanelet 2]), some (1, .submap [3] [])], [4]⟩, by rfl, rfl, rfl, rfl, by rintro ⟨n, d, h⟩; cases h⟩

/-- Example of `lock_iff`: the handles of both lanelets are reached, one by the submap, one not at all. -/
example : step exEnd (.get 0 1) = .ok ⟨[some (2, .line []), some (2, .line []), none, some (1, .reg [.lanelet 2]), some (2, .lanelet 0 1 none [3]),
    some (1, .reg [.lanelet 4]), some (1, .lanelet 0 1 none [5]), some (1, .submap [6] [4])], [4, 7]⟩ := by rfl
example : (match run [.get 0 0, .get 0 2, .lock 0 0] exEnd with | .ok s => s.vars | _ => []) = [4, 5, 6, 7] := by decide +kernel
example : (match run [.get 0 1, .get 0 2, .lock 0 0] exEnd with | .error e => some e | _ => none) = some .expired := by decide +kernel

/-- Example of `rules_do_not_own` and `no_leak`: with the regulatory element alone its lanelet expires; in the end nothing is left. -/
example : run [.new (.line []), .new (.line []), .new (.lanelet 0 1 none []), .new (.reg [.line 0, .lanelet 2]), .drop 1, .drop 1, .drop 1] start =
    .ok ⟨[some (1, .line []), none, none, some (1, .reg [.line 0, .lanelet 2])], [3]⟩ := by rfl
example : run (exPrep ++ .add 0 1 :: exDrop ++ [.drop 0]) start = .ok ⟨List.replicate 8 none, []⟩ := by rfl

/-- Example. A map in place of the submap of `exPrep`. -/
def exPrepMap : List Stmt := exPrep.dropLast ++ [.new (.map [])]

/-- Example of `map_keeps` and `map_keeps_all`: the map keeps the lanelet 2 as well, which `exEnd` does not have. -/
example : run (exPrepMap ++ .addMap 0 1 :: exDrop) start = .ok ⟨[some (4, .line []), some (4, .line []), some (1, .lanelet 0 1 none []),
    some (2, .reg [.lanelet 2]), some (1, .lanelet 0 1 none [3]), some (2, .reg [.lanelet 4]), some (1, .lanelet 0 1 none [5]),
    some (1, .map [2, 3, 4, 5, 1, 0, 6])], [7]⟩ := by rfl
example : Uses ⟨[none, some (1, .lanelet 3 3 none []), some (1, .reg [.lanelet 0, .lanelet 1]), some (2, .line [])], [1, 2]⟩ [] 2 3 :=
  .link (.link (b := 1) (.self (by simp)) (n := 1) rfl (.inr ⟨⟨_, rfl, by simp⟩, 1, _, rfl⟩) (by simp)) (n := 1) (d := .lanelet 3 3 none []) rfl (.inl (by simp [Data.Holds])) (by simp)

/-- A parameter that a regulatory element gets after it was added to a map is not kept by the map, not even if the regulatory element is added
again: LaneletMap::add does nothing for an element that it has. -/
theorem map_later_parameter_counterexample : ∃ s, run [.new (.line []), .new (.line []), .new (.lanelet 0 1 none []), .new (.reg []), .new (.map []),
      .addMap 0 1, .set 1 (.reg [.lanelet 2]), .addMap 0 1, .drop 4, .drop 3, .drop 2, .drop 1] start = .ok s ∧
    s.vars = [4] ∧ at? s.mem 4 = some (1, .map [3]) ∧ at? s.mem 3 = some (1, .reg [.lanelet 2]) ∧ ¬ Alive s 2 :=
  ⟨⟨[none, none, none, some (1, .reg [.lanelet 2]), some (1, .map [3])], [4]⟩, by rfl, rfl, rfl, rfl, by rintro ⟨n, d, h⟩; cases h⟩

end Verif.Own
