import Mathlib.Data.List.Nodup

/-!
Model of the iterators of the layers of a map: lanelet2_core/include/lanelet2_core/utility/TransformIterator.h (Converter, PairConverter,
TransformIterator), LaneletMap.h 49-56, LaneletMap.cpp 470-498. Such an iterator has a position in the hash map of the layer and a
converter. For most layers dereferencing gives a reference to the element in the hash map (TransformIterator.h 7-14). Only the
const_iterator of the layer of regulatory elements has to turn shared_ptr<T> into shared_ptr<const T>: it copies the pointer into a
member of the iterator and returns a reference to this member (TransformIterator.h 29-39).

The layer is the list of its elements in the order of iteration. It does not change while the program runs. Undefined behaviour (and
programs that use names that are not declared) is `none`.
-/
namespace Verif.Util.Iter

variable {E : Type}

/-- An iterator object, TransformIterator.h 53-68: which object it is, its position (the length of the layer for end()), and the member
`val_` of its converter (TransformIterator.h 38), a pointer that can be null -/
structure It (E : Type) where
  /-- distinguishes objects that use the same name one after the other -/
  obj : Nat
  /-- the position -/
  pos : Nat
  /-- the copied pointer -/
  val : Option E

/-- A reference to an element of the layer (`elem`, TransformIterator.h 12) or to the member of the iterator object with this name
(`member`, TransformIterator.h 34) -/
inductive Ref where
  | elem (pos : Nat)
  | member (x obj : Nat)

/-- The state of a program: its iterators, its references, the number of the next object; TransformIterator.h 53-68 -/
structure St (E : Type) where
  /-- the iterators that are in scope -/
  its : Nat → Option (It E)
  /-- the references -/
  refs : Nat → Option Ref
  /-- the next object -/
  next : Nat

/-- The statements of a program on one layer; LaneletMap.h 91, 116, 122, 129-141, TransformIterator.h 53-68.
`decl x i`: `auto x = layer.find(id)` or `begin()` or `end()`, `i` being the position of the result. `copy x y`: `auto x = y`.
`assign x i`: `x = layer.find(id)`. `inc x`: `++x`. `drop x`: the scope of `x` ends. `value x`: something is done with a copy of `*x`.
`bind r x`: `const auto& r = *x`. `bindTemp r i`: `const auto& r = *layer.find(id)`. `look r`: something is done with `r`. -/
inductive Stmt where
  | decl (x i : Nat)
  | copy (x y : Nat)
  | assign (x i : Nat)
  | inc (x : Nat)
  | drop (x : Nat)
  | value (x : Nat)
  | bind (r x : Nat)
  | bindTemp (r i : Nat)
  | look (r : Nat)

/-- PrimitiveLayer::find, LaneletMap.cpp 471-473, 486-488: the position of the element with this key, or the end -/
def find (keys : List Int) (id : Int) : Nat := keys.findIdx (· == id)

/-- Assignment to an iterator variable. -/
def St.setIt (st : St E) (x : Nat) (it : Option (It E)) : St E := { st with its := fun y => if y = x then it else st.its y }

/-- Assignment to a reference. -/
def St.setRef (st : St E) (r : Nat) (v : Ref) : St E := { st with refs := fun s => if s = r then some v else st.refs s }

/-- Dereferencing the iterator `x`, TransformIterator.h 12, 32-35, 45-47, 66: the reference, and the state with the new member if the
iterator keeps one. -/
def deref (stash : Bool) (layer : List E) (st : St E) (x : Nat) : Option (Ref × St E) :=
  match st.its x with
  | none => none
  | some it => match layer[it.pos]? with
    | none => none
    | some e => if stash then some (.member x it.obj, st.setIt x (some { it with val := some e })) else some (.elem it.pos, st)

/-- Reading through a reference. A member can be read while the object it belongs to exists; TransformIterator.h 12, 34. -/
def follow (layer : List E) (st : St E) : Ref → Option (Option E)
  | .elem i => layer[i]?.map some
  | .member x o => match st.its x with
    | none => none
    | some it => if it.obj = o then some it.val else none

/-- One statement and what it sees; TransformIterator.h 53-68. Copying and assigning iterators copies the member. -/
def step (stash : Bool) (layer : List E) (st : St E) : Stmt → Option (List (Option E) × St E)
  | .decl x i => if i ≤ layer.length then some ([], { st.setIt x (some ⟨st.next, i, none⟩) with next := st.next + 1 }) else none
  | .copy x y => match st.its y with
    | none => none
    | some it => some ([], { st.setIt x (some { it with obj := st.next }) with next := st.next + 1 })
  | .assign x i => match st.its x with
    | none => none
    | some it => if i ≤ layer.length then some ([], st.setIt x (some ⟨it.obj, i, none⟩)) else none
  | .inc x => match st.its x with
    | none => none
    | some it => if it.pos < layer.length then some ([], st.setIt x (some { it with pos := it.pos + 1 })) else none
  | .drop x => some ([], st.setIt x none)
  | .value x => match deref stash layer st x with
    | none => none
    | some (r, st') => match follow layer st' r with
      | none => none
      | some e => some ([e], st')
  | .bind r x => match deref stash layer st x with
    | none => none
    | some (v, st') => some ([], st'.setRef r v)
  | .bindTemp r i => match layer[i]? with
    | none => none
    -- the temporary iterator is gone at the end of the statement
    | some _ => some ([], { st with refs := fun s => if s = r then some (if stash then .member 0 st.next else .elem i) else st.refs s,
                                    next := st.next + 1 })
  | .look r => match st.refs r with
    | none => none
    | some v => match follow layer st v with
      | none => none
      | some e => some ([e], st)

/-- A program; TransformIterator.h 53-68 -/
def run (stash : Bool) (layer : List E) : List Stmt → St E → Option (List (Option E) × St E)
  | [], st => some ([], st)
  | c :: cs, st => match step stash layer st c with
    | none => none
    | some (o, st') => match run stash layer cs st' with
      | none => none
      | some (os, st'') => some (o ++ os, st'')

/-- What a program sees; TransformIterator.h 53-68 -/
def sees (stash : Bool) (layer : List E) (cs : List Stmt) : Option (List (Option E)) :=
  (run stash layer cs ⟨fun _ => none, fun _ => none, 0⟩).map (·.1)

/-! ### Specification: iterators are positions, references name elements -/

/-- Specification. The iterators with their positions, the references with the elements they were bound to. -/
structure SSt (E : Type) where
  /-- the iterators that are in scope -/
  its : Nat → Option Nat
  /-- the references -/
  refs : Nat → Option E

/-- Specification. Assignment to an iterator. -/
def SSt.setIt (s : SSt E) (x : Nat) (p : Option Nat) : SSt E := { s with its := fun y => if y = x then p else s.its y }

/-- Specification. Binding a reference. -/
def SSt.setRef (s : SSt E) (r : Nat) (e : E) : SSt E := { s with refs := fun t => if t = r then some e else s.refs t }

/-- Specification. One statement: what is seen is an element, and a reference stays the element it was bound to. -/
def ideal (layer : List E) (s : SSt E) : Stmt → Option (List E × SSt E)
  | .decl x i => if i ≤ layer.length then some ([], s.setIt x (some i)) else none
  | .copy x y => (s.its y).map fun p => ([], s.setIt x (some p))
  | .assign x i => (s.its x).bind fun _ => if i ≤ layer.length then some ([], s.setIt x (some i)) else none
  | .inc x => (s.its x).bind fun p => if p < layer.length then some ([], s.setIt x (some (p + 1))) else none
  | .drop x => some ([], s.setIt x none)
  | .value x => (s.its x).bind fun p => layer[p]?.map fun e => ([e], s)
  | .bind r x => (s.its x).bind fun p => layer[p]?.map fun e => ([], s.setRef r e)
  | .bindTemp r i => layer[i]?.map fun e => ([], s.setRef r e)
  | .look r => (s.refs r).map fun e => ([e], s)

/-- Specification. What a program sees if references stay the elements they were bound to. -/
def idealFrom (layer : List E) : List Stmt → SSt E → Option (List E)
  | [], _ => some []
  | c :: cs, s => (ideal layer s c).bind fun (o, s') => (idealFrom layer cs s').map (o ++ ·)

/-- Specification. What a program that starts without variables sees. -/
def idealSees (layer : List E) (cs : List Stmt) : Option (List E) := idealFrom layer cs ⟨fun _ => none, fun _ => none⟩

/-- Specification. The iterator that a statement dereferences, assigns to, declares or ends. -/
def Stmt.touches : Stmt → Option Nat
  | .decl x _ | .copy x _ | .assign x _ | .drop x | .value x | .bind _ x => some x
  | .inc _ | .bindTemp _ _ | .look _ => none

/-- Specification. `src r` is the iterator that `r` was bound with, as long as this iterator has not been touched since. -/
def Stmt.after (c : Stmt) (src : Nat → Option Nat) (r : Nat) : Option Nat :=
  let old := if src r = c.touches then none else src r
  match c with
  | .bind r' x => if r = r' then some x else old
  | .bindTemp r' _ => if r = r' then none else old
  | _ => old

/-- Specification. A program looks at a reference only if it was bound with a named iterator, and this iterator has since neither been
dereferenced nor assigned to nor gone out of scope. It may have been incremented and copied. -/
def Careful : List Stmt → (Nat → Option Nat) → Prop
  | [], _ => True
  | c :: cs, src => (∀ r, c = .look r → src r ≠ none) ∧ Careful cs (c.after src)

/-- Specification. A program that only uses copies of elements. -/
def ByValue (cs : List Stmt) : Prop := ∀ c ∈ cs, ∀ r, (∀ x, c ≠ .bind r x) ∧ (∀ i, c ≠ .bindTemp r i) ∧ c ≠ .look r

/-- Specification. `for (const auto& r : layer) { look at r }` for a layer with `n` elements: the iterator is 0, the reference 0. -/
def rangeFor (n : Nat) : List Stmt := .decl 0 0 :: (List.replicate n [.bind 0 0, .look 0, .inc 0]).flatten ++ [.drop 0]

/-! ### Proofs -/

/-- Helper of the proofs. The state of the program and the state of the specification belong together. -/
structure Sim (stash : Bool) (layer : List E) (src : Nat → Option Nat) (st : St E) (s : SSt E) : Prop where
  its : ∀ x, (st.its x).map (·.pos) = s.its x
  elem : stash = false → ∀ r, (st.refs r = none ∧ s.refs r = none) ∨
    ∃ i e, st.refs r = some (.elem i) ∧ layer[i]? = some e ∧ s.refs r = some e
  member : stash = true → ∀ r x, src r = some x → ∃ it e, st.its x = some it ∧ st.refs r = some (.member x it.obj) ∧ it.val = some e ∧
    s.refs r = some e

theorem kept {a b : Option Nat} {y : Nat} (h : (if a = b then none else a) = some y) : a = some y ∧ a ≠ b := by
  by_cases hab : a = b
  · rw [if_pos hab] at h; cases h
  · rw [if_neg hab] at h; exact ⟨h, hab⟩

theorem step_sim {stash : Bool} {layer : List E} {src : Nat → Option Nat} {st : St E} {s : SSt E} (h : Sim stash layer src st s) (c : Stmt)
    (hc : stash = false ∨ ∀ r, c = .look r → src r ≠ none) :
    match ideal layer s c with
    | none => step stash layer st c = none
    | some (o, s') => ∃ st', step stash layer st c = some (o.map some, st') ∧ Sim stash layer (c.after src) st' s' := by
  have drf : ∀ x it e, st.its x = some it → layer[it.pos]? = some e → ∃ v st', deref stash layer st x = some (v, st') ∧
      follow layer st' v = some (some e) ∧ (∀ y, (st'.its y).map (·.pos) = s.its y) ∧
      st'.refs = st.refs ∧ (∀ y, y ≠ x → st'.its y = st.its y) ∧ (stash = false → v = .elem it.pos ∧ st' = st) ∧
      (stash = true → v = .member x it.obj ∧ st'.its x = some { it with val := some e }) := by
    intro x it e hx he
    cases stash
    · refine ⟨.elem it.pos, st, ?_, ?_, h.its, rfl, fun _ _ => rfl, fun _ => ⟨rfl, rfl⟩, fun hh => by cases hh⟩
      · simp [deref, hx, he]
      · simp [follow, he]
    · refine ⟨.member x it.obj, st.setIt x (some { it with val := some e }), ?_, ?_, ?_, rfl, ?_, fun hh => (by cases hh), fun _ => ⟨rfl, ?_⟩⟩
      · simp [deref, hx, he]
      · simp [follow, St.setIt]
      · intro y
        simp only [St.setIt]
        split
        · rename_i hy
          subst hy
          have := h.its y
          rw [hx] at this
          simpa using this
        · exact h.its y
      · intro y hy; simp [St.setIt, hy]
      · simp [St.setIt]
  have setIts : ∀ x it, ∀ y, ((st.setIt x it).its y).map (·.pos) = (s.setIt x (it.map (·.pos))).its y := by
    intro x it y
    simp only [St.setIt, SSt.setIt]
    split
    · rfl
    · exact h.its y
  -- what a statement that touches `x` and leaves the references leaves behind
  have keep : ∀ x it n, Sim stash layer (fun r => if src r = some x then none else src r)
      { st.setIt x it with next := n } (s.setIt x (it.map (·.pos))) := by
    intro x it n
    refine ⟨setIts x it, h.elem, ?_⟩
    intro hs r y hy
    obtain ⟨hy', hne⟩ := kept hy
    obtain ⟨it', e, h1, h2, h3, h4⟩ := h.member hs r y hy'
    refine ⟨it', e, ?_, h2, h3, h4⟩
    have : y ≠ x := by rintro rfl; exact hne hy'
    simp [St.setIt, this, h1]
  cases c with
  | decl x i =>
    simp only [ideal, step]
    by_cases hi : i ≤ layer.length
    · simp only [if_pos hi]
      exact ⟨_, rfl, keep x (some ⟨st.next, i, none⟩) _⟩
    · simp only [if_neg hi]
  | copy x y =>
    simp only [ideal, step]
    have := h.its y
    cases hy : st.its y with
    | none => rw [hy] at this; rw [← this]; rfl
    | some it =>
      rw [hy] at this; rw [← this]
      exact ⟨_, rfl, keep x (some { it with obj := st.next }) _⟩
  | assign x i =>
    simp only [ideal, step]
    have := h.its x
    cases hy : st.its x with
    | none => rw [hy] at this; rw [← this]; rfl
    | some it =>
      rw [hy] at this; rw [← this]
      simp only [Option.map_some, Option.bind_some]
      by_cases hi : i ≤ layer.length
      · simp only [if_pos hi]
        exact ⟨_, rfl, keep x (some ⟨it.obj, i, none⟩) st.next⟩
      · simp only [if_neg hi]
  | inc x =>
    simp only [ideal, step]
    have := h.its x
    cases hy : st.its x with
    | none => rw [hy] at this; rw [← this]; rfl
    | some it =>
      rw [hy] at this; rw [← this]
      simp only [Option.map_some, Option.bind_some]
      by_cases hi : it.pos < layer.length
      · simp only [if_pos hi]
        refine ⟨_, rfl, setIts x (some { it with pos := it.pos + 1 }), h.elem, ?_⟩
        intro hs r y hr
        have hr' : src r = some y := (kept hr).1
        obtain ⟨it', e, h1, h2, h3, h4⟩ := h.member hs r y hr'
        by_cases hyx : y = x
        · subst hyx
          rw [hy] at h1
          cases h1
          exact ⟨{ it with pos := it.pos + 1 }, e, by simp [St.setIt], h2, h3, h4⟩
        · exact ⟨it', e, by simp [St.setIt, hyx, h1], h2, h3, h4⟩
      · simp only [if_neg hi]
  | drop x => exact ⟨_, rfl, keep x none st.next⟩
  | value x =>
    simp only [ideal, step]
    have := h.its x
    cases hy : st.its x with
    | none => rw [hy] at this; rw [← this]; simp [deref, hy]
    | some it =>
      rw [hy] at this; rw [← this]
      simp only [Option.map_some, Option.bind_some]
      cases he : layer[it.pos]? with
      | none => simp [deref, hy, he]
      | some e =>
        obtain ⟨v, st', h1, h2, h3, h4, h5, h6, h7⟩ := drf x it e hy he
        simp only [Option.map_some]
        refine ⟨st', by simp [h1, h2], h3, fun hs => by rw [(h6 hs).2]; exact h.elem hs, ?_⟩
        intro hs r y hr
        obtain ⟨hr', hne⟩ := kept hr
        obtain ⟨it', e', k1, k2, k3, k4⟩ := h.member hs r y hr'
        have : y ≠ x := by rintro rfl; exact hne hr'
        exact ⟨it', e', by rw [h5 y this, k1], by rw [h4, k2], k3, k4⟩
  | bind r x =>
    simp only [ideal, step]
    have := h.its x
    cases hy : st.its x with
    | none => rw [hy] at this; rw [← this]; simp [deref, hy]
    | some it =>
      rw [hy] at this; rw [← this]
      simp only [Option.map_some, Option.bind_some]
      cases he : layer[it.pos]? with
      | none => simp [deref, hy, he]
      | some e =>
        obtain ⟨v, st', h1, h2, h3, h4, h5, h6, h7⟩ := drf x it e hy he
        simp only [Option.map_some]
        refine ⟨st'.setRef r v, by simp [h1], h3, ?_, ?_⟩
        · intro hs q
          obtain ⟨e1, e2⟩ := h6 hs
          subst e1 e2
          by_cases hq : q = r
          · right; exact ⟨it.pos, e, by simp [St.setRef, hq], he, by simp [SSt.setRef, hq]⟩
          · simp only [St.setRef, SSt.setRef, hq, if_false]
            exact h.elem hs q
        · intro hs q y hr
          simp only [Stmt.after, Stmt.touches] at hr
          by_cases hq : q = r
          · simp only [hq, if_true] at hr
            cases hr
            exact ⟨_, e, (h7 hs).2, by simp [St.setRef, hq, (h7 hs).1], rfl, by simp [SSt.setRef, hq]⟩
          · simp only [hq, if_false] at hr
            obtain ⟨hr', hne⟩ := kept hr
            obtain ⟨it', e', k1, k2, k3, k4⟩ := h.member hs q y hr'
            have : y ≠ x := by rintro rfl; exact hne hr'
            exact ⟨it', e', by simp only [St.setRef]; rw [h5 y this, k1], by simp [St.setRef, hq, h4, k2], k3, by
              simp [SSt.setRef, hq, k4]⟩
  | bindTemp r i =>
    simp only [ideal, step]
    cases he : layer[i]? with
    | none => rfl
    | some e =>
      simp only [Option.map_some]
      refine ⟨_, rfl, h.its, ?_, ?_⟩
      · intro hs q
        by_cases hq : q = r
        · right; exact ⟨i, e, by simp [hq, hs], he, by simp [SSt.setRef, hq]⟩
        · simp only [SSt.setRef, hq, if_false]
          exact h.elem hs q
      · intro hs q y hr
        simp only [Stmt.after, Stmt.touches] at hr
        by_cases hq : q = r
        · simp only [hq, if_true] at hr; cases hr
        · simp only [hq, if_false] at hr
          obtain ⟨it', e', k1, k2, k3, k4⟩ := h.member hs q y (kept hr).1
          exact ⟨it', e', k1, by simp [hq, k2], k3, by simp [SSt.setRef, hq, k4]⟩
  | look r =>
    simp only [ideal, step]
    have hafter : Sim stash layer ((Stmt.look r).after src) st s := by
      refine ⟨h.its, h.elem, ?_⟩
      intro hs q y hr
      exact h.member hs q y (kept hr).1
    cases hs : stash with
    | false =>
      rcases h.elem hs r with ⟨e1, e2⟩ | ⟨i, e, e1, e2, e3⟩
      · simp [e1, e2]
      · simp only [e1, e3, Option.map_some, follow, e2]
        exact ⟨st, rfl, hs ▸ hafter⟩
    | true =>
      have hc' := (hc.resolve_left (by rw [hs]; decide)) r rfl
      obtain ⟨x, hx⟩ := Option.ne_none_iff_exists'.1 hc'
      obtain ⟨it, e, k1, k2, k3, k4⟩ := h.member hs r x hx
      simp only [k2, k4, Option.map_some, follow, k1, if_true, k3]
      exact ⟨st, rfl, hs ▸ hafter⟩

theorem run_sim {stash : Bool} {layer : List E} (cs : List Stmt) (src : Nat → Option Nat) (st : St E) (s : SSt E)
    (h : Sim stash layer src st s) (hc : stash = false ∨ Careful cs src) :
    (run stash layer cs st).map (·.1) = (idealFrom layer cs s).map (·.map some) := by
  induction cs generalizing src st s with
  | nil => rfl
  | cons c cs ih =>
    have := step_sim h c (hc.imp id fun h => h.1)
    simp only [run, idealFrom]
    cases hi : ideal layer s c with
    | none => rw [hi] at this; simp only at this; rw [this]; rfl
    | some p =>
      obtain ⟨o, s'⟩ := p
      rw [hi] at this
      obtain ⟨st', h1, h2⟩ := this
      have h3 := ih _ st' s' h2 (hc.imp id fun h => h.2)
      rw [h1]
      simp only [Option.bind_some]
      cases hr : run stash layer cs st' with
      | none => rw [hr] at h3; cases hf : idealFrom layer cs s' with
        | none => rfl
        | some l => rw [hf] at h3; cases h3
      | some q =>
        rw [hr] at h3
        cases hf : idealFrom layer cs s' with
        | none => rw [hf] at h3; cases h3
        | some l =>
          rw [hf] at h3
          simp only [Option.map_some, Option.some.injEq] at h3 ⊢
          rw [h3]; simp

theorem init_sim (stash : Bool) (layer : List E) : Sim stash layer (fun _ => none) ⟨fun _ => none, fun _ => none, 0⟩
    (⟨fun _ => none, fun _ => none⟩ : SSt E) :=
  ⟨fun _ => rfl, fun _ _ => .inl ⟨rfl, rfl⟩, fun _ _ _ h => by cases h⟩

/-- C97 for all layers but the constant view of the layer of regulatory elements: every program sees what it sees if references stay the
elements they were bound to, and it is defined exactly if it only dereferences and increments iterators in front of the end. -/
theorem in_place_program (layer : List E) (cs : List Stmt) :
    sees false layer cs = (idealSees layer cs).map (·.map some) :=
  run_sim cs _ _ _ (init_sim false layer) (.inl rfl)

/-- C97 for the constant view of the layer of regulatory elements, for programs that look at a reference only until the iterator it comes
from is used again. -/
theorem careful_program (layer : List E) (cs : List Stmt) (h : Careful cs fun _ => none) :
    sees true layer cs = (idealSees layer cs).map (·.map some) :=
  run_sim cs _ _ _ (init_sim true layer) (.inr h)

/-- C97 for all layers, for programs that copy the elements. -/
theorem value_program (stash : Bool) (layer : List E) (cs : List Stmt) (h : ByValue cs) :
    sees stash layer cs = (idealSees layer cs).map (·.map some) := by
  refine run_sim cs _ _ _ (init_sim stash layer) (.inr ?_)
  generalize (fun _ => none : Nat → Option Nat) = src
  induction cs generalizing src with
  | nil => trivial
  | cons c cs ih =>
    exact ⟨fun r hr => absurd hr ((h c (by simp) r).2.2), ih (fun c' hc' => h c' (by simp [hc'])) _⟩

theorem loop_careful (n : Nat) (src : Nat → Option Nat) (cs : List Stmt) (h : ∀ src, Careful cs src) :
    Careful ((List.replicate n [Stmt.bind 0 0, .look 0, .inc 0]).flatten ++ cs) src := by
  induction n generalizing src with
  | zero => exact h src
  | succ n ih =>
    simp only [List.replicate_succ, List.flatten_cons, List.cons_append, List.nil_append]
    refine ⟨fun r hr => (by cases hr), ?_, ?_, ih _⟩
    · intro r hr
      cases hr
      simp [Stmt.after]
    · intro r hr; cases hr

theorem loop_ideal (n : Nat) (layer : List E) (s : SSt E) (p : Nat) (hp : s.its 0 = some p) (hn : p + n = layer.length) :
    idealFrom layer ((List.replicate n [Stmt.bind 0 0, .look 0, .inc 0]).flatten ++ [.drop 0]) s = some (layer.drop p) := by
  induction n generalizing s p with
  | zero =>
    simp only [List.replicate_zero, List.flatten_nil, List.nil_append, idealFrom, ideal, Option.bind_some, Option.map_some]
    rw [List.drop_eq_nil_of_le (by omega)]
  | succ n ih =>
    have hl : p < layer.length := by omega
    simp only [List.replicate_succ, List.flatten_cons, List.cons_append, List.nil_append]
    rw [List.drop_eq_getElem_cons hl]
    simp only [idealFrom, ideal, hp, Option.bind_some, List.getElem?_eq_getElem hl, Option.map_some, SSt.setRef, if_true, if_pos hl]
    rw [ih _ (p + 1) (by simp [SSt.setIt]) (by omega)]
    simp

/-- C97. A loop over a layer, constant or not, sees every element once, in the order of the layer. -/
theorem rangeFor_sees (stash : Bool) (layer : List E) : sees stash layer (rangeFor layer.length) = some (layer.map some) := by
  have hc : Careful (rangeFor layer.length) fun _ => none :=
    ⟨fun r hr => (by cases hr), loop_careful _ _ _ fun src => ⟨fun r hr => (by cases hr), trivial⟩⟩
  rw [show sees stash layer (rangeFor layer.length) = _ from run_sim _ _ _ _ (init_sim stash layer) (.inr hc)]
  have := loop_ideal layer.length layer (SSt.setIt ⟨fun _ => none, fun _ => none⟩ 0 (some 0)) 0 (by simp [SSt.setIt]) (by omega)
  simp only [rangeFor, List.cons_append, idealFrom, ideal, Nat.zero_le, if_true, Option.bind_some]
  rw [this]
  simp

/-! ### Finding elements -/

/-- C97. `find` gives the position of the element with this id, and the end if there is none. -/
theorem find_spec (keys : List Int) (id : Int) (i : Nat) (hnd : keys.Nodup) :
    (keys[i]? = some id → find keys id = i) ∧ (id ∉ keys ↔ find keys id = keys.length) := by
  constructor
  · intro h
    obtain ⟨hl, he⟩ := List.getElem?_eq_some_iff.1 h
    have h1 : find keys id < keys.length := List.findIdx_lt_length_of_exists ⟨keys[i], List.getElem_mem hl, by simp [he]⟩
    have h2 : keys[find keys id] = id := by
      have : (keys[find keys id] == id) = true := List.findIdx_getElem (p := (· == id)) (w := h1)
      exact eq_of_beq this
    exact (List.Nodup.getElem_inj_iff hnd).1 (h2.trans he.symm)
  · rw [find, List.findIdx_eq_length]
    constructor
    · intro h x hx
      have : x ≠ id := fun e => h (e ▸ hx)
      simpa using this
    · intro h hm
      have := h id hm
      simp at this

/-! ### Where the code is wrong -/

theorem run_append (stash : Bool) (layer : List E) (cs ds : List Stmt) (st : St E) :
    run stash layer (cs ++ ds) st = (run stash layer cs st).bind fun (o, st') =>
      (run stash layer ds st').map fun (o', st'') => (o ++ o', st'') := by
  induction cs generalizing st with
  | nil =>
    simp only [List.nil_append, run, Option.bind_some]
    cases run stash layer ds st <;> rfl
  | cons c cs ih =>
    simp only [List.cons_append, run]
    cases step stash layer st c with
    | none => rfl
    | some p =>
      obtain ⟨o, st'⟩ := p
      simp only [ih]
      cases run stash layer cs st' with
      | none => rfl
      | some q =>
        obtain ⟨o', st''⟩ := q
        simp only [Option.bind_some]
        cases run stash layer ds st'' <;> simp

theorem deref_fresh {stash : Bool} {layer : List E} {st st' : St E} {x : Nat} {v : Ref} (h : deref stash layer st x = some (v, st'))
    (hst : ∀ x it, st.its x = some it → it.obj < st.next) : ∀ x it, st'.its x = some it → it.obj < st'.next := by
  unfold deref at h
  split at h
  · cases h
  · rename_i it hx
    split at h
    · cases h
    · split at h
      · cases h
        intro y it' hy
        simp only [St.setIt] at hy
        split at hy
        · cases hy; exact hst x it hx
        · exact hst y it' hy
      · cases h; exact hst

theorem step_fresh {stash : Bool} {layer : List E} {st st' : St E} {c : Stmt} {o} (h : step stash layer st c = some (o, st'))
    (hst : ∀ x it, st.its x = some it → it.obj < st.next) : ∀ x it, st'.its x = some it → it.obj < st'.next := by
  have set : ∀ x (it : Option (It E)) n, st.next ≤ n → (∀ i, it = some i → i.obj < n) →
      ∀ y j, ({ st.setIt x it with next := n } : St E).its y = some j → j.obj < n := by
    intro x it n hn hi y j hj
    simp only [St.setIt] at hj
    split at hj
    · exact hi j hj
    · exact Nat.lt_of_lt_of_le (hst y j hj) hn
  cases c with
  | decl x i =>
    simp only [step] at h
    split at h
    · cases h; exact set _ _ _ (by omega) (by intro i hi; cases hi; exact Nat.lt_succ_self _)
    · cases h
  | copy x y =>
    simp only [step] at h
    split at h
    · cases h
    · cases h; exact set _ _ _ (by omega) (by intro i hi; cases hi; exact Nat.lt_succ_self _)
  | assign x i =>
    simp only [step] at h
    split at h
    · cases h
    · rename_i it hx
      split at h
      · cases h; exact set _ _ _ (Nat.le_refl _) (by intro i hi; cases hi; exact hst x it hx)
      · cases h
  | inc x =>
    simp only [step] at h
    split at h
    · cases h
    · rename_i it hx
      split at h
      · cases h; exact set _ _ _ (Nat.le_refl _) (by intro i hi; cases hi; exact hst x it hx)
      · cases h
  | drop x => cases h; exact set x none st.next (Nat.le_refl _) (by intro i hi; cases hi)
  | value x =>
    simp only [step] at h
    split at h
    · cases h
    · rename_i hd
      split at h
      · cases h
      · cases h; exact deref_fresh hd hst
  | bind r x =>
    simp only [step] at h
    split at h
    · cases h
    · rename_i v st1 hd
      cases h
      have := deref_fresh hd hst
      exact this
  | bindTemp r i =>
    simp only [step] at h
    split at h
    · cases h
    · cases h; exact fun x it hx => Nat.lt_succ_of_lt (hst x it hx)
  | look r =>
    simp only [step] at h
    split at h
    · cases h
    · split at h
      · cases h
      · cases h; exact hst

theorem run_fresh {stash : Bool} {layer : List E} (cs : List Stmt) {st st' : St E} {o} (h : run stash layer cs st = some (o, st'))
    (hst : ∀ x it, st.its x = some it → it.obj < st.next) : ∀ x it, st'.its x = some it → it.obj < st'.next := by
  induction cs generalizing st o with
  | nil => cases h; exact hst
  | cons c cs ih =>
    simp only [run] at h
    split at h
    · cases h
    · rename_i hs
      split at h
      · cases h
      · rename_i hr
        cases h
        exact ih hr (step_fresh hs hst)

/-- C97, disagreement. For a constant layer of regulatory elements, `const auto& r = *layer.find(id)` gives a reference to a member of the
iterator, which is gone at the end of the statement: looking at `r` is undefined behaviour, whatever the program did before. -/
theorem temporary_counterexample (layer : List E) (cs : List Stmt) (r i : Nat) : sees true layer (cs ++ [.bindTemp r i, .look r]) = none := by
  simp only [sees, run_append]
  cases hr : run true layer cs ⟨fun _ => none, fun _ => none, 0⟩ with
  | none => rfl
  | some p =>
    obtain ⟨o, st⟩ := p
    have hf := run_fresh cs hr (fun x it h => by cases h)
    simp only [Option.bind_some, run, step]
    cases layer[i]? with
    | none => rfl
    | some e =>
      simp only [if_true, follow]
      cases h0 : st.its 0 with
      | none => rfl
      | some it =>
        have := hf 0 it h0
        simp only
        rw [if_neg (by omega)]
        rfl

/-- C97, disagreement. For a constant layer of regulatory elements, two references that come from the same iterator before and after an
increment are both the second element. -/
theorem two_references_counterexample (layer : List E) (i : Nat) (a b : E) (ha : layer[i]? = some a) (hb : layer[i + 1]? = some b) :
    sees true layer [.decl 0 i, .bind 0 0, .inc 0, .bind 1 0, .look 0, .look 1] = some [some b, some b] ∧
    idealSees layer [.decl 0 i, .bind 0 0, .inc 0, .bind 1 0, .look 0, .look 1] = some [a, b] := by
  have hi : i + 1 < layer.length := (List.getElem?_eq_some_iff.1 hb).1
  have h1 : i ≤ layer.length := by omega
  have h2 : i < layer.length := by omega
  constructor
  · simp [sees, run, step, deref, follow, St.setIt, St.setRef, h1, h2, hb]
  · simp only [idealSees, idealFrom, ideal, SSt.setIt, SSt.setRef, h1, h2, ha, hb, if_true, Option.bind_some, Option.map_some,
      show (0 : Nat) ≠ 1 from by decide, if_false]
    rfl

/-- C97, disagreement. For a constant layer of regulatory elements, a reference becomes a null pointer when the iterator it comes from is
assigned the result of another search. -/
theorem assign_counterexample (layer : List E) (i j : Nat) (a : E) (ha : layer[i]? = some a) (hj : j ≤ layer.length) :
    sees true layer [.decl 0 i, .bind 0 0, .assign 0 j, .look 0] = some [none] := by
  have h1 : i ≤ layer.length := by have := (List.getElem?_eq_some_iff.1 ha).1; omega
  simp [sees, run, step, deref, follow, St.setIt, St.setRef, h1, ha, hj]

/-! ### Examples -/

-- a careful program on a constant layer with three elements: find, copy of the iterator, increments, two references
example : sees true [10, 20, 30] [.decl 0 (find [7, 5, 9] 5), .bind 0 0, .copy 1 0, .inc 1, .inc 0, .bind 1 1, .look 0, .look 1, .value 0] =
    some [some 20, some 30, some 30] := by decide

example : Careful [.decl 0 1, .bind 0 0, .copy 1 0, .inc 1, .inc 0, .bind 1 1, .look 0, .look 1, .value 0] fun _ => none := by
  simp [Careful, Stmt.after, Stmt.touches]

-- the end of a layer must not be dereferenced
example : sees false [10, 20, 30] [.decl 0 (find [7, 5, 9] 8), .value 0] = none := by decide

example : sees true [10, 20, 30] (rangeFor 3) = some [some 10, some 20, some 30] := rangeFor_sees true [10, 20, 30]

example : sees true [10, 20, 30] [.bindTemp 0 1, .look 0] = none := temporary_counterexample [10, 20, 30] [] 0 1

example : ByValue [.decl 0 0, .value 0, .inc 0, .value 0] := by
  intro c hc r
  simp only [List.mem_cons, List.not_mem_nil, or_false] at hc
  rcases hc with h | h | h | h <;> subst h <;> simp

end Verif.Util.Iter
