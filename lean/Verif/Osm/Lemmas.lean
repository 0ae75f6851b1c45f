import Mathlib.Tactic.Ring
import Verif.Osm.File

/-!
Lemmas about the maps and the placeholders of relations.
-/
namespace Verif.Osm

namespace AMap
variable {K V : Type} [DecidableEq K]

@[simp] theorem get_nil (k : K) : AMap.get ([] : AMap K V) k = none := rfl

theorem get_cons (e : K × V) (m : AMap K V) (k : K) : AMap.get (e :: m) k = if e.1 = k then some e.2 else AMap.get m k := by
  unfold AMap.get
  rw [List.find?_cons]
  by_cases h : e.1 = k <;> simp [h]

theorem has_cons (e : K × V) (m : AMap K V) (k : K) : AMap.has (e :: m) k = (decide (e.1 = k) || AMap.has m k) := rfl

theorem has_eq (m : AMap K V) (k : K) : m.has k = (m.get k).isSome := by
  induction m with
  | nil => rfl
  | cons e m ih =>
    rw [get_cons, has_cons, ih]
    by_cases h : e.1 = k <;> simp [h]

theorem has_iff_mem (m : AMap K V) (k : K) : m.has k = true ↔ k ∈ m.map (·.1) := by
  unfold AMap.has
  simp only [List.any_eq_true, decide_eq_true_eq, List.mem_map]

theorem get_append (m n : AMap K V) (k : K) : AMap.get (m ++ n) k = (m.get k).or (AMap.get n k) := by
  induction m with
  | nil => simp
  | cons e m ih =>
    rw [List.cons_append, get_cons, get_cons, ih]
    split <;> simp

theorem get_emplace (m : AMap K V) (k k' : K) (v : V) :
    (m.emplace k v).get k' = if k' = k then some ((m.get k).getD v) else m.get k' := by
  unfold emplace
  by_cases hh : m.has k = true
  · rw [if_pos hh]
    rw [has_eq] at hh
    obtain ⟨w, hw⟩ := Option.isSome_iff_exists.mp hh
    split
    · rename_i h; subst h; rw [hw]; rfl
    · rfl
  · rw [if_neg hh]
    rw [has_eq] at hh
    have hn : m.get k = none := by simpa using hh
    rw [get_append, get_cons, get_nil]
    split
    · rename_i h; subst h; rw [hn]; simp
    · rename_i h
      have h' : ¬ k' = k := fun e => h e.symm
      simp [h']

theorem get_modify (m : AMap K V) (k k' : K) (f : V → V) :
    (m.modify k f).get k' = if k' = k then (m.get k).map f else m.get k' := by
  induction m with
  | nil => simp [modify]
  | cons e m ih =>
    have hm : AMap.modify (e :: m) k f = (if e.1 = k then (e.1, f e.2) else e) :: AMap.modify m k f := rfl
    rw [hm, get_cons, ih, get_cons, get_cons]
    by_cases h1 : e.1 = k
    · simp only [h1, if_true]
      by_cases h2 : k' = k
      · simp [h2]
      · have h3 : ¬ k = k' := fun e => h2 e.symm
        simp [h2, h3]
    · simp only [h1, if_false]
      by_cases h2 : k' = k
      · have : ¬ e.1 = k' := fun e => h1 (e.trans h2)
        simp [h2, h1]
      · simp [h2]

theorem get_map_value (m : AMap K V) (k k' : K) (v : V) :
    AMap.get (m.map fun e => if e.1 = k then (e.1, v) else e) k' = if k' = k then (m.get k).map (fun _ => v) else m.get k' := by
  have := get_modify m k k' fun _ => v
  exact this

theorem get_set (m : AMap K V) (k k' : K) (v : V) : (m.set k v).get k' = if k' = k then some v else m.get k' := by
  unfold set
  by_cases hh : m.has k = true
  · rw [if_pos hh, get_map_value]
    rw [has_eq] at hh
    obtain ⟨w, hw⟩ := Option.isSome_iff_exists.mp hh
    rw [hw]; rfl
  · rw [if_neg hh]
    rw [has_eq] at hh
    have hn : m.get k = none := by simpa using hh
    rw [get_append, get_cons, get_nil]
    split
    · rename_i h; subst h; rw [hn]; simp
    · rename_i h
      have h' : ¬ k' = k := fun e => h e.symm
      simp [h']

theorem keys_modify (m : AMap K V) (k : K) (f : V → V) : (m.modify k f).map (·.1) = m.map (·.1) := by
  unfold modify
  rw [List.map_map]
  apply List.map_congr_left
  intro e _
  simp only [Function.comp_apply]
  split <;> rfl

theorem has_modify (m : AMap K V) (k k' : K) (f : V → V) : (m.modify k f).has k' = m.has k' := by
  rw [Bool.eq_iff_iff, has_iff_mem, has_iff_mem, keys_modify]

theorem keys_emplace (m : AMap K V) (k : K) (v : V) :
    (m.emplace k v).map (·.1) = if m.has k then m.map (·.1) else m.map (·.1) ++ [k] := by
  unfold emplace
  split <;> simp

theorem keys_set (m : AMap K V) (k : K) (v : V) :
    (m.set k v).map (·.1) = if m.has k then m.map (·.1) else m.map (·.1) ++ [k] := by
  unfold set
  split
  · exact keys_modify m k fun _ => v
  · simp

theorem nodup_emplace (m : AMap K V) (k : K) (v : V) (h : (m.map (·.1)).Nodup) : ((m.emplace k v).map (·.1)).Nodup := by
  rw [keys_emplace]
  split
  · exact h
  · rename_i hn
    rw [has_iff_mem] at hn
    rw [List.nodup_append]
    refine ⟨h, by simp, ?_⟩
    rintro a ha b hb rfl
    rw [List.mem_singleton.mp hb] at ha
    exact hn ha

theorem nodup_set (m : AMap K V) (k : K) (v : V) (h : (m.map (·.1)).Nodup) : ((m.set k v).map (·.1)).Nodup := by
  have := nodup_emplace m k v h
  rw [keys_set, ← keys_emplace m k v]
  exact this

theorem get_of_mem {m : AMap K V} (h : (m.map (·.1)).Nodup) {e : K × V} (he : e ∈ m) : m.get e.1 = some e.2 := by
  induction m with
  | nil => cases he
  | cons x m ih =>
    rw [get_cons]
    simp only [List.map_cons, List.nodup_cons] at h
    rcases List.mem_cons.mp he with rfl | he
    · simp
    · have : ¬ x.1 = e.1 := fun hx => h.1 (hx ▸ List.mem_map_of_mem he)
      rw [if_neg this, ih h.2 he]

theorem mem_of_get {m : AMap K V} {k : K} {v : V} (h : m.get k = some v) : (k, v) ∈ m := by
  induction m with
  | nil => simp at h
  | cons x m ih =>
    rw [get_cons] at h
    split at h
    · rename_i hx
      obtain rfl := Option.some.inj h
      rw [← hx]; exact List.mem_cons_self ..
    · exact List.mem_cons_of_mem _ (ih h)

end AMap

/-! ### placeholders -/

/-- members of a relation where a placeholder is replaced by the id it stands for -/
abbrev Abs := List (String × (Target ⊕ Id))

/-- what the code stores -/
def er (m : String × (Target ⊕ Id)) : String × Option Target :=
  (m.1, match m.2 with
    | .inl t => some t
    | .inr _ => none)

/-- the placeholders in the members of relation `r`, of which the first is at `addr` -/
def pend (r : Id) : Int → Abs → List Unresolved
  | _, [] => []
  | addr, (_, .inl _) :: A => pend r (addr + 1) A
  | addr, (_, .inr ref) :: A => ⟨r, ref, addr⟩ :: pend r (addr + 1) A

/-- the members after all placeholders were resolved -/
def final (ex : Id → Bool) (A : Abs) : List (String × Target) :=
  A.filterMap fun m => match m.2 with
    | .inl t => some (m.1, t)
    | .inr ref => if ex ref then some (m.1, .relation ref) else none

/-- Helper of the proofs: no placeholder is left. -/
def settled (A : Abs) : Prop := ∀ m ∈ A, ∃ t, m.2 = Sum.inl t

theorem pend_settled (r : Id) : ∀ (A : Abs) (a : Int), settled A → pend r a A = []
  | [], _, _ => rfl
  | (role, .inl t) :: A, a, h => by
    rw [pend]; exact pend_settled r A _ fun m hm => h m (List.mem_cons_of_mem _ hm)
  | (role, .inr ref) :: A, a, h => by
    obtain ⟨t, ht⟩ := h _ (List.mem_cons_self ..)
    cases ht

theorem pend_append (r : Id) : ∀ (A B : Abs) (a : Int), pend r a (A ++ B) = pend r a A ++ pend r (a + A.length) B
  | [], B, a => by simp [pend]
  | (role, .inl t) :: A, B, a => by
    have e : a + 1 + (A.length : Int) = a + ((role, Sum.inl t) :: A : Abs).length := by simp; ring
    rw [List.cons_append, pend, pend, pend_append r A B, e]
  | (role, .inr ref) :: A, B, a => by
    have e : a + 1 + (A.length : Int) = a + ((role, Sum.inr ref) :: A : Abs).length := by simp; ring
    rw [List.cons_append, pend, pend, pend_append r A B, e, List.cons_append]

theorem pend_cons (r : Id) : ∀ (A : Abs) (a : Int) (u : Unresolved) (us : List Unresolved), pend r a A = u :: us →
    ∃ pre role post, A = pre ++ (role, Sum.inr u.ref) :: post ∧ settled pre ∧ u.addr = a + pre.length ∧ u.relation = r ∧
      us = pend r (a + pre.length + 1) post
  | [], a, u, us, h => by simp [pend] at h
  | (role, .inl t) :: A, a, u, us, h => by
    rw [pend] at h
    obtain ⟨pre, role', post, rfl, h2, h3, h4, h5⟩ := pend_cons r A (a + 1) u us h
    refine ⟨(role, .inl t) :: pre, role', post, rfl, ?_, ?_, h4, ?_⟩
    · intro m hm
      rcases List.mem_cons.mp hm with rfl | hm
      · exact ⟨t, rfl⟩
      · exact h2 m hm
    · rw [h3]; simp; ring
    · rw [h5]; congr 1; simp; ring
  | (role, .inr ref) :: A, a, u, us, h => by
    rw [pend] at h
    obtain ⟨rfl, rfl⟩ := List.cons.inj h
    exact ⟨[], role, A, rfl, by intro m hm; simp at hm, by simp, rfl, by simp⟩

theorem mem_pend (r : Id) : ∀ (A : Abs) (a : Int) (v : Unresolved), v ∈ pend r a A →
    ∃ (j : Nat) (role : String), A[j]? = some (role, Sum.inr v.ref) ∧ v.addr = a + j ∧ v.relation = r
  | [], a, v, h => by simp [pend] at h
  | (role, .inl t) :: A, a, v, h => by
    rw [pend] at h
    obtain ⟨j, role', h1, h2, h3⟩ := mem_pend r A (a + 1) v h
    exact ⟨j + 1, role', by simpa using h1, by rw [h2]; push_cast; ring, h3⟩
  | (role, .inr ref) :: A, a, v, h => by
    rw [pend] at h
    rcases List.mem_cons.mp h with rfl | h
    · exact ⟨0, role, rfl, by simp, rfl⟩
    · obtain ⟨j, role', h1, h2, h3⟩ := mem_pend r A (a + 1) v h
      exact ⟨j + 1, role', by simpa using h1, by rw [h2]; push_cast; ring, h3⟩

theorem pend_shift (r : Id) : ∀ (A : Abs) (a a' : Int),
    (pend r a A).map (fun v => { v with addr := v.addr + (a' - a) }) = pend r a' A
  | [], _, _ => rfl
  | (role, .inl t) :: A, a, a' => by
    have := pend_shift r A (a + 1) (a' + 1)
    rw [pend, pend, ← this]
    apply List.map_congr_left
    intro v _
    congr 1
    omega
  | (role, .inr ref) :: A, a, a' => by
    have := pend_shift r A (a + 1) (a' + 1)
    rw [pend, pend, ← this, List.map_cons]
    congr 1
    · congr 1; ring
    · apply List.map_congr_left
      intro v _
      congr 1
      omega

theorem index_at (b : Int) (pre post : List (String × Option Target)) (x : String × Option Target) :
    Roles.index ⟨b, pre ++ x :: post⟩ (b + pre.length) = some pre.length := by
  unfold Roles.index
  rw [if_pos]
  · simp
  · simp only [List.length_append, List.length_cons]
    push_cast
    omega

/-- removeAndFixPlaceholders keeps the other members and moves the other placeholders to their new addresses -/
theorem removeAndFix_spec (front : Nat → Nat → Bool) (r : Id) (b : Int) (pre : Abs) (role : String) (ref : Id) (post : Abs)
    (hpre : settled pre) :
    ∃ b' move, removeAndFix true front (b + pre.length) ⟨b, (pre ++ (role, Sum.inr ref) :: post).map er⟩ =
        some (⟨b', (pre ++ post).map er⟩, move) ∧
      (pend r (b + pre.length + 1) post).map (fun v => { v with addr := move v.addr }) = pend r (b' + pre.length) post := by
  let items := (pre ++ (role, Sum.inr ref) :: post).map er
  have hitems : items = pre.map er ++ (role, none) :: post.map er := by simp [items, er]
  let k := pre.length
  let P : List (Nat × Int) := otherPlaceholders true ⟨b, items⟩ k
  have hP : ∀ p ∈ P, ∃ i, i > k ∧ i < items.length ∧ p = (i - 1, b + (i : Int)) := by
    intro p hp
    obtain ⟨⟨item, i⟩, h1, h2⟩ := List.mem_filterMap.mp hp
    simp only at h2
    rw [List.mem_zipIdx_iff_getElem?] at h1
    simp only at h1
    split at h2
    · rename_i hc
      have hi : i < items.length := (List.getElem?_eq_some_iff.mp h1).1
      have hgt : i > k := by
        rcases Nat.lt_or_ge i k with h | h
        · exfalso
          rw [hitems, List.getElem?_append_left (by simpa using h), List.getElem?_map] at h1
          obtain ⟨m, hm, rfl⟩ := Option.map_eq_some_iff.mp h1
          obtain ⟨t, ht⟩ := hpre m (List.mem_of_getElem? hm)
          simp [er, ht] at hc
        · omega
      refine ⟨i, hgt, hi, ?_⟩
      rw [if_pos ⟨trivial, hgt⟩] at h2
      exact (Option.some.inj h2).symm
    · simp at h2
  have hPm : ∀ (j : Nat) (role' : String) (ref' : Id), post[j]? = some (role', Sum.inr ref') →
      (k + j, b + (k + 1 + j : Nat)) ∈ P := by
    intro j role' ref' hj
    refine List.mem_filterMap.mpr ⟨((role', none), k + 1 + j), ?_, ?_⟩
    · rw [List.mem_zipIdx_iff_getElem?]
      simp only
      rw [hitems, List.getElem?_append_right (by simp [k]; omega)]
      have : k + 1 + j - (pre.map er).length = j + 1 := by simp [k]; omega
      rw [this, List.getElem?_cons_succ, List.getElem?_map, hj]
      rfl
    · have h1 : k + 1 + j ≠ k := by omega
      have h2 : k + 1 + j > k := by omega
      have h3 : k + 1 + j - 1 = k + j := by omega
      simp [h1, h2, h3]
  have hlen : items.length = k + 1 + post.length := by simp [hitems, k]; omega
  have herase : items.eraseIdx k = (pre ++ post).map er := by
    rw [hitems, List.eraseIdx_append_of_length_le (by simp [k])]
    simp [k]
  have hidx : Roles.index ⟨b, items⟩ (b + k) = some k := by
    have := index_at b (pre.map er) (post.map er) (role, none)
    rw [← hitems] at this
    simpa [k] using this
  obtain ⟨b', hb'⟩ : ∃ b', (if front k items.length then b + 1 else b) = b' := ⟨_, rfl⟩
  let move : Int → Int := fun addr => match P.find? fun p => p.2 = addr with
      | some p => b' + p.1
      | none => addr
  refine ⟨b', move, ?_, ?_⟩
  · have hany : (P.any fun p => decide (p.1 ≥ ((pre ++ post).map er).length)) = false := by
      rw [Bool.eq_false_iff]
      intro hc
      obtain ⟨p, hp, hpl⟩ := List.any_eq_true.mp hc
      obtain ⟨i, h1, h2, rfl⟩ := hP p hp
      simp only [decide_eq_true_eq, List.length_map, List.length_append] at hpl
      simp only [k] at *
      omega
    have hie : (Roles.erase front ⟨b, items⟩ k) = ⟨b', (pre ++ post).map er⟩ := by
      simp only [Roles.erase, herase, hb']
    change removeAndFix true front (b + (k : Int)) ⟨b, items⟩ = _
    unfold removeAndFix
    rw [hidx]
    simp only [bind, Option.bind]
    rw [hie, if_neg]
    · rfl
    · change ¬ (P.any fun p => decide (p.1 ≥ ((pre ++ post).map er).length)) = true
      rw [hany]; simp
  · rw [← pend_shift r post (b + pre.length + 1) (b' + pre.length)]
    apply List.map_congr_left
    intro v hv
    obtain ⟨j, role', h1, h2, h3⟩ := mem_pend r post _ v hv
    have hm := hPm j role' v.ref h1
    have haddr : v.addr = b + (k + 1 + j : Nat) := by rw [h2]; simp only [k]; push_cast; ring
    have hfind : ∃ p, P.find? (fun p => decide (p.2 = v.addr)) = some p := by
      rw [← Option.isSome_iff_exists, List.find?_isSome]
      exact ⟨_, hm, by simp [haddr]⟩
    obtain ⟨p, hp⟩ := hfind
    have hps := List.find?_some hp
    obtain ⟨i, h4, h5, rfl⟩ := hP p (List.mem_of_find?_eq_some hp)
    simp only [decide_eq_true_eq] at hps
    have hmv : move v.addr = b' + ((i - 1 : Nat) : Int) := by simp only [move, hp]
    rw [hmv]
    congr 1
    rw [haddr] at hps
    have hi : i = k + 1 + j := by omega
    rw [haddr, hi]
    simp only [k]
    push_cast
    omega

/-- no placeholder follows a missing one -/
def GoodAbs (ex : Id → Bool) (A : Abs) : Prop :=
  A.Pairwise fun a b => ∀ ref, a.2 = Sum.inr ref → ex ref = false → ∃ t, b.2 = Sum.inl t

theorem GoodAbs.post {ex : Id → Bool} {pre post : Abs} {role : String} {ref : Id} (h : GoodAbs ex (pre ++ (role, Sum.inr ref) :: post))
    (hx : ex ref = false) : settled post := by
  have h1 := (List.pairwise_cons.mp (List.pairwise_append.mp h).2.1).1
  intro m hm
  exact h1 m hm ref rfl hx

theorem GoodAbs.remove {ex : Id → Bool} {pre post : Abs} {m : String × (Target ⊕ Id)} (h : GoodAbs ex (pre ++ m :: post)) :
    GoodAbs ex (pre ++ post) :=
  List.Pairwise.sublist (List.Sublist.append_left (List.sublist_cons_self ..) _) h

theorem GoodAbs.resolve {ex : Id → Bool} {pre post : Abs} {role : String} {ref : Id} {t : Target}
    (h : GoodAbs ex (pre ++ (role, Sum.inr ref) :: post)) : GoodAbs ex (pre ++ (role, Sum.inl t) :: post) := by
  obtain ⟨h1, h2, h3⟩ := List.pairwise_append.mp h
  obtain ⟨h4, h5⟩ := List.pairwise_cons.mp h2
  refine List.pairwise_append.mpr ⟨h1, List.pairwise_cons.mpr ⟨?_, h5⟩, ?_⟩
  · intro b _ r hr
    simp at hr
  · intro a ha b hb
    rcases List.mem_cons.mp hb with rfl | hb
    · intro r _ _; exact ⟨t, rfl⟩
    · exact h3 a ha b (List.mem_cons_of_mem _ hb)

theorem otherPlaceholders_settled (shift : Bool) (b : Int) (pre : Abs) (role : String) (ref : Id) (post : Abs)
    (hpre : settled pre) (hpost : settled post) :
    otherPlaceholders shift ⟨b, (pre ++ (role, Sum.inr ref) :: post).map er⟩ pre.length = [] := by
  unfold otherPlaceholders
  rw [List.filterMap_eq_nil_iff]
  rintro ⟨item, i⟩ hx
  rw [List.mem_zipIdx_iff_getElem?] at hx
  simp only [List.getElem?_map] at hx ⊢
  rw [if_neg]
  rintro ⟨h1, h2⟩
  obtain ⟨m, hm, rfl⟩ := Option.map_eq_some_iff.mp hx
  have key : ∃ t, m.2 = Sum.inl t := by
    rcases Nat.lt_or_ge i pre.length with h | h
    · rw [List.getElem?_append_left h] at hm
      exact hpre m (List.mem_of_getElem? hm)
    · rw [List.getElem?_append_right h] at hm
      obtain ⟨j, hj⟩ : ∃ j, i - pre.length = j + 1 := ⟨i - pre.length - 1, by omega⟩
      rw [hj, List.getElem?_cons_succ] at hm
      exact hpost m (List.mem_of_getElem? hm)
  obtain ⟨t, ht⟩ := key
  simp [er, ht] at h1

theorem removeAndFix_false (front : Nat → Nat → Bool) (b : Int) (pre : Abs) (role : String) (ref : Id) (post : Abs)
    (hpre : settled pre) (hpost : settled post) (shift : Bool) :
    removeAndFix shift front (b + pre.length) ⟨b, (pre ++ (role, Sum.inr ref) :: post).map er⟩ =
    removeAndFix true front (b + pre.length) ⟨b, (pre ++ (role, Sum.inr ref) :: post).map er⟩ := by
  have hmap : (pre ++ (role, Sum.inr ref) :: post).map er = pre.map er ++ (role, none) :: post.map er := by simp [er]
  have hidx : Roles.index ⟨b, (pre ++ (role, Sum.inr ref) :: post).map er⟩ (b + pre.length) = some pre.length := by
    rw [hmap]
    simpa using index_at b (pre.map er) (post.map er) (role, none)
  unfold removeAndFix
  rw [hidx]
  simp only [bind, Option.bind, otherPlaceholders_settled _ b pre role ref post hpre hpost]

/-- the placeholders are where the list says -/
structure RI (relations : AMap Id Relation) (todo : List Unresolved) (A : Id → Abs) : Prop where
  items : ∀ r rel, relations.get r = some rel → rel.members.items = (A r).map er ∧
    todo.filter (fun u => u.relation = r) = pend r rel.members.base (A r)
  rel : ∀ u ∈ todo, relations.has u.relation = true

theorem resolveAll_spec (shift : Bool) (front : Nat → Nat → Bool) (ex : Id → Bool) : ∀ (n : Nat) (relations : AMap Id Relation)
    (todo : List Unresolved) (A : Id → Abs) (errs : List (Id × Id)), todo.length = n → (∀ i, relations.has i = ex i) →
    RI relations todo A → (shift = true ∨ ∀ r, GoodAbs ex (A r)) →
    ∃ relations', resolveAll shift front relations todo errs =
        some (relations', errs ++ (todo.filter fun u => !ex u.ref).map fun u => (u.relation, u.ref)) ∧
      relations'.map (·.1) = relations.map (·.1) ∧
      ∀ r rel, relations.get r = some rel → ∃ b, relations'.get r = some { rel with
        members := ⟨b, (final ex (A r)).map fun m => (m.1, some m.2)⟩ } := by
  intro n
  induction n with
  | zero =>
    intro relations todo A errs hn hex h hgood
    obtain rfl := List.length_eq_zero_iff.mp hn
    refine ⟨relations, by rw [resolveAll]; simp, rfl, ?_⟩
    intro r rel hr
    obtain ⟨h1, h2⟩ := h.items r rel hr
    refine ⟨rel.members.base, ?_⟩
    rw [hr]
    congr 1
    have : rel.members = ⟨rel.members.base, (final ex (A r)).map fun m => (m.1, some m.2)⟩ := by
      rw [show rel.members = ⟨rel.members.base, rel.members.items⟩ from rfl, h1]
      congr 1
      have hs : settled (A r) := by
        intro m hm
        cases hm2 : m.2 with
        | inl t => exact ⟨t, rfl⟩
        | inr ref =>
          exfalso
          obtain ⟨X, Y, hXY⟩ := List.append_of_mem hm
          obtain ⟨m1, m2⟩ := m
          simp only at hm2
          subst hm2
          rw [hXY, pend_append, pend] at h2
          simp at h2
      generalize A r = B at hs
      unfold final
      induction B with
      | nil => rfl
      | cons m B ih =>
        obtain ⟨t, ht⟩ := hs m (List.mem_cons_self ..)
        obtain ⟨m1, m2⟩ := m
        simp only at ht
        subst ht
        simp only [List.map_cons, List.filterMap_cons, er]
        rw [ih fun m hm => hs m (List.mem_cons_of_mem _ hm)]
    conv => lhs; rw [show rel = ⟨rel.id, rel.attrs, rel.members⟩ from rfl, this]
  | succ n ih =>
    intro relations todo A errs hn hex h hgood
    cases todo with
    | nil => simp at hn
    | cons u us =>
      have hus : us.length = n := by simpa using hn
      have hrel := h.rel u (List.mem_cons_self ..)
      rw [AMap.has_eq] at hrel
      obtain ⟨rel, hget⟩ := Option.isSome_iff_exists.mp hrel
      obtain ⟨hit, hpe⟩ := h.items u.relation rel hget
      have hfil : (u :: us).filter (fun v => decide (v.relation = u.relation)) =
          u :: us.filter (fun v => decide (v.relation = u.relation)) := by simp
      rw [hfil] at hpe
      obtain ⟨pre, role, post, hA, hpre, haddr, -, htail⟩ := pend_cons _ _ _ _ _ hpe.symm
      have hmem : rel.members = ⟨rel.members.base, (pre ++ (role, Sum.inr u.ref) :: post).map er⟩ := by
        rw [← hA, ← hit]
      have hmap : (pre ++ (role, Sum.inr u.ref) :: post).map er = pre.map er ++ (role, none) :: post.map er := by simp [er]
      have hidx : rel.members.index u.addr = some pre.length := by
        rw [hmem, haddr, hmap]
        have := index_at rel.members.base (pre.map er) (post.map er) (role, none)
        simpa using this
      have hat : rel.members.items[pre.length]? = some (role, none) := by
        rw [hmem, hmap]
        simp
      have hother : ∀ (f : Relation → Relation) r rel', (relations.modify u.relation f).get r = some rel' → r ≠ u.relation →
          relations.get r = some rel' := by
        intro f r rel' hr hne
        rw [AMap.get_modify, if_neg hne] at hr
        exact hr
      have hown : ∀ (f : Relation → Relation), (relations.modify u.relation f).get u.relation = some (f rel) := by
        intro f
        rw [AMap.get_modify, if_pos rfl, hget]; rfl
      by_cases hx : ex u.ref = true
      · -- the relation exists
        let f : Relation → Relation := fun r =>
          { r with members := { r.members with items := r.members.items.set pre.length (role, some (.relation u.ref)) } }
        have hstep : resolveOne shift front relations u us = some (relations.modify u.relation f, us, false) := by
          simp [resolveOne, hget, hidx, hat, hex, hx, f]
        let A' : Id → Abs := fun r => if r = u.relation then pre ++ (role, Sum.inl (.relation u.ref)) :: post else A r
        have hRI : RI (relations.modify u.relation f) us A' := by
          constructor
          · intro r rel' hr
            by_cases hre : r = u.relation
            · subst hre
              rw [hown] at hr
              obtain rfl := Option.some.inj hr
              simp only [A', if_true, f]
              refine ⟨?_, ?_⟩
              · rw [hmem, hmap]
                simp only [List.map_append, List.map_cons, er]
                rw [List.set_append_right _ _ (by simp)]
                simp
              · rw [htail, pend_append, pend_settled _ pre _ hpre, pend]
                simp
            · have hg := hother f r rel' hr hre
              have := h.items r rel' hg
              simp only [A', hre, if_false]
              refine ⟨this.1, ?_⟩
              rw [← this.2]
              have hne : ¬ u.relation = r := fun e => hre e.symm
              simp [hne]
          · intro v hv
            rw [AMap.has_modify]
            exact h.rel v (List.mem_cons_of_mem _ hv)
        obtain ⟨rels', e1, e2, e3⟩ := ih (relations.modify u.relation f) us A' errs hus
          (fun i => by rw [AMap.has_modify]; exact hex i) hRI
          (hgood.imp id fun hg r => by
            by_cases hr : r = u.relation
            · simp only [A', hr, if_true]; exact (hA ▸ hg u.relation).resolve
            · simp only [A', hr, if_false]; exact hg r)
        refine ⟨rels', ?_, ?_, ?_⟩
        · rw [resolveAll]
          simp only [hstep, bind, Option.bind]
          rw [if_neg (by simp), e1]
          simp [hx]
        · rw [e2, AMap.keys_modify]
        · intro r rel' hr
          by_cases hre : r = u.relation
          · subst hre
            obtain rfl : rel = rel' := Option.some.inj (hget.symm.trans hr)
            obtain ⟨b, hb⟩ := e3 u.relation _ (hown f)
            refine ⟨b, ?_⟩
            rw [hb]
            simp only [A', if_true, f, hA]
            simp [final, hx]
          · obtain ⟨b, hb⟩ := e3 r rel' (by rw [AMap.get_modify, if_neg hre]; exact hr)
            refine ⟨b, ?_⟩
            rw [hb]
            simp [A', hre]
      · -- it does not: remove the placeholder
        obtain ⟨b', move, hrem, hmove⟩ := removeAndFix_spec front u.relation rel.members.base pre role u.ref post hpre
        let f : Relation → Relation := fun r => { r with members := ⟨b', (pre ++ post).map er⟩ }
        let us' := us.map fun v => if v.relation = u.relation then { v with addr := move v.addr } else v
        have hstep : resolveOne shift front relations u us = some (relations.modify u.relation f, us', true) := by
          have hrem' : removeAndFix shift front u.addr rel.members = some (⟨b', (pre ++ post).map er⟩, move) := by
            rw [← hrem, haddr]
            have hms : rel.members = ⟨rel.members.base, (pre ++ (role, Sum.inr u.ref) :: post).map er⟩ := hmem
            conv_lhs => rw [hms]
            rcases hgood with rfl | hgood
            · rfl
            · exact removeAndFix_false front rel.members.base pre role u.ref post hpre
                ((hA ▸ hgood u.relation).post (by simpa using hx)) shift
          simp [resolveOne, hget, hidx, hat, hex, hx, hrem', f, us']
        have hrels : us'.map (fun v => (v.relation, v.ref)) = us.map fun v => (v.relation, v.ref) := by
          simp only [us', List.map_map]
          apply List.map_congr_left
          intro v _
          simp only [Function.comp_apply]
          split <;> rfl
        let A' : Id → Abs := fun r => if r = u.relation then pre ++ post else A r
        have hRI : RI (relations.modify u.relation f) us' A' := by
          constructor
          · intro r rel' hr
            by_cases hre : r = u.relation
            · subst hre
              rw [hown] at hr
              obtain rfl := Option.some.inj hr
              simp only [A', if_true, f]
              refine ⟨trivial, ?_⟩
              rw [pend_append, pend_settled _ pre _ hpre, List.nil_append, ← hmove, ← htail]
              simp only [us']
              rw [List.filter_map]
              have h1 : ((fun w : Unresolved => decide (w.relation = u.relation)) ∘
                  fun v : Unresolved => if v.relation = u.relation then { v with addr := move v.addr } else v) =
                  fun w => decide (w.relation = u.relation) := by
                funext w
                simp only [Function.comp_apply]
                split
                · rfl
                · rfl
              rw [h1]
              apply List.map_congr_left
              intro w hw
              have := (List.mem_filter.mp hw).2
              simp only [decide_eq_true_eq] at this
              rw [if_pos this]
            · have hg := hother f r rel' hr hre
              have := h.items r rel' hg
              simp only [A', hre, if_false]
              refine ⟨this.1, ?_⟩
              rw [← this.2]
              have hne : ¬ u.relation = r := fun e => hre e.symm
              simp only [us']
              rw [List.filter_map]
              have h1 : ((fun w : Unresolved => decide (w.relation = r)) ∘
                  fun v : Unresolved => if v.relation = u.relation then { v with addr := move v.addr } else v) =
                  fun w => decide (w.relation = r) := by
                funext w
                simp only [Function.comp_apply]
                split <;> rfl
              rw [h1]
              have h2 : (u :: us).filter (fun w => decide (w.relation = r)) = us.filter fun w => decide (w.relation = r) := by
                simp [hne]
              rw [h2]
              conv => rhs; rw [← List.map_id (us.filter _)]
              apply List.map_congr_left
              intro w hw
              have := (List.mem_filter.mp hw).2
              simp only [decide_eq_true_eq] at this
              have : ¬ w.relation = u.relation := fun e => hre (this.symm.trans e)
              rw [if_neg this]; rfl
          · intro v hv
            rw [AMap.has_modify]
            have : (v.relation, v.ref) ∈ us.map fun v => (v.relation, v.ref) := by
              rw [← hrels]; exact List.mem_map_of_mem (f := fun v => (v.relation, v.ref)) hv
            obtain ⟨w, hw, hwe⟩ := List.mem_map.mp this
            have := h.rel w (List.mem_cons_of_mem _ hw)
            rw [← (Prod.mk.inj hwe).1]; exact this
        obtain ⟨rels', e1, e2, e3⟩ := ih (relations.modify u.relation f) us' A' (errs ++ [(u.relation, u.ref)])
          (by simp [us', hus]) (fun i => by rw [AMap.has_modify]; exact hex i) hRI
          (hgood.imp id fun hg r => by
            by_cases hr : r = u.relation
            · simp only [A', hr, if_true]; exact (hA ▸ hg u.relation).remove
            · simp only [A', hr, if_false]; exact hg r)
        have herr : (us'.filter fun u => !ex u.ref).map (fun u => (u.relation, u.ref)) =
            (us.filter fun u => !ex u.ref).map fun u => (u.relation, u.ref) := by
          have key : ∀ l : List Unresolved, (l.filter fun u => !ex u.ref).map (fun u => (u.relation, u.ref)) =
              (l.map fun u => (u.relation, u.ref)).filter fun p => !ex p.2 := by
            intro l
            rw [List.filter_map]
            rfl
          rw [key, key, hrels]
        refine ⟨rels', ?_, ?_, ?_⟩
        · rw [resolveAll]
          simp only [hstep, bind, Option.bind]
          rw [if_pos trivial, e1, herr]
          simp [hx]
        · rw [e2, AMap.keys_modify]
        · intro r rel' hr
          by_cases hre : r = u.relation
          · subst hre
            obtain rfl : rel = rel' := Option.some.inj (hget.symm.trans hr)
            obtain ⟨b, hb⟩ := e3 u.relation _ (hown f)
            refine ⟨b, ?_⟩
            rw [hb]
            simp only [A', if_true, f, hA]
            simp [final, hx]
          · obtain ⟨b, hb⟩ := e3 r rel' (by rw [AMap.get_modify, if_neg hre]; exact hr)
            refine ⟨b, ?_⟩
            rw [hb]
            simp [A', hre]

/-! ### building relations -/

/-- state of the first pass -/
structure PI {E : Type} (s : RelState E) (A : Id → Abs) : Prop where
  ri : RI s.relations s.todo A
  new : ∀ r, s.relations.has r = false → A r = []

/-- Helper of the proofs: the placeholder for a member. -/
def todoOf (id : Id) (addr : Int) : Target ⊕ Id → List Unresolved
  | .inl _ => []
  | .inr ref => [⟨id, ref, addr⟩]

theorem push_RI {E : Type} {s : RelState E} {A : Id → Abs} (h : PI s A) {id : Id} (hid : s.relations.has id = true) (role : String)
    (x : Target ⊕ Id) (rels : AMap Id Relation)
    (hrels : rels = s.relations.modify id fun r => { r with members := r.members.push role (er (role, x)).2 }) :
    PI ⟨rels, s.todo ++ todoOf id (backAddr rels id) x, s.errs⟩ (fun r => if r = id then A id ++ [(role, x)] else A r) := by
  rw [AMap.has_eq] at hid
  obtain ⟨rel, hget⟩ := Option.isSome_iff_exists.mp hid
  have hown : rels.get id = some { rel with members := rel.members.push role (er (role, x)).2 } := by
    rw [hrels, AMap.get_modify, if_pos rfl, hget]; rfl
  obtain ⟨h1, h2⟩ := h.ri.items id rel hget
  have hnew : backAddr rels id = rel.members.base + (A id).length := by
    simp only [backAddr, hown]
    simp [Roles.backAddr, Roles.push, h1]
  constructor
  · constructor
    · intro r rel' hr
      by_cases hre : r = id
      · subst hre
        rw [hown] at hr
        obtain rfl := Option.some.inj hr
        simp only [if_true]
        refine ⟨?_, ?_⟩
        · simp [Roles.push, h1, er]
        · simp only [Roles.push]
          rw [List.filter_append, h2, pend_append]
          congr 1
          cases x with
          | inl t => simp [pend, todoOf]
          | inr ref => simp [pend, hnew, todoOf]
      · have hg : s.relations.get r = some rel' := by
          rw [hrels, AMap.get_modify, if_neg hre] at hr; exact hr
        obtain ⟨g1, g2⟩ := h.ri.items r rel' hg
        simp only [hre, if_false]
        refine ⟨g1, ?_⟩
        rw [List.filter_append, g2]
        have hne : ¬ id = r := fun e => hre e.symm
        cases x with
        | inl t => simp [todoOf]
        | inr ref => simp [hne, todoOf]
    · intro u hu
      simp only [hrels, AMap.has_modify]
      rcases List.mem_append.mp hu with hu | hu
      · exact h.ri.rel u hu
      · cases x with
        | inl t => simp [todoOf] at hu
        | inr ref =>
          rw [List.mem_singleton.mp hu]
          rw [AMap.has_eq]; exact hid
  · intro r hr
    simp only [hrels, AMap.has_modify] at hr
    have hre : r ≠ id := by
      rintro rfl
      rw [AMap.has_eq, hid] at hr
      exact absurd hr (by simp)
    simp only [hre, if_false]
    exact h.new r hr

theorem emplace_PI {E : Type} {s : RelState E} {A : Id → Abs} (h : PI s A) (id : Id) (attrs : Attrs) :
    PI { s with relations := s.relations.emplace id ⟨id, attrs, ⟨0, []⟩⟩ } A := by
  constructor
  · constructor
    · intro r rel hr
      rw [AMap.get_emplace] at hr
      split at hr
      · rename_i hre
        rw [hre]
        cases hg : s.relations.get id with
        | some rel' =>
          rw [hg] at hr
          obtain rfl := Option.some.inj hr
          exact h.ri.items _ _ hg
        | none =>
          rw [hg] at hr
          obtain rfl := Option.some.inj hr
          have hno : s.relations.has id = false := by rw [AMap.has_eq, hg]; rfl
          rw [h.new _ hno]
          refine ⟨rfl, ?_⟩
          simp only [pend]
          rw [List.filter_eq_nil_iff]
          intro u hu he
          simp only [decide_eq_true_eq] at he
          have := h.ri.rel u hu
          rw [he, hno] at this
          exact absurd this (by simp)
      · exact h.ri.items r rel hr
    · intro u hu
      have := h.ri.rel u hu
      rw [AMap.has_eq] at this ⊢
      rw [AMap.get_emplace]
      split
      · rfl
      · exact this
  · intro r hr
    apply h.new
    rw [AMap.has_eq] at hr ⊢
    rw [AMap.get_emplace] at hr
    split at hr
    · simp at hr
    · exact hr

end Verif.Osm
