import Verif.Osm.Lemmas
import Verif.Osm.Write

/-!
Lemmas about writing maps.
-/
namespace Verif.Osm
variable {P D E : Type}

theorem filterMap_congr' {α β : Type} {f g : α → Option β} : ∀ {l : List α}, (∀ a ∈ l, f a = g a) → l.filterMap f = l.filterMap g
  | [], _ => rfl
  | a :: l, h => by
    rw [List.filterMap_cons, List.filterMap_cons, h a (List.mem_cons_self ..),
      filterMap_congr' fun b hb => h b (List.mem_cons_of_mem _ hb)]

theorem flatMap_congr' {α β : Type} {f g : α → List β} : ∀ {l : List α}, (∀ a ∈ l, f a = g a) → l.flatMap f = l.flatMap g
  | [], _ => rfl
  | a :: l, h => by
    rw [List.flatMap_cons, List.flatMap_cons, h a (List.mem_cons_self ..),
      flatMap_congr' fun b hb => h b (List.mem_cons_of_mem _ hb)]

theorem flatMap_toList {α β : Type} (f : α → Option β) : ∀ l : List α, (l.flatMap fun a => (f a).toList) = l.filterMap f
  | [] => rfl
  | a :: l => by
    rw [List.flatMap_cons, List.filterMap_cons, flatMap_toList f l]
    cases f a <;> rfl

/-! ### folds that fill a map -/

/-- a layer: a map whose keys are the ids of the elements -/
structure Layer {V : Type} (idf : V → Id) (l : AMap Id V) : Prop where
  nodup : (l.map (·.1)).Nodup
  key : ∀ e ∈ l, idf e.2 = e.1

theorem Layer.tail {V : Type} {idf : V → Id} {e : Id × V} {l : AMap Id V} (h : Layer idf (e :: l)) : Layer idf l :=
  ⟨(List.nodup_cons.mp h.nodup).2, fun x hx => h.key x (List.mem_cons_of_mem _ hx)⟩

theorem Layer.get_iff {V : Type} {idf : V → Id} {l : AMap Id V} (h : Layer idf l) (i : Id) (v : V) :
    l.get i = some v ↔ ∃ e ∈ l, e.2 = v ∧ idf v = i := by
  constructor
  · intro hg
    have := AMap.mem_of_get hg
    exact ⟨_, this, rfl, h.key _ this⟩
  · rintro ⟨e, he, rfl, hi⟩
    have := AMap.get_of_mem h.nodup he
    rw [← hi, h.key e he]; exact this

/-- emplace a value or report an error -/
def putOr {W : Type} (s : AMap Id W × List E) (id : Id) (o : Option W) (e : E) : AMap Id W × List E :=
  match o with
  | some w => (s.1.emplace id w, s.2)
  | none => (s.1, s.2 ++ [e])

/-- Helper of the proofs. -/
def errOf {V W : Type} (f : V → Option W) (err : V → E) (v : V) : Option E := if (f v).isSome then none else some (err v)

theorem foldl_putOr {V W : Type} (idf : V → Id) (f : V → Option W) (err : V → E) : ∀ (l : AMap Id V) (s : AMap Id W × List E),
    Layer idf l →
    (∀ i, (l.foldl (fun s e => putOr s (idf e.2) (f e.2) (err e.2)) s).1.get i = (s.1.get i).or ((l.get i).bind f)) ∧
    (l.foldl (fun s e => putOr s (idf e.2) (f e.2) (err e.2)) s).2 = s.2 ++ l.filterMap (fun e => errOf f err e.2) := by
  intro l
  induction l with
  | nil => intro s _; simp
  | cons e l ih =>
    intro s h
    obtain ⟨h1, h2⟩ := ih (putOr s (idf e.2) (f e.2) (err e.2)) h.tail
    have hk : idf e.2 = e.1 := h.key e (List.mem_cons_self ..)
    have hno : AMap.get l e.1 = none := by
      cases hg : AMap.get l e.1 with
      | none => rfl
      | some v =>
        exfalso
        have := AMap.mem_of_get hg
        exact (List.nodup_cons.mp h.nodup).1 (List.mem_map_of_mem (f := (·.1)) this)
    rw [List.foldl_cons]
    refine ⟨fun i => ?_, ?_⟩
    · rw [h1, AMap.get_cons]
      unfold putOr
      cases hf : f e.2 with
      | none =>
        by_cases hi : e.1 = i
        · subst hi; simp [hno, hf]
        · simp [hi]
      | some w =>
        simp only []
        rw [AMap.get_emplace, hk]
        by_cases hi : e.1 = i
        · subst hi
          cases hs : s.1.get e.1 <;> simp [hno, hf]
        · have hi' : ¬ i = e.1 := fun x => hi x.symm
          simp [hi, hi']
    · rw [h2, List.filterMap_cons]
      unfold putOr errOf
      cases hf : f e.2 <;> simp

/-! ### attributes -/

theorem getAttributes_eq {a : Attrs} (h : (a.map (·.1)).Nodup) : getAttributes a = a := by
  unfold getAttributes
  have key : ∀ (a o : Attrs), ((o ++ a).map (·.1)).Nodup → a.foldl (fun o e => o.emplace e.1 e.2) o = o ++ a := by
    intro a
    induction a with
    | nil => intro o _; simp
    | cons e a ih =>
      intro o h
      have hn : o.has e.1 = false := by
        rw [Bool.eq_false_iff]
        intro hc
        rw [AMap.has_iff_mem] at hc
        simp only [List.map_append, List.map_cons] at h
        exact (List.nodup_append.mp h).2.2 _ hc e.1 (List.mem_cons_self ..) rfl
      have he : o.emplace e.1 e.2 = o ++ [e] := by simp [AMap.emplace, hn]
      rw [List.foldl_cons, he, ih _ (by simpa using h)]
      simp
  simpa using key a [] (by simpa using h)

/-! ### adding members to a relation -/

/-- Helper of the proofs: several members. -/
def pushAll (s : RelState E) (id : Id) (xs : Abs) : RelState E := xs.foldl (fun s m => pushM s id m.1 m.2) s

/-- add members and errors -/
def addM (s : RelState E) (id : Id) (xs : Abs) (es : List E) : RelState E := { pushAll s id xs with errs := s.errs ++ es }

theorem pushM_errs (s : RelState E) (id : Id) (role : String) (x : Target ⊕ Id) (e : List E) :
    pushM { s with errs := e } id role x = { pushM s id role x with errs := e } := by cases x <;> rfl

theorem errs_pushM (s : RelState E) (id : Id) (role : String) (x : Target ⊕ Id) : (pushM s id role x).errs = s.errs := by
  cases x <;> rfl

theorem errs_pushAll (id : Id) : ∀ (xs : Abs) (s : RelState E), (pushAll s id xs).errs = s.errs
  | [], _ => rfl
  | x :: xs, s => by
    have := errs_pushAll id xs (pushM s id x.1 x.2)
    rw [errs_pushM] at this
    exact this

theorem pushAll_errs (id : Id) : ∀ (xs : Abs) (s : RelState E) (e : List E),
    pushAll { s with errs := e } id xs = { pushAll s id xs with errs := e }
  | [], _, _ => rfl
  | x :: xs, s, e => by
    have := pushAll_errs id xs (pushM s id x.1 x.2) e
    rw [← pushM_errs] at this
    exact this

theorem pushAll_append (s : RelState E) (id : Id) (xs ys : Abs) : pushAll s id (xs ++ ys) = pushAll (pushAll s id xs) id ys := by
  unfold pushAll; rw [List.foldl_append]

theorem addM_nil (s : RelState E) (id : Id) : addM s id [] [] = s := by simp [addM, pushAll]

theorem addM_addM (s : RelState E) (id : Id) (xs ys : Abs) (es fs : List E) :
    addM (addM s id xs es) id ys fs = addM s id (xs ++ ys) (es ++ fs) := by
  unfold addM
  rw [pushAll_errs, pushAll_append]
  simp

theorem pushM_addM (s : RelState E) (id : Id) (role : String) (x : Target ⊕ Id) : pushM s id role x = addM s id [(role, x)] [] := by
  cases x <;> simp [addM, pushAll, pushM]

theorem error_addM (s : RelState E) (id : Id) (e : E) : s.error e = addM s id [] [e] := rfl

theorem has_pushM (s : RelState E) (id : Id) (role : String) (x : Target ⊕ Id) (i : Id) :
    (pushM s id role x).relations.has i = s.relations.has i := by
  cases x <;> simp only [pushM, AMap.has_modify]

theorem has_pushAll (id i : Id) : ∀ (xs : Abs) (s : RelState E), (pushAll s id xs).relations.has i = s.relations.has i
  | [], _ => rfl
  | x :: xs, s => (has_pushAll id i xs (pushM s id x.1 x.2)).trans (has_pushM ..)

theorem has_addM (s : RelState E) (id i : Id) (xs : Abs) (es : List E) :
    (addM s id xs es).relations.has i = s.relations.has i := has_pushAll id i xs s

theorem foldl_addM {α : Type} (id : Id) (step : RelState E → α → RelState E) (f : α → Abs) (g : α → List E) :
    ∀ (as : List α) (s : RelState E),
      (∀ s' : RelState E, (∀ i, s'.relations.has i = s.relations.has i) → ∀ a ∈ as, step s' a = addM s' id (f a) (g a)) →
      as.foldl step s = addM s id (as.flatMap f) (as.flatMap g)
  | [], s, _ => (addM_nil s id).symm
  | a :: as, s, h => by
    rw [List.foldl_cons, h s (fun _ => rfl) a (List.mem_cons_self ..)]
    rw [foldl_addM id step f g as]
    · rw [addM_addM, List.flatMap_cons, List.flatMap_cons]
    · intro s' hs' b hb
      refine h s' (fun i => ?_) b (List.mem_cons_of_mem _ hb)
      rw [hs', has_addM]

/-- the placeholders among members -/
def refsOf (id : Id) (xs : Abs) : List (Id × Id) := xs.filterMap fun m => match m.2 with
  | .inl _ => none
  | .inr ref => some (id, ref)

theorem pushM_inv {s : RelState E} {A : Id → Abs} (h : PI s A) {id : Id} (hid : s.relations.has id = true) (role : String)
    (x : Target ⊕ Id) :
    PI (pushM s id role x) (fun r => if r = id then A id ++ [(role, x)] else A r) ∧
    (pushM s id role x).todo.map (fun u => (u.relation, u.ref)) = s.todo.map (fun u => (u.relation, u.ref)) ++ refsOf id [(role, x)] ∧
    ∀ r, ((pushM s id role x).relations.get r).map (fun x => (x.id, x.attrs)) =
      (s.relations.get r).map (fun x => (x.id, x.attrs)) := by
  refine ⟨?_, ?_, ?_⟩
  · have := push_RI h hid role x _ rfl
    convert this using 1
    cases x <;> simp [pushM, todoOf, er]
  · cases x <;> simp [pushM, refsOf]
  · intro r
    have key : ∀ f : Relation → Relation, (∀ x, (f x).id = x.id ∧ (f x).attrs = x.attrs) →
        ((s.relations.modify id f).get r).map (fun x => (x.id, x.attrs)) = (s.relations.get r).map (fun x => (x.id, x.attrs)) := by
      intro f hf
      rw [AMap.get_modify]
      split
      · rename_i hr
        subst hr
        rw [Option.map_map]
        congr 1
        funext x
        simp only [Function.comp_apply, (hf x).1, (hf x).2]
      · rfl
    cases x with
    | inl t => exact key (fun r => { r with members := r.members.push role (some t) }) fun _ => ⟨rfl, rfl⟩
    | inr i => exact key (fun r => { r with members := r.members.push role none }) fun _ => ⟨rfl, rfl⟩

theorem pushAll_inv {id : Id} : ∀ (xs : Abs) {s : RelState E} {A : Id → Abs}, PI s A → s.relations.has id = true →
    PI (pushAll s id xs) (fun r => if r = id then A id ++ xs else A r) ∧
    (pushAll s id xs).todo.map (fun u => (u.relation, u.ref)) = s.todo.map (fun u => (u.relation, u.ref)) ++ refsOf id xs ∧
    ∀ r, ((pushAll s id xs).relations.get r).map (fun x => (x.id, x.attrs)) =
      (s.relations.get r).map (fun x => (x.id, x.attrs)) := by
  intro xs
  induction xs with
  | nil =>
    intro s A h _
    refine ⟨?_, by simp [pushAll, refsOf], fun r => rfl⟩
    have : (fun r => if r = id then A id ++ [] else A r) = A := by
      funext r
      by_cases hr : r = id
      · subst hr; simp
      · simp [hr]
    rw [this]; exact h
  | cons x xs ih =>
    intro s A h hid
    obtain ⟨h1, h2, h3⟩ := pushM_inv h hid x.1 x.2
    obtain ⟨g1, g2, g3⟩ := ih h1 (by rw [has_pushM]; exact hid)
    refine ⟨?_, ?_, ?_⟩
    · have hfun : (fun r => if r = id then A id ++ x :: xs else A r) = fun r =>
          if r = id then (if id = id then A id ++ [(x.1, x.2)] else A id) ++ xs
          else if r = id then A id ++ [(x.1, x.2)] else A r := by
        funext r
        by_cases hr : r = id
        · subst hr; simp
        · simp [hr]
      rw [hfun]
      exact g1
    · change (pushAll (pushM s id x.1 x.2) id xs).todo.map _ = _
      rw [g2, h2, List.append_assoc]
      congr 1
      unfold refsOf
      rw [← List.filterMap_append]
      rfl
    · intro r
      rw [← h3, ← g3]; rfl

theorem PI_errs {s : RelState E} {A : Id → Abs} (h : PI s A) (e : List E) : PI { s with errs := e } A :=
  ⟨⟨h.ri.items, h.ri.rel⟩, h.new⟩

/-! ### adding relations -/

/-- a relation to be written: its members (with placeholders) and the errors -/
structure Entry (E : Type) where
  id : Id
  attrs : Attrs
  xs : Abs
  es : List E

/-- Helper of the proofs: a relation with its members. -/
def addRel (s : RelState E) (e : Entry E) : RelState E := addM (newRelation s e.id e.attrs) e.id e.xs e.es

theorem addRel_inv {s : RelState E} {A : Id → Abs} (h : PI s A) (e : Entry E) :
    PI (addRel s e) (fun r => if r = e.id then A e.id ++ e.xs else A r) ∧
    (addRel s e).errs = s.errs ++ e.es ∧
    (addRel s e).todo.map (fun u => (u.relation, u.ref)) = s.todo.map (fun u => (u.relation, u.ref)) ++ refsOf e.id e.xs ∧
    (∀ r, ((addRel s e).relations.get r).map (fun x => (x.id, x.attrs)) =
      ((s.relations.get r).map (fun x => (x.id, x.attrs))).or (if r = e.id then some (e.id, e.attrs) else none)) := by
  have h1 := emplace_PI h e.id e.attrs
  have hhas : (newRelation s e.id e.attrs).relations.has e.id = true := by
    simp only [newRelation]
    rw [AMap.has_eq, AMap.get_emplace, if_pos rfl]; rfl
  obtain ⟨g1, g2, g3⟩ := pushAll_inv e.xs h1 hhas
  refine ⟨PI_errs g1 _, rfl, g2, ?_⟩
  intro r
  have : (addRel s e).relations = (pushAll (newRelation s e.id e.attrs) e.id e.xs).relations := rfl
  rw [this]
  have g3r := g3 r
  simp only at g3r
  change _ = ((newRelation s e.id e.attrs).relations.get r).map _ at g3r
  refine g3r.trans ?_
  simp only [newRelation]
  rw [AMap.get_emplace]
  by_cases hr : r = e.id
  · subst hr
    simp only [if_true]
    cases s.relations.get e.id <;> simp
  · simp [hr]

theorem addRels_inv : ∀ (es : List (Entry E)) {s : RelState E} {A : Id → Abs}, PI s A →
    PI (es.foldl addRel s) (fun r => A r ++ (es.filter fun e => e.id = r).flatMap (·.xs)) ∧
    (es.foldl addRel s).errs = s.errs ++ es.flatMap (·.es) ∧
    (es.foldl addRel s).todo.map (fun u => (u.relation, u.ref)) =
      s.todo.map (fun u => (u.relation, u.ref)) ++ es.flatMap (fun e => refsOf e.id e.xs) ∧
    (∀ r, ((es.foldl addRel s).relations.get r).map (fun x => (x.id, x.attrs)) =
      ((s.relations.get r).map (fun x => (x.id, x.attrs))).or ((es.find? fun e => e.id = r).map fun e => (e.id, e.attrs))) := by
  intro es
  induction es with
  | nil => intro s A h; simpa using h
  | cons e es ih =>
    intro s A h
    obtain ⟨h1, h2, h3, h4⟩ := addRel_inv h e
    obtain ⟨g1, g2, g3, g4⟩ := ih h1
    rw [List.foldl_cons]
    refine ⟨?_, ?_, ?_, ?_⟩
    · convert g1 using 1
      funext r
      by_cases hr : r = e.id
      · subst hr; simp [List.filter_cons]
      · have hr' : ¬ e.id = r := fun x => hr x.symm
        simp [hr, hr']
    · rw [g2, h2]; simp
    · rw [g3, h3]; simp
    · intro r
      rw [g4, h4, List.find?_cons]
      by_cases hr : r = e.id
      · subst hr
        simp only [if_true, decide_true, Option.map_some]
        cases (s.relations.get e.id).map fun x => (x.id, x.attrs) <;> simp
      · have hr' : ¬ e.id = r := fun x => hr x.symm
        simp [hr, hr']

theorem has_addRel (s : RelState E) (e : Entry E) (i : Id) : (addRel s e).relations.has i = (s.relations.has i || decide (i = e.id)) := by
  unfold addRel
  rw [has_addM]
  simp only [newRelation]
  rw [AMap.has_eq, AMap.get_emplace, AMap.has_eq]
  by_cases hi : i = e.id
  · simp [hi]
  · simp [hi]

end Verif.Osm
