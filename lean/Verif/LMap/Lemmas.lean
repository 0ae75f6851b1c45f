import Verif.LMap.Model

/-! Lemmas about `LaneletMap::add`. The specification vocabulary (`Exists`, `refs`, `Reach` …) is also here. -/
namespace Verif.LMap

/-! ### specification vocabulary -/

/-- The map knows an element with the id of `o`: `layer.exists(o.id())`. -/
def Exists (s : MapSt) (o : Obj) : Prop := (s.layers o.kind).exists (s.ids o) = true

/-- Everything an object references: the points of linestrings and polygons, bounds, custom centerline and
regulatory elements of lanelets, bounds and regulatory elements of areas, the parameters of regulatory elements
that still exist. -/
def refs (c : Content) (ids : Obj → Int) (o : Obj) : List Obj :=
  match o.kind with
  | .point => []
  | .lineString => (c.points o.n).map (Obj.mk .point)
  | .polygon => (c.polygonPoints o.n).map (Obj.mk .point)
  | .lanelet =>
    [⟨.lineString, (c.left o.n).1⟩, ⟨.lineString, (c.right o.n).1⟩] ++
    ((c.center o.n).toList.map fun l => Obj.mk .lineString l.1).filter (fun x => ids x ≠ 0) ++
    (c.laneletRegs o.n).map (Obj.mk .regElem)
  | .area =>
    ((c.outer o.n) ++ (c.inner o.n).flatten).map (fun l => Obj.mk .lineString l.1) ++
    (c.areaRegs o.n).map (Obj.mk .regElem)
  | .regElem => ((c.params o.n).map (·.obj)).filter fun x => !expired c x

/-- The same with all centerlines. -/
def links (c : Content) (o : Obj) : List Obj := refs c (fun _ => 1) o

/-- Objects that can be reached from an object. -/
inductive Reach (c : Content) (a : Obj) : Obj → Prop where
  | refl : Reach c a a
  | step {b x : Obj} : Reach c a b → x ∈ links c b → Reach c a x

/-- All references of the elements of the map are in the map, except those in `Q`. -/
def ClosedQ (c : Content) (Q : Obj → Prop) (s : MapSt) : Prop :=
  ∀ k, ∀ e ∈ (s.layers k).elements, ∀ o ∈ refs c s.ids e.2.obj, Exists s o ∨ Q o

/-! ### basic facts -/

theorem find_isSome_iff (l : List (Int × Handle)) (id : Int) :
    (l.find? (·.1 == id)).isSome = true ↔ ∃ h, (id, h) ∈ l := by
  rw [List.find?_isSome]
  constructor
  · rintro ⟨⟨i, h⟩, h1, h2⟩
    simp only [beq_iff_eq] at h2
    subst h2; exact ⟨h, h1⟩
  · rintro ⟨h, hh⟩; exact ⟨_, hh, by simp⟩

theorem exists_iff (s : MapSt) (o : Obj) :
    Exists s o ↔ s.ids o ≠ 0 ∧ ∃ h, (s.ids o, h) ∈ (s.layers o.kind).elements := by
  unfold Exists Layer.exists
  rw [Bool.and_eq_true, find_isSome_iff]
  simp

theorem mem_insertElem (id : Int) (h : Handle) (l : List (Int × Handle)) (e : Int × Handle) :
    e ∈ insertElem id h l ↔ e ∈ l ∨ (e = (id, h) ∧ ¬ ∃ h', (id, h') ∈ l) := by
  unfold insertElem
  by_cases hx : (l.find? (·.1 == id)).isSome = true
  · rw [if_pos hx]
    rw [find_isSome_iff] at hx
    constructor
    · exact Or.inl
    · rintro (h1 | ⟨_, h1⟩)
      · exact h1
      · exact absurd hx h1
  · rw [if_neg hx]
    rw [find_isSome_iff] at hx
    simp only [List.mem_append, List.mem_singleton, hx, not_false_eq_true, and_true]

theorem insertElem_has (id : Int) (h : Handle) (l : List (Int × Handle)) :
    ∃ h', (id, h') ∈ insertElem id h l := by
  by_cases hx : ∃ h', (id, h') ∈ l
  · obtain ⟨h', hh⟩ := hx
    exact ⟨h', (mem_insertElem ..).mpr (Or.inl hh)⟩
  · exact ⟨h, (mem_insertElem ..).mpr (Or.inr ⟨rfl, hx⟩)⟩

/-! ### invariants and the order of states -/

/-- elements are filed in the layer of their kind under their own valid id -/
structure W (s : MapSt) : Prop where
  pos : 0 < s.next
  kind : ∀ k, ∀ e ∈ (s.layers k).elements, e.2.obj.kind = k
  key : ∀ k, ∀ e ∈ (s.layers k).elements, e.1 = s.ids e.2.obj
  valid : ∀ k, ∀ e ∈ (s.layers k).elements, e.1 ≠ 0

/-- what in addition holds for maps filled by `add` only -/
structure Strong (c : Content) (s : MapSt) : Prop where
  below : ∀ k, ∀ e ∈ (s.layers k).elements, e.1 < s.next
  nodup : ∀ k, ((s.layers k).elements.map (·.1)).Nodup
  usage : ∀ k, (s.layers k).usage =
    (s.layers k).elements.flatMap fun e => (owned c e.2).map fun x => (hashOf c s.ids x, x, e.2)
  regUsage : ∀ k, (s.layers k).regUsage =
    (s.layers k).elements.flatMap fun e => (regs c e.2).map fun r => (r, e.2)
  tree : ∀ k, (s.layers k).tree = ((s.layers k).elements.map (·.2)).filter fun h => c.hasBox h.obj
  ownedIds : ∀ k, ∀ e ∈ (s.layers k).elements, ∀ x ∈ owned c e.2, s.ids x.obj ≠ 0 ∨ expired c x.obj = true

/-- different objects have different valid ids and all ids are known to the id generator -/
structure Distinct (s : MapSt) : Prop where
  inj : ∀ a b : Obj, a.kind = b.kind → s.ids a = s.ids b → s.ids a ≠ 0 → a = b
  below : ∀ a, s.ids a < s.next

/-- Helper of the proofs: layers only grow. -/
structure Le (s s' : MapSt) : Prop where
  ids : ∀ o, s.ids o ≠ 0 → s'.ids o = s.ids o
  next : s.next ≤ s'.next
  elements : ∀ k, ∃ l, (s'.layers k).elements = (s.layers k).elements ++ l

theorem Le.refl (s : MapSt) : Le s s := ⟨fun _ _ => rfl, Int.le_refl _, fun _ => ⟨[], by simp⟩⟩

theorem Le.trans {a b c : MapSt} (h1 : Le a b) (h2 : Le b c) : Le a c where
  ids := fun o ho => by
    have := h1.ids o ho
    rw [h2.ids o (by rw [this]; exact ho), this]
  next := Int.le_trans h1.next h2.next
  elements := fun k => by
    obtain ⟨l1, e1⟩ := h1.elements k
    obtain ⟨l2, e2⟩ := h2.elements k
    exact ⟨l1 ++ l2, by rw [e2, e1, List.append_assoc]⟩

theorem Le.mem {s s' : MapSt} (h : Le s s') {k : Kind} {e : Int × Handle}
    (he : e ∈ (s.layers k).elements) : e ∈ (s'.layers k).elements := by
  obtain ⟨l, hl⟩ := h.elements k
  rw [hl]; exact List.mem_append_left _ he

theorem Le.exists {s s' : MapSt} (h : Le s s') {o : Obj} (ho : Exists s o) : Exists s' o := by
  rw [exists_iff] at ho ⊢
  obtain ⟨h1, x, h2⟩ := ho
  rw [h.ids o h1]
  exact ⟨h1, x, h.mem h2⟩

theorem refs_mono {c : Content} {ids ids' : Obj → Int} {o x : Obj} (h : x ∈ refs c ids' o)
    (hid : ids' x ≠ 0 → ids x ≠ 0) : x ∈ refs c ids o := by
  obtain ⟨k, n⟩ := o
  cases k <;> simp only [refs, List.mem_append, List.mem_filter, decide_eq_true_eq] at h ⊢ <;> try exact h
  rcases h with (h | ⟨h, h2⟩) | h
  · exact Or.inl (Or.inl h)
  · exact Or.inl (Or.inr ⟨h, hid h2⟩)
  · exact Or.inr h

theorem refs_links {c : Content} {ids : Obj → Int} {o x : Obj} (h : x ∈ refs c ids o) : x ∈ links c o :=
  refs_mono h (fun _ => by simp)

/-! ### the primitive steps -/

/-- the step that gives an id to an object without one -/
theorem setFresh_w {s : MapSt} {o : Obj} (ho : s.ids o = 0) (w : W s) : W (setFreshId o s) where
  pos := by have := w.pos; simp only [setFreshId]; omega
  kind := w.kind
  key := by
    intro k e he
    have h1 := w.key k e he
    have h2 := w.valid k e he
    simp only [setFreshId]
    split
    · rename_i h; rw [h, ho] at h1; exact absurd h1 h2
    · exact h1
  valid := w.valid

theorem setFresh_le {s : MapSt} {o : Obj} (ho : s.ids o = 0) : Le s (setFreshId o s) where
  ids := by
    intro x hx
    simp only [setFreshId]
    split
    · rename_i h; rw [h] at hx; exact absurd ho hx
    · rfl
  next := by simp only [setFreshId]; omega
  elements := fun k => ⟨[], by simp [setFreshId]⟩

theorem setFresh_closed {c : Content} {Q : Obj → Prop} {s : MapSt} {o : Obj} (ho : s.ids o = 0)
    (h : ClosedQ c Q s) : ClosedQ c (fun x => Q x ∨ x = o) (setFreshId o s) := by
  intro k e he x hx
  by_cases hxo : x = o
  · exact Or.inr (Or.inr hxo)
  · have : x ∈ refs c s.ids e.2.obj := refs_mono hx (by simp [setFreshId, hxo])
    rcases h k e he x this with h1 | h1
    · exact Or.inl ((setFresh_le ho).exists h1)
    · exact Or.inr (Or.inl h1)

theorem hashOf_setFresh {c : Content} {s : MapSt} {o : Obj} (ho : s.ids o = 0) {x : Handle}
    (hx : s.ids x.obj ≠ 0 ∨ expired c x.obj = true) : hashOf c (setFreshId o s).ids x = hashOf c s.ids x := by
  unfold hashOf
  split
  · rfl
  · rename_i h
    have := hx.resolve_right h
    exact (setFresh_le ho).ids _ this

theorem flatMap_congr' {α β : Type} {l : List α} {f g : α → List β} (h : ∀ a ∈ l, f a = g a) :
    l.flatMap f = l.flatMap g := by
  induction l with
  | nil => rfl
  | cons a l ih =>
    rw [List.flatMap_cons, List.flatMap_cons, h a (by simp), ih fun b hb => h b (List.mem_cons_of_mem _ hb)]

theorem setFresh_strong {c : Content} {s : MapSt} {o : Obj} (ho : s.ids o = 0) (h : Strong c s) :
    Strong c (setFreshId o s) where
  below := by intro k e he; have := h.below k e he; simp only [setFreshId]; omega
  nodup := h.nodup
  usage := by
    intro k
    show (s.layers k).usage = (s.layers k).elements.flatMap _
    rw [h.usage k]
    apply flatMap_congr'
    intro e he
    apply List.map_congr_left
    intro x hx
    rw [hashOf_setFresh ho (h.ownedIds k e he x hx)]
  regUsage := h.regUsage
  tree := h.tree
  ownedIds := by
    intro k e he x hx
    rcases h.ownedIds k e he x hx with h1 | h1
    · left; rw [(setFresh_le ho).ids _ h1]; exact h1
    · exact Or.inr h1

theorem setFresh_distinct {s : MapSt} {o : Obj} (h : Distinct s) : Distinct (setFreshId o s) where
  inj := by
    intro a b hk hab ha
    simp only [setFreshId] at hab ha
    have h1 := h.below a
    have h2 := h.below b
    split at hab
    · rename_i e1
      split at hab
      · rename_i e2; rw [e1, e2]
      · omega
    · rename_i e1
      rw [if_neg e1] at ha
      split at hab
      · omega
      · exact h.inj a b hk hab ha
  below := by
    intro a
    have := h.below a
    simp only [setFreshId]
    split <;> omega

/-- registering an id -/
theorem register_w {s : MapSt} (id : Int) (w : W s) : W (registerId id s) where
  pos := by have := w.pos; simp only [registerId]; split <;> omega
  kind := w.kind
  key := w.key
  valid := w.valid

theorem register_le (s : MapSt) (id : Int) : Le s (registerId id s) where
  ids := fun _ _ => rfl
  next := by simp only [registerId]; split <;> omega
  elements := fun k => ⟨[], by simp [registerId]⟩

theorem register_lt (s : MapSt) (id : Int) : id < (registerId id s).next := by
  simp only [registerId]; split <;> omega

theorem register_closed {c : Content} {Q : Obj → Prop} {s : MapSt} (id : Int)
    (h : ClosedQ c Q s) : ClosedQ c Q (registerId id s) := h

theorem register_strong {c : Content} {s : MapSt} (id : Int) (h : Strong c s) :
    Strong c (registerId id s) where
  below := by
    intro k e he
    have := h.below k e he
    have := (register_le s id).next
    omega
  nodup := h.nodup
  usage := h.usage
  regUsage := h.regUsage
  tree := h.tree
  ownedIds := h.ownedIds

theorem register_distinct {s : MapSt} (id : Int) (h : Distinct s) : Distinct (registerId id s) where
  inj := h.inj
  below := by
    intro a
    have h1 := h.below a
    have h2 := (register_le s id).next
    show s.ids a < _
    omega

/-- inserting into a layer -/
theorem layerAdd_elements (c : Content) (h : Handle) (s : MapSt) (k : Kind) :
    ((layerAdd c h s).layers k).elements =
      if k = h.obj.kind then insertElem (s.ids h.obj) h (s.layers k).elements else (s.layers k).elements := by
  simp only [layerAdd]
  split <;> simp [Layer.add]

theorem layerAdd_w {c : Content} {s : MapSt} {h : Handle} (hid : s.ids h.obj ≠ 0) (w : W s) :
    W (layerAdd c h s) := by
  have key : ∀ k, ∀ e ∈ ((layerAdd c h s).layers k).elements,
      e ∈ (s.layers k).elements ∨ (e = (s.ids h.obj, h) ∧ k = h.obj.kind) := by
    intro k e he
    rw [layerAdd_elements] at he
    split at he
    · rename_i hk
      rcases (mem_insertElem ..).mp he with h1 | h1
      · exact Or.inl h1
      · exact Or.inr ⟨h1.1, hk⟩
    · exact Or.inl he
  refine ⟨w.pos, ?_, ?_, ?_⟩
  · intro k e he
    rcases key k e he with h1 | ⟨h1, h2⟩
    · exact w.kind k e h1
    · rw [h1, h2]
  · intro k e he
    show e.1 = s.ids e.2.obj
    rcases key k e he with h1 | ⟨h1, h2⟩
    · exact w.key k e h1
    · rw [h1]
  · intro k e he
    rcases key k e he with h1 | ⟨h1, h2⟩
    · exact w.valid k e h1
    · rw [h1]; exact hid

theorem layerAdd_le (c : Content) (s : MapSt) (h : Handle) : Le s (layerAdd c h s) where
  ids := fun _ _ => rfl
  next := Int.le_refl _
  elements := by
    intro k
    rw [layerAdd_elements]
    split
    · unfold insertElem
      split
      · exact ⟨[], by simp⟩
      · exact ⟨_, rfl⟩
    · exact ⟨[], by simp⟩

theorem layerAdd_exists {c : Content} {s : MapSt} {h : Handle} (hid : s.ids h.obj ≠ 0) :
    Exists (layerAdd c h s) h.obj := by
  rw [exists_iff]
  refine ⟨hid, ?_⟩
  rw [layerAdd_elements, if_pos rfl]
  exact insertElem_has _ _ _

theorem layerAdd_mem {c : Content} {s : MapSt} {h : Handle} {k : Kind} {e : Int × Handle}
    (he : e ∈ ((layerAdd c h s).layers k).elements) : e ∈ (s.layers k).elements ∨ e.2 = h := by
  rw [layerAdd_elements] at he
  split at he
  · rcases (mem_insertElem ..).mp he with h1 | h1
    · exact Or.inl h1
    · right; rw [h1.1]
  · exact Or.inl he

theorem layerAdd_closed {c : Content} {Q : Obj → Prop} {s : MapSt} {h : Handle}
    (hc : ClosedQ c Q s) (hr : ∀ o ∈ refs c s.ids h.obj, Exists s o ∨ Q o) : ClosedQ c Q (layerAdd c h s) := by
  intro k e he o ho
  have : Exists s o ∨ Q o := by
    rcases layerAdd_mem he with h1 | h1
    · exact hc k e h1 o ho
    · rw [h1] at ho; exact hr o ho
  rcases this with h1 | h1
  · exact Or.inl ((layerAdd_le c s h).exists h1)
  · exact Or.inr h1

theorem layerAdd_strong {c : Content} {s : MapSt} {h : Handle} (hs : Strong c s)
    (hnew : ∀ x, (s.ids h.obj, x) ∉ (s.layers h.obj.kind).elements) (hlt : s.ids h.obj < s.next)
    (how : ∀ x ∈ owned c h, s.ids x.obj ≠ 0 ∨ expired c x.obj = true) : Strong c (layerAdd c h s) := by
  have hins : insertElem (s.ids h.obj) h (s.layers h.obj.kind).elements =
      (s.layers h.obj.kind).elements ++ [(s.ids h.obj, h)] := by
    unfold insertElem
    rw [if_neg]
    rw [find_isSome_iff]
    rintro ⟨x, hx⟩; exact hnew x hx
  constructor
  · intro k e he
    show e.1 < s.next
    rw [layerAdd_elements] at he
    split at he
    · rcases (mem_insertElem ..).mp he with h1 | h1
      · exact hs.below _ e h1
      · rw [h1.1]; exact hlt
    · exact hs.below _ e he
  · intro k
    rw [layerAdd_elements]
    split
    · rename_i hk
      subst hk
      rw [hins, List.map_append, List.nodup_append]
      refine ⟨hs.nodup _, by simp, ?_⟩
      intro a ha b hb hab
      simp only [List.map_cons, List.map_nil, List.mem_singleton] at hb
      simp only [List.mem_map] at ha
      obtain ⟨⟨i, x⟩, hx, rfl⟩ := ha
      simp only at hab
      rw [hb] at hab
      subst hab
      exact hnew x hx
    · exact hs.nodup k
  · intro k
    rw [layerAdd_elements]
    simp only [layerAdd]
    split
    · rename_i hk
      subst hk
      rw [hins, List.flatMap_append]
      simp only [Layer.add, hs.usage h.obj.kind, List.flatMap_cons, List.flatMap_nil, List.append_nil]
    · exact hs.usage k
  · intro k
    rw [layerAdd_elements]
    simp only [layerAdd]
    split
    · rename_i hk
      subst hk
      rw [hins, List.flatMap_append]
      simp only [Layer.add, hs.regUsage h.obj.kind, List.flatMap_cons, List.flatMap_nil, List.append_nil]
    · exact hs.regUsage k
  · intro k
    rw [layerAdd_elements]
    simp only [layerAdd]
    split
    · rename_i hk
      subst hk
      rw [hins, List.map_append, List.filter_append]
      simp only [Layer.add, hs.tree h.obj.kind, List.map_cons, List.map_nil]
      by_cases hb : c.hasBox h.obj = true
      · simp [hb]
      · simp [hb]
    · exact hs.tree k
  · intro k e he x hx
    rcases layerAdd_mem he with h1 | h1
    · exact hs.ownedIds k e h1 x hx
    · rw [h1] at hx; exact how x hx

theorem layerAdd_distinct {c : Content} {s : MapSt} {h : Handle} (hs : Distinct s) :
    Distinct (layerAdd c h s) := ⟨hs.inj, hs.below⟩

/-! ### table form of add -/

/-- what is added before the element itself -/
def pre1 (c : Content) (h : Handle) : List Handle :=
  match h.obj.kind with
  | .regElem => []
  | _ => owned c h

/-- Helper of the proofs: what `add` adds before the primitive itself. -/
def pre2 (c : Content) (ids : Obj → Int) (h : Handle) : List Handle :=
  match h.obj.kind with
  | .lanelet => customCenter c ids h
  | _ => []

/-- what is added after the element itself, and gets an id before -/
def post (c : Content) (h : Handle) : List Handle :=
  match h.obj.kind with
  | .lanelet => (c.laneletRegs h.obj.n).map (Handle.of .regElem)
  | .area => (c.areaRegs h.obj.n).map (Handle.of .regElem)
  | .regElem => liveParams c h.obj.n
  | _ => []

/-- Helper of the proofs: ids for several primitives. -/
def assignAll (hs : List Handle) (s : MapSt) : MapSt := hs.foldl (fun s p => assignIdIfInvalid p.obj s) s

theorem foldlM_map' {α β σ : Type} (f : σ → β → Option σ) (g : α → β) (l : List α) (s : σ) :
    (l.map g).foldlM f s = l.foldlM (fun s a => f s (g a)) s := by
  induction l generalizing s with
  | nil => rfl
  | cons a l ih =>
    simp only [List.map_cons, List.foldlM_cons]
    cases f s (g a) with
    | none => rfl
    | some s' => exact ih s'

theorem foldl_map' {α β σ : Type} (f : σ → β → σ) (g : α → β) (l : List α) (s : σ) :
    (l.map g).foldl f s = l.foldl (fun s a => f s (g a)) s := by
  induction l generalizing s with
  | nil => rfl
  | cons a l ih => simp only [List.map_cons, List.foldl_cons]; exact ih _

/-- the loops of `add` -/
def addAll (c : Content) (hs : List Handle) (s : MapSt) : Option MapSt := hs.foldlM (fun s l => add c l s) s

theorem addAll_nil (c : Content) (s : MapSt) : addAll c [] s = some s := rfl
theorem addAll_cons (c : Content) (h : Handle) (hs : List Handle) (s : MapSt) :
    addAll c (h :: hs) s = (add c h s).bind (addAll c hs) := by
  simp only [addAll, List.foldlM_cons]
  cases add c h s <;> rfl
theorem addAll_append (c : Content) (xs ys : List Handle) (s : MapSt) :
    addAll c (xs ++ ys) s = (addAll c xs s).bind (addAll c ys) := by
  simp only [addAll, List.foldlM_append]
  cases List.foldlM (fun s l => add c l s) s xs <;> rfl

theorem add_eq (c : Content) (h : Handle) (s : MapSt) :
    add c h s = if (enter h.obj s).2 then some (enter h.obj s).1 else
      (addAll c (pre1 c h) (enter h.obj s).1).bind fun s =>
      (addAll c (pre2 c s.ids h) s).bind fun s =>
      addAll c (post c h) (layerAdd c h (assignAll (post c h) s)) := by
  rw [add]
  split
  · rfl
  · obtain ⟨⟨k, n⟩, inv⟩ := h
    cases k
    · rfl
    · simp only [pre1, pre2, post, owned, assignAll, List.foldl_nil, addAll_nil, Option.bind_some]
      simp only [addAll, foldlM_map']
      rfl
    · simp only [pre1, pre2, post, owned, assignAll, List.foldl_nil, addAll_nil, Option.bind_some]
      simp only [addAll, foldlM_map']
      rfl
    · simp only [pre1, pre2, post, owned, assignAll, foldl_map']
      simp only [addAll, foldlM_map']
      rfl
    · simp only [pre1, pre2, post, owned, assignAll, foldl_map', addAll_nil, Option.bind_some, addAll_append,
        Option.bind_assoc]
      simp only [addAll, foldlM_map']
      rfl
    · simp only [pre1, pre2, post, assignAll, addAll_nil, Option.bind_some]
      rfl

/-- every reference is handled by one of the loops -/
theorem refs_cases (c : Content) (ids : Obj → Int) (h : Handle) {o : Obj} (ho : o ∈ refs c ids h.obj) :
    (∃ l ∈ pre1 c h, l.obj = o) ∨ (∃ l ∈ pre2 c ids h, l.obj = o) ∨ (∃ l ∈ post c h, l.obj = o) := by
  obtain ⟨⟨k, n⟩, inv⟩ := h
  cases k
  · simp [refs] at ho
  · left
    simp only [refs, List.mem_map] at ho
    obtain ⟨p, hp, rfl⟩ := ho
    refine ⟨Handle.of .point p, ?_, rfl⟩
    simp only [pre1, owned, List.mem_map]
    refine ⟨p, ?_, rfl⟩
    split
    · exact List.mem_reverse.mpr hp
    · exact hp
  · left
    simp only [refs, List.mem_map] at ho
    obtain ⟨p, hp, rfl⟩ := ho
    exact ⟨Handle.of .point p, by simp only [pre1, owned, List.mem_map]; exact ⟨p, hp, rfl⟩, rfl⟩
  · simp only [refs, List.mem_append, List.mem_cons, List.not_mem_nil, or_false, List.mem_filter, List.mem_map,
      decide_eq_true_eq] at ho
    rcases ho with ((ho | ho) | ⟨ho, hne⟩) | ho
    · left
      cases inv
      · exact ⟨leftBound c ⟨⟨.lanelet, n⟩, false⟩, by simp [pre1, owned], by simp [leftBound, lsHandle, ho]⟩
      · exact ⟨rightBound c ⟨⟨.lanelet, n⟩, true⟩, by simp [pre1, owned],
          by simp [rightBound, lsHandle, invertLs, ho]⟩
    · left
      cases inv
      · exact ⟨rightBound c ⟨⟨.lanelet, n⟩, false⟩, by simp [pre1, owned], by simp [rightBound, lsHandle, ho]⟩
      · exact ⟨leftBound c ⟨⟨.lanelet, n⟩, true⟩, by simp [pre1, owned],
          by simp [leftBound, lsHandle, invertLs, ho]⟩
    · right; left
      obtain ⟨l, hl, rfl⟩ := ho
      simp only [Option.mem_toList] at hl
      simp only [pre2, customCenter, hl, if_neg hne, List.mem_singleton]
      cases inv <;> exact ⟨_, rfl, rfl⟩
    · right; right
      obtain ⟨r, hr, rfl⟩ := ho
      exact ⟨Handle.of .regElem r, by simp only [post, List.mem_map]; exact ⟨r, hr, rfl⟩, rfl⟩
  · simp only [refs, List.mem_append, List.mem_map] at ho
    rcases ho with ⟨l, hl, rfl⟩ | ⟨r, hr, rfl⟩
    · left
      refine ⟨lsHandle l, ?_, rfl⟩
      simp only [pre1, owned, List.mem_append, List.mem_map]
      rcases hl with hl | hl
      · exact Or.inl ⟨l, hl, rfl⟩
      · exact Or.inr ⟨l, hl, rfl⟩
    · right; right
      exact ⟨Handle.of .regElem r, by simp only [post, List.mem_map]; exact ⟨r, hr, rfl⟩, rfl⟩
  · right; right
    simp only [refs, List.mem_filter, List.mem_map] at ho
    obtain ⟨⟨p, hp, rfl⟩, hne⟩ := ho
    exact ⟨p, by simp only [post, liveParams, List.mem_filter]; exact ⟨hp, hne⟩, rfl⟩

theorem pre1_links {c : Content} {h l : Handle} (hl : l ∈ pre1 c h) : l.obj ∈ links c h.obj := by
  obtain ⟨⟨k, n⟩, inv⟩ := h
  cases k
  · simp [pre1, owned] at hl
  · simp only [pre1, owned, List.mem_map] at hl
    obtain ⟨p, hp, rfl⟩ := hl
    simp only [links, refs, List.mem_map]
    refine ⟨p, ?_, rfl⟩
    split at hp
    · exact List.mem_reverse.mp hp
    · exact hp
  · simp only [pre1, owned, List.mem_map] at hl
    obtain ⟨p, hp, rfl⟩ := hl
    simp only [links, refs, List.mem_map]
    exact ⟨p, hp, rfl⟩
  · simp only [pre1, owned, List.mem_cons, List.not_mem_nil, or_false] at hl
    simp only [links, refs, List.mem_append, List.mem_cons, List.not_mem_nil, or_false]
    left; left
    rcases hl with rfl | rfl <;> cases inv <;> simp [leftBound, rightBound, lsHandle, invertLs]
  · simp only [pre1, owned, List.mem_append, List.mem_map] at hl
    simp only [links, refs, List.mem_append, List.mem_map]
    left
    rcases hl with ⟨l, hl, rfl⟩ | ⟨l, hl, rfl⟩
    · exact ⟨l, Or.inl hl, rfl⟩
    · exact ⟨l, Or.inr hl, rfl⟩
  · simp [pre1] at hl

theorem pre2_links {c : Content} {ids : Obj → Int} {h l : Handle} (hl : l ∈ pre2 c ids h) :
    l.obj ∈ links c h.obj := by
  obtain ⟨⟨k, n⟩, inv⟩ := h
  cases k <;> simp only [pre2, List.not_mem_nil] at hl
  simp only [customCenter] at hl
  split at hl
  · simp at hl
  · rename_i l' hc
    split at hl
    · simp at hl
    · simp only [List.mem_singleton] at hl
      simp only [links, refs, List.mem_append, List.mem_filter, List.mem_map, hc]
      left; right
      subst hl
      refine ⟨⟨l', by simp, ?_⟩, by simp⟩
      cases inv <;> rfl

theorem post_links {c : Content} {h l : Handle} (hl : l ∈ post c h) : l.obj ∈ links c h.obj := by
  obtain ⟨⟨k, n⟩, inv⟩ := h
  cases k <;> simp only [post, List.not_mem_nil] at hl
  · simp only [List.mem_map] at hl
    obtain ⟨r, hr, rfl⟩ := hl
    simp only [links, refs, List.mem_append, List.mem_map]
    exact Or.inr ⟨r, hr, rfl⟩
  · simp only [List.mem_map] at hl
    obtain ⟨r, hr, rfl⟩ := hl
    simp only [links, refs, List.mem_append, List.mem_map]
    exact Or.inr ⟨r, hr, rfl⟩
  · simp only [liveParams, List.mem_filter] at hl
    simp only [links, refs, List.mem_filter, List.mem_map]
    exact ⟨⟨l, hl.1, rfl⟩, hl.2⟩

/-- order of the kinds: what is added before an element is of a lower kind -/
def rank : Kind → Nat
  | .point => 0
  | .lineString => 1
  | .polygon => 1
  | _ => 2

theorem pre1_rank {c : Content} {h l : Handle} (hl : l ∈ pre1 c h) : rank l.obj.kind < rank h.obj.kind := by
  obtain ⟨⟨k, n⟩, inv⟩ := h
  cases k
  · simp [pre1, owned] at hl
  · simp only [pre1, owned, List.mem_map] at hl
    obtain ⟨p, hp, rfl⟩ := hl
    simp [Handle.of, rank]
  · simp only [pre1, owned, List.mem_map] at hl
    obtain ⟨p, hp, rfl⟩ := hl
    simp [Handle.of, rank]
  · simp only [pre1, owned, List.mem_cons, List.not_mem_nil, or_false] at hl
    rcases hl with rfl | rfl <;> simp [leftBound, rightBound, lsHandle, rank]
  · simp only [pre1, owned, List.mem_append, List.mem_map] at hl
    rcases hl with ⟨l, hl, rfl⟩ | ⟨l, hl, rfl⟩ <;> simp [lsHandle, rank]
  · simp [pre1] at hl

theorem pre2_rank {c : Content} {ids : Obj → Int} {h l : Handle} (hl : l ∈ pre2 c ids h) :
    rank l.obj.kind < rank h.obj.kind := by
  obtain ⟨⟨k, n⟩, inv⟩ := h
  cases k <;> simp only [pre2, List.not_mem_nil] at hl
  simp only [customCenter] at hl
  split at hl
  · simp at hl
  · split at hl
    · simp at hl
    · simp only [List.mem_singleton] at hl
      subst hl; simp [lsHandle, rank]

theorem post_nil {c : Content} {h : Handle} (hr : rank h.obj.kind ≤ 1) : post c h = [] := by
  obtain ⟨⟨k, n⟩, inv⟩ := h
  cases k <;> simp [rank] at hr <;> rfl

theorem owned_cases {c : Content} {h x : Handle} (hx : x ∈ owned c h) :
    x ∈ pre1 c h ∨ x ∈ post c h ∨ expired c x.obj = true := by
  obtain ⟨⟨k, n⟩, inv⟩ := h
  cases k
  · exact Or.inl hx
  · exact Or.inl hx
  · exact Or.inl hx
  · exact Or.inl hx
  · exact Or.inl hx
  · right
    by_cases he : expired c x.obj = true
    · exact Or.inr he
    · left
      simp only [post, liveParams, List.mem_filter]
      exact ⟨hx, by simpa using he⟩

end Verif.LMap
