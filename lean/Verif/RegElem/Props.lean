import Verif.RegElem.Model
import Mathlib.Data.String.Basic

/-!
C40: regulatory elements keep their parameters consistent.
-/
namespace Verif.RegElem

/-! ### specification -/

/-- the handle can be used: it is no weak pointer to destroyed data -/
def Alive (w : World) : Param → Prop
  | .lanelet l => w.dead l.1 = false
  | .area d => w.dead d = false
  | _ => True

/-- a lanelet of an all way stop and its stop line -/
abbrev Entry := Lanelet × Option Line

/-- either all lanelets have a stop line or none -/
def Uniform (es : List Entry) : Prop := (∀ e ∈ es, ∃ s, e.2 = some s) ∨ ∀ e ∈ es, e.2 = none

/-- what a user can do with an all way stop, and the destruction of lanelets -/
inductive StopOp where
  | add (e : Entry)
  | remove (l : Lanelet)
  | addSign (s : Param)
  | removeSign (s : Param)
  | die (d : Nat)

/-- an operation of the code; an exception leaves the object as it is, undefined behaviour is `none` -/
def stopStep (s : World × Params) : StopOp → Option (World × Params)
  | .add e => match addStop s.1 s.2 e with
    | .ok ps => some (s.1, ps)
    | .error .ub => none
    | .error _ => some s
  | .remove l => match removeStop s.1 s.2 l with
    | .ok r => some (s.1, r.1)
    | .error .ub => none
    | .error _ => some s
  | .addSign x => some (s.1, addRefers s.2 x)
  | .removeSign x => some (s.1, (removeRefers s.1 s.2 x).1)
  | .die d => some ({ s.1 with dead := fun d' => if d' = d then true else s.1.dead d' }, s.2)

/-- Specification: a history of calls. -/
def stopRun (s : World × Params) (ops : List StopOp) : Option (World × Params) := ops.foldlM stopStep s

open Classical in
/-- what is meant: lanelets with their stop lines in the order they were added, the first matching one is removed -/
noncomputable def specStop (es : List Entry) : StopOp → List Entry
  | .add e => if Uniform (es ++ [e]) then es ++ [e] else es
  | .remove l => es.eraseP fun e => e.1 = l
  | _ => es

/-- the lanelets used exist, and a lanelet is not destroyed while it is part of the regulatory element -/
def Proper : (Nat → Bool) → List Entry → List StopOp → Prop
  | _, _, [] => True
  | dead, es, .add e :: ops => dead e.1.1 = false ∧ Proper dead (specStop es (.add e)) ops
  | dead, es, .remove l :: ops => dead l.1 = false ∧ Proper dead (specStop es (.remove l)) ops
  | dead, es, .die d :: ops => (∀ e ∈ es, e.1.1 ≠ d) ∧ Proper (fun d' => if d' = d then true else dead d') es ops
  | dead, es, _ :: ops => Proper dead es ops

/-- the stop line of the lanelet -/
def stopOf (es : List Entry) (l : Lanelet) : Option Line := (es.find? fun e => decide (e.1 = l)).bind (·.2)

/-! ### lists -/

theorem eraseIdx_findIdx {α : Type} {q : α → Bool} : ∀ {l : List α} {i : Nat}, l.findIdx? q = some i → l.eraseIdx i = l.eraseP q := by
  intro l
  induction l with
  | nil => intro i h; simp at h
  | cons x l ih =>
    intro i h
    rw [List.findIdx?_cons] at h
    split at h
    · rename_i hx
      cases h
      simp [List.eraseP_cons_of_pos hx]
    · rename_i hx
      obtain ⟨j, hj, rfl⟩ := Option.map_eq_some_iff.mp h
      rw [List.eraseP_cons_of_neg hx, List.eraseIdx_cons_succ, ih hj]

theorem eraseP_none {α : Type} {q : α → Bool} {l : List α} (h : l.findIdx? q = none) : l.eraseP q = l := by
  rw [List.findIdx?_eq_none_iff] at h
  exact List.eraseP_of_forall_not fun a ha => by simp [h a ha]

theorem findIdx_map {α β : Type} (f : α → β) (q : β → Bool) (l : List α) : (l.map f).findIdx? q = l.findIdx? fun x => q (f x) := by
  induction l with
  | nil => rfl
  | cons x l ih => rw [List.map_cons, List.findIdx?_cons, List.findIdx?_cons, ih]

theorem findIdx_congr {α : Type} {p q : α → Bool} {l : List α} (h : ∀ x ∈ l, p x = q x) : l.findIdx? p = l.findIdx? q := by
  induction l with
  | nil => rfl
  | cons x l ih =>
    rw [List.findIdx?_cons, List.findIdx?_cons, h x (by simp), ih fun y hy => h y (by simp [hy])]

theorem map_eraseIdx' {α β : Type} (f : α → β) : ∀ (l : List α) (i : Nat), (l.map f).eraseIdx i = (l.eraseIdx i).map f := by
  intro l
  induction l with
  | nil => intro i; rfl
  | cons x l ih =>
    intro i
    cases i with
    | zero => rfl
    | succ i => simp [ih i]

theorem filterMap_eraseIdx {α β : Type} {f : α → Option β} : ∀ {l : List α} (i : Nat), (∀ x ∈ l, ∃ y, f x = some y) →
    (l.filterMap f).eraseIdx i = (l.eraseIdx i).filterMap f := by
  intro l
  induction l with
  | nil => intro i _; rfl
  | cons x l ih =>
    intro i h
    obtain ⟨y, hy⟩ := h x (by simp)
    have hl : ∀ z ∈ l, ∃ y, f z = some y := fun z hz => h z (by simp [hz])
    rw [List.filterMap_cons_some hy]
    cases i with
    | zero => rfl
    | succ i => rw [List.eraseIdx_cons_succ, List.eraseIdx_cons_succ, List.filterMap_cons_some hy, ih i hl]

theorem filterMap_length {α β : Type} {f : α → Option β} {l : List α} (h : ∀ x ∈ l, ∃ y, f x = some y) : (l.filterMap f).length = l.length := by
  induction l with
  | nil => rfl
  | cons x l ih =>
    obtain ⟨y, hy⟩ := h x (by simp)
    rw [List.filterMap_cons_some hy, List.length_cons, List.length_cons, ih fun z hz => h z (by simp [hz])]

theorem filterMap_none {α β : Type} {f : α → Option β} {l : List α} (h : ∀ x ∈ l, f x = none) : l.filterMap f = [] := by
  rw [List.filterMap_eq_nil_iff]; exact h

theorem getLines_of {ps : Params} {r : Role} {es : List Entry} (h : (ps r).getD [] = es.filterMap fun e => e.2.map Param.line) :
    getLines ps r = es.filterMap (·.2) := by
  unfold getLines
  rw [h]
  clear h
  induction es with
  | nil => rfl
  | cons e es ih =>
    obtain ⟨l, o⟩ := e
    cases o with
    | none => simpa using ih
    | some s => simpa using ih

theorem getWeak_of {ps : Params} {r : Role} {ls : List Lanelet} (h : (ps r).getD [] = ls.map Param.lanelet) : getWeakLanelets ps r = ls := by
  unfold getWeakLanelets
  rw [h]
  clear h
  induction ls with
  | nil => rfl
  | cons l ls ih => simpa using ih

/-! ### all way stop -/

/-- the parameters of the code represent the list of entries -/
structure Rep (ps : Params) (es : List Entry) : Prop where
  lanelets : (ps .yield).getD [] = es.map fun e => .lanelet e.1
  lines : (ps .refLine).getD [] = es.filterMap fun e => e.2.map Param.line
  uniform : Uniform es

theorem set_same (ps : Params) (r : Role) (v : Option (List Param)) : (ps.set r v) r = v := by simp [Params.set]
theorem set_other (ps : Params) {r r' : Role} (v : Option (List Param)) (h : r' ≠ r) : (ps.set r v) r' = ps r' := by simp [Params.set, h]

theorem all_lines : ∀ {es : List Entry}, (es.filterMap fun e => e.2.map Param.line).length = es.length → ∀ e ∈ es, ∃ s, e.2 = some s := by
  intro es
  induction es with
  | nil => intro _ e he; cases he
  | cons a es ih =>
    intro hlen
    obtain ⟨l, o⟩ := a
    have hle := List.length_filterMap_le (fun e : Entry => e.2.map Param.line) es
    cases o with
    | none =>
      exfalso
      rw [List.filterMap_cons_none (by rfl), List.length_cons] at hlen
      omega
    | some s =>
      rw [List.filterMap_cons_some (b := .line s) (by rfl), List.length_cons, List.length_cons] at hlen
      intro e he
      rcases List.mem_cons.mp he with rfl | he
      · exact ⟨s, rfl⟩
      · exact ih (by omega) e he

theorem make_rep {es : List Entry} {signs : List Param} {ps : Params} (h : allWayStopMake es signs = .ok ps) : Rep ps es := by
  unfold allWayStopMake at h
  simp only at h
  generalize hq : allWayStopCheck _ = q at h
  cases q with
  | error e => cases h
  | ok u =>
    cases h
    refine ⟨rfl, rfl, ?_⟩
    have hc := hq
    clear hq
    unfold allWayStopCheck at hc
    simp only [Option.getD_none, List.length_nil, ne_eq, not_true, if_false, Option.getD_some] at hc
    split at hc
    · rename_i he
      right
      rw [List.isEmpty_iff, List.filterMap_eq_nil_iff] at he
      intro e hm
      simpa using he e hm
    · split at hc
      · cases hc
      · rename_i hlen
        rw [not_not, List.length_map] at hlen
        left
        exact all_lines hlen

/-- C40: an all way stop can be made iff every lanelet has a stop line or none has. -/
theorem make_iff {es : List Entry} {signs : List Param} : (∃ ps, allWayStopMake es signs = .ok ps) ↔ Uniform es := by
  constructor
  · rintro ⟨ps, h⟩; exact (make_rep h).uniform
  · intro h
    unfold allWayStopMake allWayStopCheck
    simp only [Option.getD_none, List.length_nil, ne_eq, not_true, if_false, Option.getD_some, List.length_map]
    rcases h with h | h
    · have hl : (List.filterMap (fun e : Entry => e.2.map Param.line) es).length = es.length :=
        filterMap_length fun e he => by obtain ⟨s, hs⟩ := h e he; exact ⟨.line s, by rw [hs]; rfl⟩
      rw [hl]
      simp only [not_true, if_false]
      split <;> exact ⟨_, rfl⟩
    · rw [filterMap_none fun e he => by rw [h e he]; rfl]
      exact ⟨_, rfl⟩

theorem rep_lanelets {w : World} {ps : Params} {es : List Entry} (h : Rep ps es) (ha : ∀ e ∈ es, w.dead e.1.1 = false) :
    getLanelets w ps .yield = es.map (·.1) := by
  unfold getLanelets
  rw [getWeak_of (ls := es.map (·.1)) (by rw [h.lanelets, List.map_map]; rfl)]
  rw [List.filter_eq_self]
  intro l hl
  obtain ⟨e, he, rfl⟩ := List.mem_map.mp hl
  simp [ha e he]

theorem rep_noline {ps : Params} {es : List Entry} (h : Rep ps es) : (getLines ps .refLine).isEmpty = true ↔ ∀ e ∈ es, e.2 = none := by
  rw [getLines_of h.lines, List.isEmpty_iff, List.filterMap_eq_nil_iff]

/-- C40: adding a lanelet fails iff the stop lines would become inconsistent, and appends the lanelet otherwise. -/
theorem addStop_spec {w : World} {ps : Params} {es : List Entry} {e : Entry} (h : Rep ps es) (ha : ∀ e ∈ es, w.dead e.1.1 = false) :
    (Uniform (es ++ [e]) ∧ ∃ ps', addStop w ps e = .ok ps' ∧ Rep ps' (es ++ [e])) ∨
      (¬ Uniform (es ++ [e]) ∧ addStop w ps e = .error .invalidInput) := by
  have hempty : (getLanelets w ps .yield).isEmpty = es.isEmpty := by
    rw [rep_lanelets h ha]; cases es <;> rfl
  obtain ⟨l, o⟩ := e
  cases o with
  | none =>
    by_cases hn : (getLines ps .refLine).isEmpty
    · left
      have hall := (rep_noline h).mp hn
      have hu : Uniform (es ++ [(l, none)]) := by
        right
        intro e he
        rcases List.mem_append.mp he with he | he
        · exact hall e he
        · rw [List.mem_singleton.mp he]
      refine ⟨hu, push ps .yield (.lanelet l), ?_, ?_, ?_, hu⟩
      · unfold addStop
        simp [hn]
      · unfold push
        rw [set_same, Option.getD_some, h.lanelets]
        simp
      · unfold push
        rw [set_other _ _ (by simp), h.lines]
        simp
    · right
      refine ⟨?_, ?_⟩
      · rintro (hu | hu)
        · obtain ⟨s, hs⟩ := hu (l, none) (by simp)
          cases hs
        · exact hn ((rep_noline h).mpr fun e he => hu e (by simp [he]))
      · unfold addStop
        simp [hn]
  | some s =>
    by_cases hc : (getLines ps .refLine).isEmpty = true ∧ es ≠ []
    · right
      have hall := (rep_noline h).mp hc.1
      obtain ⟨x, es', rfl⟩ := List.exists_cons_of_ne_nil hc.2
      refine ⟨?_, ?_⟩
      · rintro (hu | hu)
        · obtain ⟨s', hs⟩ := hu x (by simp)
          rw [hall x (by simp)] at hs
          cases hs
        · have := hu (l, some s) (by simp)
          cases this
      · unfold addStop
        rw [hempty]
        simp [hc.1]
    · left
      have hu : Uniform (es ++ [(l, some s)]) := by
        left
        intro e he
        rcases List.mem_append.mp he with he | he
        · rcases h.uniform with hu | hu
          · exact hu e he
          · exfalso
            refine hc ⟨(rep_noline h).mpr hu, ?_⟩
            rintro rfl
            cases he
        · rw [List.mem_singleton.mp he]; exact ⟨s, rfl⟩
      refine ⟨hu, push (push ps .yield (.lanelet l)) .refLine (.line s), ?_, ?_, ?_, hu⟩
      · unfold addStop
        rw [hempty]
        by_cases h1 : (getLines ps .refLine).isEmpty
        · have : es = [] := by
            by_contra hne
            exact hc ⟨h1, hne⟩
          subst this
          simp [h1]
        · simp [h1]
      · unfold push
        rw [set_other _ _ (by simp), set_same, Option.getD_some, h.lanelets]
        simp
      · unfold push
        rw [set_same, set_other _ _ (by simp), Option.getD_some, h.lines]
        simp

theorem uniform_erase {es : List Entry} (h : Uniform es) (q : Entry → Bool) : Uniform (es.eraseP q) := by
  rcases h with h | h
  · exact .inl fun e he => h e (List.mem_of_mem_eraseP he)
  · exact .inr fun e he => h e (List.mem_of_mem_eraseP he)

/-- C40: removing a lanelet removes its first entry together with its stop line, and tells if there was one. -/
theorem removeStop_spec {w : World} {ps : Params} {es : List Entry} {l : Lanelet} (h : Rep ps es)
    (hl : w.dead l.1 = false) :
    ∃ ps' b, removeStop w ps l = .ok (ps', b) ∧ Rep ps' (es.eraseP fun e => e.1 = l) ∧ (b = true ↔ ∃ e ∈ es, e.1 = l) := by
  have hidx : ∀ y, ps .yield = some y → y.findIdx? (fun p => same w p (.lanelet l)) = es.findIdx? fun e => decide (e.1 = l) := by
    intro y hy
    have := h.lanelets
    rw [hy, Option.getD_some] at this
    rw [this, findIdx_map]
    apply findIdx_congr
    intro e _
    simp only [same]
    by_cases he : e.1 = l
    · simp [he, hl]
    · simp [he]
  unfold removeStop
  cases hy : ps .yield with
  | none =>
    have : es = [] := by
      have := h.lanelets
      rw [hy, Option.getD_none] at this
      exact List.map_eq_nil_iff.mp this.symm
    subst this
    exact ⟨ps, false, rfl, h, by simp⟩
  | some y =>
    simp only [hidx y hy]
    have hyl : y = es.map fun e => .lanelet e.1 := by have := h.lanelets; rwa [hy, Option.getD_some] at this
    cases hi : es.findIdx? fun e => decide (e.1 = l) with
    | none =>
      refine ⟨ps, false, rfl, ?_, ?_⟩
      · rw [eraseP_none hi]; exact h
      · rw [List.findIdx?_eq_none_iff] at hi
        simp only [Bool.false_eq_true, false_iff, not_exists, not_and]
        intro e he hc
        have := hi e he
        simp [hc] at this
    | some i =>
      have hin : ∃ e ∈ es, e.1 = l := by
        have := List.findIdx?_eq_some_iff_getElem.mp hi
        obtain ⟨hlt, hp, -⟩ := this
        exact ⟨es[i], List.getElem_mem hlt, by simpa using hp⟩
      have hlt : i < es.length := (List.findIdx?_eq_some_iff_getElem.mp hi).1
      have hye : y.eraseIdx i = (es.eraseP fun e => decide (e.1 = l)).map fun e => .lanelet e.1 := by
        rw [hyl, map_eraseIdx', eraseIdx_findIdx hi]
      have hu := uniform_erase h.uniform fun e => decide (e.1 = l)
      simp only
      cases hr : ps .refLine with
      | none =>
        refine ⟨_, true, rfl, ⟨?_, ?_, hu⟩, by simpa using hin⟩
        · rw [set_same, Option.getD_some, hye]
        · rw [set_other _ _ (by simp), hr, Option.getD_none]
          have hn := h.lines
          rw [hr, Option.getD_none] at hn
          have hn := List.filterMap_eq_nil_iff.mp hn.symm
          symm
          rw [List.filterMap_eq_nil_iff]
          intro e he
          exact hn e (List.mem_of_mem_eraseP he)
      | some lines =>
        have hlines : lines = es.filterMap fun e => e.2.map Param.line := by have := h.lines; rwa [hr, Option.getD_some] at this
        simp only
        by_cases hem : lines.isEmpty
        · rw [if_pos hem]
          refine ⟨_, true, rfl, ⟨?_, ?_, hu⟩, by simpa using hin⟩
          · rw [set_same, Option.getD_some, hye]
          · rw [set_other _ _ (by simp), hr, Option.getD_some]
            rw [List.isEmpty_iff] at hem
            rw [hem] at hlines ⊢
            have hn := List.filterMap_eq_nil_iff.mp hlines.symm
            symm
            rw [List.filterMap_eq_nil_iff]
            intro e he
            exact hn e (List.mem_of_mem_eraseP he)
        · rw [if_neg hem]
          have hall : ∀ e ∈ es, ∃ y, (e.2.map Param.line) = some y := by
            rcases h.uniform with hu | hu
            · intro e he; obtain ⟨s, hs⟩ := hu e he; exact ⟨.line s, by rw [hs]; rfl⟩
            · exfalso
              apply hem
              rw [List.isEmpty_iff, hlines]
              exact filterMap_none fun e he => by rw [hu e he]; rfl
          have hlen : lines.length = es.length := by rw [hlines]; exact filterMap_length hall
          rw [if_pos (by omega)]
          refine ⟨_, true, rfl, ⟨?_, ?_, hu⟩, by simpa using hin⟩
          · rw [set_same, Option.getD_some, hye]
          · rw [set_other _ _ (by simp), set_same, Option.getD_some, hlines, filterMap_eraseIdx i hall, eraseIdx_findIdx hi]

theorem lookup {es : List Entry} {l : Lanelet} (h : ∀ e ∈ es, ∃ s, e.2 = some s) :
    ((es.map (·.1)).findIdx? (fun x => decide (x = l)) = none ∧ stopOf es l = none) ∨
      ∃ i s, (es.map (·.1)).findIdx? (fun x => decide (x = l)) = some i ∧ (es.filterMap (·.2))[i]? = some s ∧ stopOf es l = some s := by
  unfold stopOf
  induction es with
  | nil => left; simp
  | cons e es ih =>
    obtain ⟨s, hs⟩ := h e (by simp)
    by_cases he : e.1 = l
    · right
      refine ⟨0, s, ?_, ?_, ?_⟩
      · simp [List.findIdx?_cons, he]
      · rw [List.filterMap_cons_some hs]; rfl
      · simp [List.find?_cons, he, hs]
    · rcases ih fun e he => h e (by simp [he]) with ⟨h1, h2⟩ | ⟨i, s', h1, h2, h3⟩
      · left
        simp only [List.map_cons, List.findIdx?_cons, he, decide_false, Bool.false_eq_true, if_false, h1, Option.map_none, true_and]
        rw [List.find?_cons_of_neg (by simpa using he)]
        exact h2
      · right
        refine ⟨i + 1, s', ?_, ?_, ?_⟩
        · simp only [List.map_cons, List.findIdx?_cons, he, decide_false, Bool.false_eq_true, if_false, h1, Option.map_some]
        · rw [List.filterMap_cons_some hs]; exact h2
        · rw [List.find?_cons_of_neg (by simpa using he)]; exact h3

/-- C40: getStopLine finds the stop line of the lanelet. -/
theorem getStopLine_spec {w : World} {ps : Params} {es : List Entry} (h : Rep ps es) (ha : ∀ e ∈ es, w.dead e.1.1 = false) (l : Lanelet) :
    getStopLine w ps l = .ok (stopOf es l) := by
  unfold getStopLine
  simp only
  split
  · rename_i hn
    have hall := (rep_noline h).mp hn
    congr 1
    unfold stopOf
    cases hf : es.find? fun e => decide (e.1 = l) with
    | none => rfl
    | some e => rw [Option.bind_some, hall e (List.mem_of_find?_eq_some hf)]
  · rename_i hn
    have hall : ∀ e ∈ es, ∃ s, e.2 = some s := by
      rcases h.uniform with hu | hu
      · exact hu
      · exact absurd ((rep_noline h).mpr hu) hn
    rw [rep_lanelets h ha, getLines_of h.lines]
    rcases lookup (l := l) hall with ⟨h1, h2⟩ | ⟨i, s, h1, h2, h3⟩
    · rw [h1, h2]
    · rw [h1, h3]; simp only [h2]

theorem push_other {ps : Params} {r r' : Role} (x : Param) (h : r' ≠ r) : push ps r x r' = ps r' := set_other _ _ h

theorem erase_other {w : World} {x : Param} {ps : Params} {r r' : Role} (h : r' ≠ r) : (findAndErase w x ps r).1 r' = ps r' := by
  unfold findAndErase
  split
  · rfl
  · split
    · rfl
    · exact set_other _ _ h

theorem rep_congr {ps ps' : Params} {es : List Entry} (h : Rep ps es) (h1 : ps' .yield = ps .yield) (h2 : ps' .refLine = ps .refLine) : Rep ps' es :=
  ⟨by rw [h1]; exact h.lanelets, by rw [h2]; exact h.lines, h.uniform⟩

theorem stopRun_spec : ∀ (ops : List StopOp) (w : World) (ps : Params) (es : List Entry), Rep ps es → (∀ e ∈ es, w.dead e.1.1 = false) →
    Proper w.dead es ops →
    ∃ w' ps', stopRun (w, ps) ops = some (w', ps') ∧ Rep ps' (ops.foldl specStop es) ∧
      ∀ e ∈ ops.foldl specStop es, w'.dead e.1.1 = false := by
  intro ops
  induction ops with
  | nil => intro w ps es h ha _; exact ⟨w, ps, rfl, h, ha⟩
  | cons op ops ih =>
    intro w ps es h ha hp
    have hgo : ∀ {w' : World} {ps' : Params}, stopStep (w, ps) op = some (w', ps') → Rep ps' (specStop es op) →
        (∀ e ∈ specStop es op, w'.dead e.1.1 = false) → Proper w'.dead (specStop es op) ops →
        ∃ w' ps', stopRun (w, ps) (op :: ops) = some (w', ps') ∧ Rep ps' ((op :: ops).foldl specStop es) ∧
          ∀ e ∈ (op :: ops).foldl specStop es, w'.dead e.1.1 = false := by
      intro w' ps' h1 h2 h3 h4
      obtain ⟨w'', ps'', g1, g2, g3⟩ := ih w' ps' _ h2 h3 h4
      refine ⟨w'', ps'', ?_, g2, g3⟩
      unfold stopRun at g1 ⊢
      rw [List.foldlM_cons, h1]
      exact g1
    cases op with
    | add e =>
      obtain ⟨hd, hp⟩ := hp
      rcases addStop_spec (e := e) h ha with ⟨hu, ps', h1, h2⟩ | ⟨hu, h1⟩
      · have es' : specStop es (.add e) = es ++ [e] := by simp only [specStop]; rw [if_pos hu]
        rw [es'] at hp hgo
        refine hgo (w' := w) (ps' := ps') (by simp only [stopStep, h1]) h2 ?_ hp
        intro x hx
        rcases List.mem_append.mp hx with hx | hx
        · exact ha x hx
        · rw [List.mem_singleton.mp hx]; exact hd
      · have es' : specStop es (.add e) = es := by simp only [specStop]; rw [if_neg hu]
        rw [es'] at hp hgo
        exact hgo (w' := w) (ps' := ps) (by simp only [stopStep, h1]) h ha hp
    | remove l =>
      obtain ⟨hd, hp⟩ := hp
      obtain ⟨ps', b, h1, h2, -⟩ := removeStop_spec (l := l) h hd
      exact hgo (w' := w) (ps' := ps') (by simp only [stopStep, h1]) h2
        (fun e he => ha e (List.mem_of_mem_eraseP he)) hp
    | addSign x =>
      exact hgo (w' := w) rfl (rep_congr h (push_other x (by simp)) (push_other x (by simp))) ha hp
    | removeSign x =>
      exact hgo (w' := w) rfl (rep_congr h (erase_other (by simp)) (erase_other (by simp))) ha hp
    | die d =>
      obtain ⟨hd, hp⟩ := hp
      refine hgo rfl h ?_ hp
      intro e he
      simp only [specStop] at he
      simp only [hd e he, if_false, ha e he]

/-- C40: after any history of an all way stop, in which lanelets are removed before they are destroyed, there was no undefined behaviour,
the lanelets are the ones that were added and not removed, each or none has a stop line, and getStopLine returns the one the lanelet was
added with. -/
theorem allWayStop_history {es : List Entry} {signs : List Param} {ps : Params} {w : World} {ops : List StopOp}
    (hm : allWayStopMake es signs = .ok ps) (ha : ∀ e ∈ es, w.dead e.1.1 = false) (hp : Proper w.dead es ops) :
    ∃ w' ps', stopRun (w, ps) ops = some (w', ps') ∧ getLanelets w' ps' .yield = (ops.foldl specStop es).map (·.1) ∧
      Uniform (ops.foldl specStop es) ∧ ∀ l, getStopLine w' ps' l = .ok (stopOf (ops.foldl specStop es) l) := by
  obtain ⟨w', ps', h1, h2, h3⟩ := stopRun_spec ops w ps es (make_rep hm) ha hp
  exact ⟨w', ps', h1, rep_lanelets h2 h3, h2.uniform, fun l => getStopLine_spec h2 h3 l⟩

/-- three lanelets with stop lines, the second is removed and destroyed, another one is added -/
example : let w : World := ⟨fun _ => false, fun _ _ => none⟩
    ∃ ps w' ps', allWayStopMake [((1, false), some (11, false)), ((2, false), some (12, false)), ((3, false), some (13, true))] [] = .ok ps ∧
      stopRun (w, ps) [.remove (2, false), .die 2, .add ((4, true), some (14, false)), .add ((5, true), none)] = some (w', ps') ∧
      getStopLine w' ps' (3, false) = .ok (some (13, true)) ∧ getStopLine w' ps' (4, true) = .ok (some (14, false)) ∧
      getLanelets w' ps' .yield = [(1, false), (3, false), (4, true)] :=
  ⟨_, _, _, rfl, rfl, rfl, rfl, rfl⟩

/-- Disagreement with C40: if a lanelet of the all way stop is destroyed, the stop lines of the other lanelets are mixed up. -/
theorem expired_stopline_counterexample : let w : World := ⟨fun _ => false, fun _ _ => none⟩
    ∃ ps w' ps', allWayStopMake [((1, false), some (11, false)), ((2, false), some (12, false))] [] = .ok ps ∧
      stopRun (w, ps) [.die 1] = some (w', ps') ∧ getStopLine w ps (2, false) = .ok (some (12, false)) ∧
      getStopLine w' ps' (2, false) = .ok (some (11, false)) :=
  ⟨_, _, _, rfl, rfl, rfl, rfl⟩

/-- Disagreement with C40: the constructor from data (used for loading) counts parameters of any type. Then getStopLine throws out_of_range
for a lanelet of the element. -/
theorem mixed_parameters_counterexample (w : World) (h : ∀ d, w.dead d = false) :
    let ps : Params := fun r => match r with
      | .yield => some [.lanelet (1, false), .lanelet (2, false)]
      | .refLine => some [.line (11, false), .point 12]
      | _ => none
    allWayStopCheck ps = .ok () ∧ getStopLine w ps (2, false) = .error .outOfRange := by
  refine ⟨rfl, ?_⟩
  simp [getStopLine, getLines, getLanelets, getWeakLanelets, h, List.findIdx?_cons]

/-! ### adding and removing -/

theorem same_iff {w : World} {x p : Param} (h : Alive w x) : same w p x = decide (p = x) := by
  cases p <;> cases x <;> simp only [same, Alive] at * <;> try (simp; done)
  · rename_i a b
    by_cases hab : a = b
    · subst hab; simp [h]
    · simp [hab]
  · rename_i a b
    by_cases hab : a = b
    · subst hab; simp [h]
    · simp [hab]

theorem eraseP_eq_erase {l : List Param} {x : Param} : l.eraseP (fun p => decide (p = x)) = l.erase x := by
  induction l with
  | nil => rfl
  | cons a l ih =>
    by_cases h : a = x
    · simp [h]
    · rw [List.eraseP_cons_of_neg (by simpa using h), ih, List.erase_cons_tail (by simpa using h)]

/-- C40: removing a parameter erases its first occurrence in the role, tells if there was one and changes nothing else; a role without
parameters disappears. -/
theorem findAndErase_spec {w : World} {x : Param} (h : Alive w x) (ps : Params) (r : Role) :
    (((findAndErase w x ps r).1 r).getD [] = ((ps r).getD []).erase x) ∧
      ((findAndErase w x ps r).2 = true ↔ x ∈ (ps r).getD []) ∧ ((findAndErase w x ps r).2 = true → (findAndErase w x ps r).1 r ≠ some []) ∧
      ∀ r', r' ≠ r → (findAndErase w x ps r).1 r' = ps r' := by
  refine ⟨?_, ?_, ?_, fun r' hr => erase_other hr⟩
  all_goals
    unfold findAndErase
    cases hr : ps r with
    | none => simp [hr]
    | some l =>
      have e : l.findIdx? (fun p => same w p x) = l.findIdx? fun p => decide (p = x) :=
        findIdx_congr fun p _ => same_iff h
      simp only [e]
      cases hi : l.findIdx? fun p => decide (p = x) with
      | none =>
        have := eraseP_none hi
        rw [eraseP_eq_erase] at this
        have hm : x ∉ l := by
          rw [List.findIdx?_eq_none_iff] at hi
          intro hm
          have := hi x hm
          simp at this
        simp [hr, this, hm]
      | some i =>
        have he := eraseIdx_findIdx hi
        rw [eraseP_eq_erase] at he
        have hm : x ∈ l := by
          obtain ⟨hlt, hp, -⟩ := List.findIdx?_eq_some_iff_getElem.mp hi
          have : l[i] = x := by simpa using hp
          exact this ▸ List.getElem_mem hlt
        simp only [set_same, he]
        by_cases hemp : (l.erase x).isEmpty
        · have hemp' := List.isEmpty_iff.mp hemp
          simp [hemp', hm]
        · have hemp' : l.erase x ≠ [] := fun hc => hemp (List.isEmpty_iff.mpr hc)
          simp [hemp', hm]

/-- C40: removing undoes adding, up to the order if the parameter was there before. -/
theorem remove_add {w : World} {x : Param} (h : Alive w x) (ps : Params) (r : Role) :
    (findAndErase w x (push ps r x) r).2 = true ∧
      (((findAndErase w x (push ps r x) r).1 r).getD []).Perm ((ps r).getD []) ∧
      (x ∉ (ps r).getD [] → ((findAndErase w x (push ps r x) r).1 r).getD [] = (ps r).getD []) ∧
      ∀ r', r' ≠ r → (findAndErase w x (push ps r x) r).1 r' = ps r' := by
  obtain ⟨h1, h2, -, h4⟩ := findAndErase_spec h (push ps r x) r
  have hp : (push ps r x r).getD [] = (ps r).getD [] ++ [x] := by unfold push; rw [set_same]; rfl
  rw [hp] at h1 h2
  refine ⟨h2.mpr (by simp), ?_, ?_, ?_⟩
  · rw [h1]
    have := (List.perm_append_singleton x ((ps r).getD [])).erase x
    rwa [List.erase_cons_head] at this
  · intro hx
    rw [h1, List.erase_append_right _ hx]
    simp
  · intro r' hr
    rw [h4 r' hr, push_other x hr]

/-- a traffic light with two lights and a stop line: one is removed again -/
example : let w : World := ⟨fun _ => false, fun _ _ => none⟩
    ∃ ps, trafficLightMake [.line (1, false), .poly (2, false)] (some (3, false)) = .ok ps ∧ stopLine ps = some (3, false) ∧
      (removeRefers w (addRefers ps (.line (5, true))) (.line (5, true))).2 = true ∧
      getLsOrPoly (removeRefers w (addRefers ps (.line (5, true))) (.line (1, false))).1 .refers = [.poly (2, false), .line (5, true)] :=
  ⟨_, rfl, rfl, rfl, rfl⟩

/-- Disagreement: adding a sign that is already there and removing it again changes the order, and with it the type of the traffic sign. -/
theorem remove_reorders_counterexample : ∃ (w : World) (ps : Params) (x : Param),
    signType w (fun _ => none) ps = .ok "de205" ∧ signType w (fun _ => none) (removeRefers w (addRefers ps x) x).1 = .ok "de206" :=
  ⟨⟨fun _ => false, fun d k => if k = subtypeKey then (if d = 1 then some "de205" else some "de206") else none⟩,
    fun r => if r = .refers then some [.line (1, false), .line (2, false)] else none, .line (1, false), rfl, rfl⟩

/-- C40, traffic light: it can be made iff there is a light, and it has the stop line it was made with. -/
theorem trafficLight_make {lights : List Param} (hl : ∀ x ∈ lights, (∃ l, x = .line l) ∨ ∃ p, x = .poly p) (s : Option Line) :
    ((∃ ps, trafficLightMake lights s = .ok ps) ↔ lights ≠ []) ∧
      ∀ ps, trafficLightMake lights s = .ok ps → stopLine ps = s ∧ getLsOrPoly ps .refers = lights := by
  have hf : ∀ ps : Params, ps .refers = some lights → getLsOrPoly ps .refers = lights := by
    intro ps h
    unfold getLsOrPoly
    rw [h, Option.getD_some, List.filter_eq_self]
    intro x hx
    obtain ⟨l, rfl⟩ | ⟨p, rfl⟩ := hl x hx <;> rfl
  have hlines : ∀ ps : Params, ps .refLine = (match s with | some l => some [.line l] | none => none) → getLines ps .refLine = s.toList := by
    intro ps h
    unfold getLines
    rw [h]
    cases s <;> rfl
  unfold trafficLightMake trafficLightCheck
  simp only
  rw [hf _ rfl, hlines _ (by cases s <;> rfl)]
  have hlen : ¬ 1 < s.toList.length := by cases s <;> simp
  cases lights with
  | nil => simp [Except.map]
  | cons x l =>
    simp only [List.isEmpty_cons, Bool.false_eq_true, if_false, hlen, Except.map]
    refine ⟨⟨fun _ => by simp, fun _ => ⟨_, rfl⟩⟩, ?_⟩
    rintro ps h
    cases h
    refine ⟨?_, hf _ rfl⟩
    unfold stopLine
    rw [hlines _ (by cases s <;> rfl)]
    cases s <;> rfl

theorem stopLine_set (ps : Params) (l : Line) : stopLine (setStopLine ps l) = some l ∧ stopLine (removeStopLine (setStopLine ps l)) = none := by
  constructor <;> rfl

/-! ### right of way -/

/-- Specification: the calls for the right of way. -/
inductive WayOp where
  | addRight (l : Lanelet)
  | addYield (l : Lanelet)
  | removeRight (l : Lanelet)
  | removeYield (l : Lanelet)
  | setStop (s : Line)
  | removeStop
  | die (d : Nat)

/-- Specification: one call. -/
def wayStep (s : World × Params) : WayOp → World × Params
  | .addRight l => (s.1, addLaneletTo s.2 .rightOfWay l)
  | .addYield l => (s.1, addLaneletTo s.2 .yield l)
  | .removeRight l => (s.1, (removeLaneletFrom s.1 s.2 .rightOfWay l).1)
  | .removeYield l => (s.1, (removeLaneletFrom s.1 s.2 .yield l).1)
  | .setStop x => (s.1, setStopLine s.2 x)
  | .removeStop => (s.1, removeStopLine s.2)
  | .die d => ({ s.1 with dead := fun d' => if d' = d then true else s.1.dead d' }, s.2)

/-- what is meant: the lanelets with right of way and the ones that yield -/
def specWay (s : List Lanelet × List Lanelet) : WayOp → List Lanelet × List Lanelet
  | .addRight l => (s.1 ++ [l], s.2)
  | .addYield l => (s.1, s.2 ++ [l])
  | .removeRight l => (s.1.erase l, s.2)
  | .removeYield l => (s.1, s.2.erase l)
  | _ => s

/-- lanelets that are removed from the element exist (the caller has a handle) -/
def ProperWay : (Nat → Bool) → List WayOp → Prop
  | _, [] => True
  | dead, .removeRight l :: ops => dead l.1 = false ∧ ProperWay dead ops
  | dead, .removeYield l :: ops => dead l.1 = false ∧ ProperWay dead ops
  | dead, .die d :: ops => ProperWay (fun d' => if d' = d then true else dead d') ops
  | dead, _ :: ops => ProperWay dead ops

theorem getWeak_push (ps : Params) (r : Role) (l : Lanelet) : getWeakLanelets (addLaneletTo ps r l) r = getWeakLanelets ps r ++ [l] := by
  unfold getWeakLanelets addLaneletTo push
  rw [set_same, Option.getD_some, List.filterMap_append]
  rfl

theorem getWeak_congr {ps ps' : Params} {r : Role} (h : ps' r = ps r) : getWeakLanelets ps' r = getWeakLanelets ps r := by
  unfold getWeakLanelets; rw [h]

theorem getWeak_add_other {ps : Params} {r r' : Role} {l : Lanelet} (h : r' ≠ r) :
    getWeakLanelets (addLaneletTo ps r l) r' = getWeakLanelets ps r' := getWeak_congr (push_other _ h)

theorem getWeak_remove_other {w : World} {ps : Params} {r r' : Role} {l : Lanelet} (h : r' ≠ r) :
    getWeakLanelets (removeLaneletFrom w ps r l).1 r' = getWeakLanelets ps r' := getWeak_congr (erase_other h)

theorem getWeak_erase {w : World} {ps : Params} {r : Role} {l : Lanelet} (h : w.dead l.1 = false) :
    getWeakLanelets (removeLaneletFrom w ps r l).1 r = (getWeakLanelets ps r).erase l := by
  unfold getWeakLanelets removeLaneletFrom
  rw [(findAndErase_spec (x := .lanelet l) h ps r).1]
  generalize (ps r).getD [] = ls
  induction ls with
  | nil => rfl
  | cons p ls ih =>
    by_cases hp : p = .lanelet l
    · subst hp
      simp
    · rw [List.erase_cons_tail (by simpa using hp)]
      cases p with
      | lanelet l' =>
        have hne : l' ≠ l := fun hc => hp (by rw [hc])
        simp only [List.filterMap_cons]
        rw [List.erase_cons_tail (by simpa using hne), ih]
      | _ => simpa using ih

/-- C40: after any history of a right of way element, getManeuver reports RightOfWay iff the lanelet was added with right of way (and not
removed), otherwise Yield iff it was added to yield. Other lanelets may be destroyed at any time. -/
theorem rightOfWay_history : ∀ (ops : List WayOp) (w : World) (ps : Params), ProperWay w.dead ops → ∀ l : Lanelet,
    (ops.foldl wayStep (w, ps)).1.dead l.1 = false →
    let s := ops.foldl specWay (getWeakLanelets ps .rightOfWay, getWeakLanelets ps .yield)
    getManeuver (ops.foldl wayStep (w, ps)).1 (ops.foldl wayStep (w, ps)).2 l =
      if l ∈ s.1 then .rightOfWay else if l ∈ s.2 then .yield else .unknown := by
  intro ops
  induction ops with
  | nil =>
    intro w ps _ l hl
    simp only [List.foldl_nil] at hl ⊢
    unfold getManeuver getLanelets
    by_cases h1 : l ∈ getWeakLanelets ps .rightOfWay <;> by_cases h2 : l ∈ getWeakLanelets ps .yield <;> simp [List.mem_filter, hl, h1, h2]
  | cons op ops ih =>
    intro w ps hp l hl
    simp only [List.foldl_cons] at hl ⊢
    cases op with
    | addRight x =>
      have := ih w (addLaneletTo ps .rightOfWay x) hp l hl
      simp only [specWay]
      rw [getWeak_push, getWeak_add_other (by decide)] at this
      exact this
    | addYield x =>
      have := ih w (addLaneletTo ps .yield x) hp l hl
      simp only [specWay]
      rw [getWeak_push, getWeak_add_other (by decide)] at this
      exact this
    | removeRight x =>
      have := ih w (removeLaneletFrom w ps .rightOfWay x).1 hp.2 l hl
      simp only [specWay]
      rw [getWeak_erase hp.1, getWeak_remove_other (by decide)] at this
      exact this
    | removeYield x =>
      have := ih w (removeLaneletFrom w ps .yield x).1 hp.2 l hl
      simp only [specWay]
      rw [getWeak_erase hp.1, getWeak_remove_other (by decide)] at this
      exact this
    | setStop x => exact ih w (setStopLine ps x) hp l hl
    | removeStop => exact ih w (removeStopLine ps) hp l hl
    | die d => exact ih _ ps hp l hl

/-- C40: a right of way element can be made iff some lanelet has right of way and some lanelet yields. -/
theorem rightOfWay_make (right yld : List Lanelet) (s : Option Line) :
    ((∃ ps, rightOfWayMake right yld s = .ok ps) ↔ right ≠ [] ∧ yld ≠ []) ∧
      ∀ ps, rightOfWayMake right yld s = .ok ps → getWeakLanelets ps .rightOfWay = right ∧ getWeakLanelets ps .yield = yld ∧ stopLine ps = s := by
  unfold rightOfWayMake rightOfWayCheck
  simp only
  rw [getWeak_of (ls := right) rfl, getWeak_of (ls := yld) rfl]
  cases right with
  | nil => simp [Except.map]
  | cons a right =>
    cases yld with
    | nil => simp [Except.map]
    | cons b yld =>
      simp only [List.isEmpty_cons, Bool.false_eq_true, if_false, Except.map]
      refine ⟨⟨fun _ => by simp, fun _ => ⟨_, rfl⟩⟩, ?_⟩
      rintro ps h
      cases h
      refine ⟨getWeak_of rfl, getWeak_of rfl, ?_⟩
      unfold stopLine getLines
      cases s <;> rfl

example : let w : World := ⟨fun _ => false, fun _ _ => none⟩
    ∃ ps, rightOfWayMake [(1, false), (2, false)] [(3, false), (2, false)] none = .ok ps ∧
      getManeuver w ps (2, false) = .rightOfWay ∧
      getManeuver w (removeLaneletFrom w ps .rightOfWay (2, false)).1 (2, false) = .yield ∧ getManeuver w ps (2, true) = .unknown :=
  ⟨_, rfl, rfl, rfl, rfl⟩

/-- Disagreement: what the constructor demands does not hold any more after removing. Such an element can be written to a file, but not be
loaded again. -/
theorem remove_last_counterexample (w : World) (h : ∀ d, w.dead d = false) : ∃ ps, rightOfWayMake [(1, false)] [(3, false)] none = .ok ps ∧
    (removeLaneletFrom w ps .rightOfWay (1, false)).2 = true ∧
    rightOfWayCheck (removeLaneletFrom w ps .rightOfWay (1, false)).1 = .error .invalidInput := by
  refine ⟨_, rfl, ?_, ?_⟩
  · exact (findAndErase_spec (x := .lanelet (1, false)) (h 1) _ _).2.1.mpr (by simp)
  · unfold rightOfWayCheck
    rw [getWeak_erase (h 1), getWeak_of (ls := [(1, false)]) rfl]
    rfl

/-! ### traffic sign -/

theorem setAttr_attr (w : World) (d : Nat) (k v : String) (d' : Nat) (k' : String) :
    (setAttr w d k v).attr d' k' = if d' = d ∧ k' = k then some v else w.attr d' k' := rfl

theorem updateSigns_attr {type : String} (ht : type ≠ "") : ∀ (signs : List Param) (w : World) (d : Nat),
    (updateSigns w signs type).attr d subtypeKey = if ∃ s ∈ signs, s.data = d then some type else w.attr d subtypeKey := by
  intro signs
  unfold updateSigns
  simp only [if_neg ht]
  induction signs with
  | nil => intro w d; simp
  | cons s signs ih =>
    intro w d
    rw [List.foldl_cons, ih, setAttr_attr, setAttr_attr]
    by_cases h1 : ∃ x ∈ signs, x.data = d
    · rw [if_pos h1, if_pos]
      obtain ⟨x, hx, hd⟩ := h1
      exact ⟨x, by simp [hx], hd⟩
    · rw [if_neg h1]
      by_cases h2 : d = s.data
      · rw [if_pos ⟨h2, rfl⟩, if_pos ⟨s, by simp, h2.symm⟩]
      · rw [if_neg (fun hc => h2 hc.1), if_neg (fun hc => h2 hc.1), if_neg]
        rintro ⟨x, hx, hd⟩
        rcases List.mem_cons.mp hx with rfl | hx
        · exact h2 hd.symm
        · exact h1 ⟨x, hx, hd⟩

/-- C40: a traffic sign made with a type reports this type, if the first sign is not also among the cancelling signs. -/
theorem trafficSign_type {w : World} {attrs : String → Option String} {s : Param} {signs cancel : List Param} {type cancelType : String}
    {refLines cancelLines : List Line} (ht : type ≠ "") (hs : (∃ l, s = .line l) ∨ ∃ p, s = .poly p) (hd : ∀ c ∈ cancel, c.data ≠ s.data) :
    ∃ w' ps, trafficSignMake w attrs (s :: signs) type cancel cancelType refLines cancelLines = (w', .ok ps) ∧ signType w' attrs ps = .ok type := by
  have h1 : ∀ w : World, (updateSigns w cancel cancelType).attr s.data subtypeKey = w.attr s.data subtypeKey := by
    intro w
    by_cases hc : cancelType = ""
    · unfold updateSigns; rw [if_pos hc]
    · rw [updateSigns_attr hc, if_neg]
      rintro ⟨c, hc, he⟩
      exact hd c hc he
  have h2 : ∀ ps : Params, ps .refers = some (s :: signs) →
      signType (updateSigns (updateSigns w (s :: signs) type) cancel cancelType) attrs ps = .ok type := by
    intro ps h
    unfold signType getLsOrPoly
    rw [h, Option.getD_some, List.filter_cons_of_pos (by obtain ⟨l, rfl⟩ | ⟨p, rfl⟩ := hs <;> rfl)]
    simp only
    rw [h1, updateSigns_attr ht, if_pos ⟨s, by simp, rfl⟩]
  unfold trafficSignMake
  simp only
  rw [h2 _ rfl]
  exact ⟨_, _, rfl, h2 _ rfl⟩

/-- Disagreement: with the same sign as sign and as cancelling sign the type is the one of the cancelling signs. -/
theorem shared_sign_counterexample (w : World) (attrs : String → Option String) :
    ∃ w' ps, trafficSignMake w attrs [.line (1, false)] "de205" [.line (1, false)] "de206" [] [] = (w', .ok ps) ∧
      signType w' attrs ps = .ok "de206" := by
  refine ⟨_, _, rfl, rfl⟩

theorem subtypes_spec (w : World) : ∀ l : List Param,
    (∀ ts, subtypes w l = .ok ts → ∀ t, t ∈ ts ↔ ∃ s ∈ l, w.attr s.data subtypeKey = some t) ∧
      ((∃ ts, subtypes w l = .ok ts) ↔ ∀ s ∈ l, w.attr s.data subtypeKey ≠ none) := by
  intro l
  induction l with
  | nil => exact ⟨by rintro ts h; cases h; simp, by simp [subtypes]⟩
  | cons s l ih =>
    unfold subtypes
    cases ha : w.attr s.data subtypeKey with
    | none =>
      refine ⟨fun ts h => (by cases h), ?_⟩
      constructor
      · rintro ⟨ts, h⟩; cases h
      · intro h; exact absurd ha (h s (by simp))
    | some t =>
      cases hs : subtypes w l with
      | error e =>
        refine ⟨fun ts h => (by cases h), ?_⟩
        constructor
        · rintro ⟨ts, h⟩; cases h
        · intro h
          obtain ⟨ts, hts⟩ := ih.2.mpr fun x hx => h x (by simp [hx])
          rw [hs] at hts; cases hts
      | ok ts =>
        refine ⟨?_, ?_⟩
        · rintro ts' h
          cases h
          intro t'
          rw [List.mem_cons, ih.1 ts hs t']
          constructor
          · rintro (rfl | ⟨x, hx, hat⟩)
            · exact ⟨s, by simp, ha⟩
            · exact ⟨x, by simp [hx], hat⟩
          · rintro ⟨x, hx, hat⟩
            rcases List.mem_cons.mp hx with rfl | hx
            · left; rw [ha] at hat; cases hat; rfl
            · exact .inr ⟨x, hx, hat⟩
        · constructor
          · rintro - x hx
            rcases List.mem_cons.mp hx with rfl | hx
            · rw [ha]; simp
            · exact ih.2.mp ⟨ts, hs⟩ x hx
          · intro _; exact ⟨t :: ts, rfl⟩

theorem destutter_sorted {l : List String} (h : l.Pairwise (· ≤ ·)) : (l.destutter (· ≠ ·)).Pairwise (· < ·) := by
  have h1 : (l.destutter (· ≠ ·)).Pairwise (· ≤ ·) := h.sublist (List.destutter_sublist _ l)
  have h2 : (l.destutter (· ≠ ·)).IsChain (· ≠ ·) := List.isChain_destutter _ l
  generalize l.destutter (· ≠ ·) = d at h1 h2
  induction d with
  | nil => exact .nil
  | cons a d ih =>
    rw [List.pairwise_cons] at h1 ⊢
    refine ⟨?_, ih h1.2 h2.tail⟩
    intro b hb
    cases d with
    | nil => cases hb
    | cons c d =>
      have hac : a < c := lt_of_le_of_ne (h1.1 c (by simp)) (List.isChain_cons_cons.mp h2).1
      rcases List.mem_cons.mp hb with rfl | hb
      · exact hac
      · exact lt_of_lt_of_le hac ((List.pairwise_cons.mp h1.2).1 b hb)

theorem destutter_mem {l : List String} (h : l.Pairwise (· ≤ ·)) (t : String) : t ∈ l.destutter (· ≠ ·) ↔ t ∈ l := by
  refine ⟨fun ht => (List.destutter_sublist _ l).subset ht, ?_⟩
  have key : ∀ (l : List String) (a : String), t ∈ a :: l → t ∈ List.destutter' (· ≠ ·) a l := by
    intro l
    induction l with
    | nil => intro a ht; simpa using ht
    | cons b l ih =>
      intro a ht
      rw [List.destutter'_cons]
      by_cases hab : a = b
      · subst hab
        rw [if_neg (by simp)]
        apply ih
        rcases List.mem_cons.mp ht with h | h
        · rw [h]; simp
        · exact h
      · rw [if_pos hab]
        rcases List.mem_cons.mp ht with h | h
        · rw [h]; simp
        · exact List.mem_cons_of_mem _ (ih b h)
  cases l with
  | nil => exact id
  | cons a l => exact key l a

/-- C40: cancelTypes lists every subtype of a cancelling sign exactly once, in order, and throws iff one has none. -/
theorem cancelTypes_spec (w : World) (ps : Params) :
    (∀ ts, cancelTypes w ps = .ok ts → ts.Pairwise (· < ·) ∧ ∀ t, t ∈ ts ↔ ∃ s ∈ getLsOrPoly ps .cancels, w.attr s.data subtypeKey = some t) ∧
      ((∃ ts, cancelTypes w ps = .ok ts) ↔ ∀ s ∈ getLsOrPoly ps .cancels, w.attr s.data subtypeKey ≠ none) := by
  obtain ⟨h1, h2⟩ := subtypes_spec w (getLsOrPoly ps .cancels)
  unfold cancelTypes
  cases hs : subtypes w (getLsOrPoly ps .cancels) with
  | error e =>
    refine ⟨fun ts h => (by cases h), ?_⟩
    rw [← h2, hs]
    constructor
    · rintro ⟨ts, h⟩; cases h
    · rintro ⟨ts, h⟩; cases h
  | ok ts =>
    have hsort : (ts.insertionSort (· ≤ ·)).Pairwise (· ≤ ·) := List.pairwise_insertionSort _ ts
    refine ⟨?_, ?_⟩
    · rintro ts' h
      cases h
      refine ⟨destutter_sorted hsort, fun t => ?_⟩
      rw [destutter_mem hsort, (List.perm_insertionSort _ ts).mem_iff]
      exact h1 ts hs t
    · rw [← h2, hs]
      exact ⟨fun _ => ⟨ts, rfl⟩, fun _ => ⟨_, rfl⟩⟩

/-- three cancelling signs of two types -/
example : ∃ ts, cancelTypes ⟨fun _ => false, fun d k => if k = subtypeKey then (if d = 2 then some "de282" else some "de274") else none⟩
    (fun r => if r = .cancels then some [.line (2, false), .poly (3, false), .line (2, true), .area 7] else none) = .ok ts ∧
    ts.Pairwise (· < ·) ∧ ∀ t, t ∈ ts ↔ t = "de282" ∨ t = "de274" := by
  let w : World := ⟨fun _ => false, fun d k => if k = subtypeKey then (if d = 2 then some "de282" else some "de274") else none⟩
  let ps : Params := fun r => if r = .cancels then some [.line (2, false), .poly (3, false), .line (2, true), .area 7] else none
  have hg : getLsOrPoly ps .cancels = [.line (2, false), .poly (3, false), .line (2, true)] := rfl
  obtain ⟨ts, hts⟩ := (cancelTypes_spec w ps).2.mpr (by
    rw [hg]; intro s hs; simp only [List.mem_cons, List.not_mem_nil, or_false] at hs
    rcases hs with rfl | rfl | rfl <;> simp [w, Param.data])
  obtain ⟨h1, h2⟩ := (cancelTypes_spec w ps).1 ts hts
  refine ⟨ts, hts, h1, fun t => ?_⟩
  rw [h2 t, hg]
  simp only [List.mem_cons, List.not_mem_nil, or_false, exists_eq_or_imp, exists_eq_left, w, Param.data]
  simp only [if_true]
  constructor
  · rintro (h | h | h) <;> simp at h <;> simp [← h]
  · rintro (rfl | rfl) <;> simp

/-! ### factory -/

/-- the subtype attribute of a created element is the name of the rule, or "regulatory_element" -/
theorem create_subtype (w : World) (rule : String) (attrs : String → Option String) (ps : Params) :
    (create w rule attrs ps).1 subtypeKey = some (if rule = "" then "regulatory_element" else rule) ∧
      ∀ k, k ≠ subtypeKey → (create w rule attrs ps).1 k = attrs k := by
  unfold create
  simp only
  exact ⟨if_pos trivial, fun k hk => if_neg hk⟩

/-- C40: everything that a constructor of the library makes is accepted by the factory under the name of its class. -/
theorem create_made (w : World) (attrs : String → Option String) :
    (∀ lights s ps, trafficLightMake lights s = .ok ps → (create w "traffic_light" attrs ps).2 = .ok ()) ∧
    (∀ right yld s ps, rightOfWayMake right yld s = .ok ps → (create w "right_of_way" attrs ps).2 = .ok ()) ∧
    (∀ es signs ps, allWayStopMake es signs = .ok ps → (create w "all_way_stop" attrs ps).2 = .ok ()) ∧
    (∀ w₀ signs t cancel ct rl cl ps, trafficSignMake w₀ attrs signs t cancel ct rl cl = (w, .ok ps) →
      (create w "traffic_sign" attrs ps).2 = .ok () ∧ (create w "speed_limit" attrs ps).2 = .ok ()) := by
  have hmap : ∀ {c : Except Fault Unit} {ps ps' : Params}, (c.map fun _ => ps) = .ok ps' → c = .ok () ∧ ps = ps' := by
    intro c ps ps' h
    cases c with
    | error e => cases h
    | ok u => cases h; exact ⟨rfl, rfl⟩
  refine ⟨?_, ?_, ?_, ?_⟩
  · intro lights s ps h
    obtain ⟨h1, h2⟩ := hmap h
    subst h2
    simpa [create] using h1
  · intro right yld s ps h
    obtain ⟨h1, h2⟩ := hmap h
    subst h2
    simpa [create] using h1
  · intro es signs ps h
    obtain ⟨h1, h2⟩ := hmap h
    subst h2
    simpa [create] using h1
  · intro w₀ signs t cancel ct rl cl ps h
    unfold trafficSignMake at h
    simp only [Prod.mk.injEq] at h
    obtain ⟨hw, h⟩ := h
    rw [hw] at h
    cases hs : signType w attrs _ with
    | error e => rw [hs] at h; cases h
    | ok ty =>
      rw [hs] at h
      cases h
      have hcongr : ∀ a : String → Option String, a signTypeKey = attrs signTypeKey → ∀ ps, signType w a ps = signType w attrs ps := by
        intro a ha ps
        unfold signType
        rw [ha]
      have hk : signTypeKey ≠ subtypeKey := by decide
      constructor
      · simp only [create, String.reduceEq, if_false, true_or, if_true]
        rw [hcongr _ (if_neg hk), hs]
        rfl
      · simp only [create, String.reduceEq, if_false, or_true, if_true]
        rw [hcongr _ (if_neg hk), hs]
        rfl

/-- a rule that is not registered is an error -/
theorem create_unknown (w : World) (attrs : String → Option String) (ps : Params) {rule : String}
    (h : rule ∉ ["", "regulatory_element", "traffic_light", "right_of_way", "traffic_sign", "speed_limit", "all_way_stop"]) :
    (create w rule attrs ps).2 = .error .invalidInput := by
  simp only [List.mem_cons, List.not_mem_nil, or_false, not_or] at h
  obtain ⟨h0, h1, h2, h3, h4, h5, h6⟩ := h
  simp [create, h0, h1, h2, h3, h4, h5, h6]

end Verif.RegElem
