import Verif.Build.Model
import Batteries.Data.List.Perm

/-! The lane change collector: every collected lane change is handed out exactly once, for every iteration order. -/
namespace Verif.Build
open Verif.Graph (RGraph EdgeInfo BaseEdge CostTests RelationType)
open Verif.Graph.RelationType
open Verif.Lanelet (LH)
open List (Perm)
open scoped List

/-- the lane changes not handed out yet -/
def pending (m : List Entry) : List (LH × LH) := (m.filter fun e => !e.visited).map fun e => (e.src, e.target)

/-- the lane changes collected -/
def pairs (m : List Entry) : List (LH × LH) := m.map fun e => (e.src, e.target)

theorem pairs_mark (m : List Entry) (s : LH) : pairs (mark m s) = pairs m := by
  unfold pairs mark
  rw [List.map_map]
  apply List.map_congr_left
  intro e _
  simp only [Function.comp]
  split <;> rfl

theorem keys_of_pairs {m m' : List Entry} (h : pairs m' = pairs m) : m'.map (·.src) = m.map (·.src) := by
  have := congrArg (List.map Prod.fst) h
  simpa [pairs, List.map_map, Function.comp_def] using this

theorem pending_mark (m : List Entry) (hn : (m.map (·.src)).Nodup) (e : Entry) (he : e ∈ m) (hv : e.visited = false) :
    pending m ~ (e.src, e.target) :: pending (mark m e.src) := by
  induction m with
  | nil => simp at he
  | cons x m ih =>
    simp only [List.map_cons, List.nodup_cons] at hn
    rcases List.mem_cons.mp he with rfl | he'
    · have hm : mark m e.src = m := by
        unfold mark
        conv => rhs; rw [← List.map_id m]
        apply List.map_congr_left
        intro y hy
        have : y.src ≠ e.src := fun h => hn.1 (List.mem_map.mpr ⟨y, hy, h⟩)
        simp [this]
      have e1 : mark (e :: m) e.src = { e with visited := true } :: mark m e.src := by simp [mark]
      rw [e1, hm]
      simp [pending, hv]
    · have hx : x.src ≠ e.src := fun h => hn.1 (h ▸ List.mem_map.mpr ⟨e, he', rfl⟩)
      have e1 : mark (x :: m) e.src = x :: mark m e.src := by simp [mark, hx]
      rw [e1]
      have ih := ih hn.2 he'
      cases hxv : x.visited
      · have a1 : pending (x :: m) = (x.src, x.target) :: pending m := by simp [pending, hxv]
        have a2 : pending (x :: mark m e.src) = (x.src, x.target) :: pending (mark m e.src) := by simp [pending, hxv]
        rw [a1, a2]
        exact (ih.cons _).trans (List.Perm.swap _ _ _)
      · have a1 : pending (x :: m) = pending m := by simp [pending, hxv]
        have a2 : pending (x :: mark m e.src) = pending (mark m e.src) := by simp [pending, hxv]
        rw [a1, a2]
        exact ih

theorem mark_visited (m : List Entry) (s : LH) (k : Nat) (e : Entry) (h : m[k]? = some e) (hv : e.visited = true) :
    ∃ e', (mark m s)[k]? = some e' ∧ e'.visited = true := by
  unfold mark
  rw [List.getElem?_map, h]
  simp only [Option.map_some, Option.some.injEq, exists_eq_left']
  split
  · rfl
  · exact hv

/-- `l` continues from `(s, t)`: every lane change is the only neighbour of the one before -/
def Continues (adj : LH → Option (List LH)) : LH → LH → List (LH × LH) → Prop
  | _, _, [] => True
  | s, t, (s', t') :: r => adj s = some [s'] ∧ adj t = some [t'] ∧ Continues adj s' t' r

/-- entries visited stay visited, and nothing else changes -/
def Later (m m' : List Entry) : Prop :=
  pairs m' = pairs m ∧ ∀ (k : Nat) e, m[k]? = some e → e.visited = true → ∃ e', m'[k]? = some e' ∧ e'.visited = true

theorem Later.refl (m : List Entry) : Later m m := ⟨rfl, fun _ e h hv => ⟨e, h, hv⟩⟩

theorem Later.trans {a b c : List Entry} (h1 : Later a b) (h2 : Later b c) : Later a c := by
  refine ⟨h2.1.trans h1.1, fun k e h hv => ?_⟩
  obtain ⟨e', h', hv'⟩ := h1.2 k e h hv
  exact h2.2 k e' h' hv'

theorem later_mark (m : List Entry) (s : LH) : Later m (mark m s) :=
  ⟨pairs_mark m s, fun k e h hv => mark_visited m s k e h hv⟩

theorem chain_spec (adj : LH → Option (List LH)) (n : Nat) : ∀ (m : List Entry) (s t : LH),
    (pending m).length = n → (m.map (·.src)).Nodup → (∀ p ∈ pairs m, (adj p.1).isSome ∧ (adj p.2).isSome) →
    (adj s).isSome → (adj t).isSome →
    ∃ m' l, chain adj m s t = some (m', l) ∧ Later m m' ∧ pending m ~ l ++ pending m' ∧ Continues adj s t l := by
  induction n using Nat.strongRecOn with
  | _ n ih =>
    intro m s t hlen hn hadj hs ht
    obtain ⟨ns, hns⟩ := Option.isSome_iff_exists.mp hs
    obtain ⟨nt, hnt⟩ := Option.isSome_iff_exists.mp ht
    have stop : chain adj m s t = some (m, []) → ∃ m' l, chain adj m s t = some (m', l) ∧ Later m m' ∧
        pending m ~ l ++ pending m' ∧ Continues adj s t l :=
      fun h => ⟨m, [], h, Later.refl m, .refl _, trivial⟩
    rw [chain] at stop ⊢
    simp only [hns, hnt, Option.bind_eq_bind, Option.bind_some] at stop ⊢
    match ns, nt with
    | [], _ => exact stop rfl
    | _ :: _ :: _, _ => exact stop rfl
    | [_], [] => exact stop rfl
    | [_], _ :: _ :: _ => exact stop rfl
    | [s'], [t'] =>
      simp only at stop ⊢
      cases hf : m.find? (fun e => e.src == s') with
      | none => simp only [hf] at stop; exact stop rfl
      | some e =>
        simp only [hf] at stop ⊢
        have hem : e ∈ m := List.mem_of_find?_eq_some hf
        have hes : e.src = s' := by have := List.find?_some hf; simpa using this
        by_cases hc : e.visited = true ∨ e.target ≠ t'
        · rw [if_pos hc] at stop ⊢; exact stop rfl
        · rw [if_neg hc]
          have hv : e.visited = false := by
            cases h : e.visited with
            | false => rfl
            | true => exact absurd (.inl h) hc
          have ht' : e.target = t' := Decidable.byContradiction fun h => hc (.inr h)
          have hp := pending_mark m hn e hem hv
          rw [hes, ht'] at hp
          have hlt : (pending (mark m s')).length < n := by
            have := hp.length_eq
            simp only [List.length_cons] at this
            omega
          have hmem : (s', t') ∈ pairs m := List.mem_map.mpr ⟨e, hem, by rw [hes, ht']⟩
          obtain ⟨m', l, h1, h2, h3, h4⟩ := ih _ hlt (mark m s') s' t' rfl
            (by rw [keys_of_pairs (pairs_mark m s')]; exact hn) (by rw [pairs_mark]; exact hadj)
            (hadj _ hmem).1 (hadj _ hmem).2
          refine ⟨m', (s', t') :: l, ?_, (later_mark m s').trans h2, ?_, hns, hnt, h4⟩
          · rw [h1]; rfl
          · exact hp.trans (h3.cons _)

/-- `ch` is a sequence of lane changes, where each one is reached from its neighbour by an unambiguous transition on both
lanes -/
def Sequence (prev next : LH → Option (List LH)) : List (LH × LH) → Prop
  | [] => True
  | [_] => True
  | x :: y :: r => ((next x.1 = some [y.1] ∧ next x.2 = some [y.2]) ∨ (prev y.1 = some [x.1] ∧ prev y.2 = some [x.2])) ∧
      Sequence prev next (y :: r)

theorem sequence_next (prev next : LH → Option (List LH)) (l : List (LH × LH)) :
    ∀ s t, Continues next s t l → Sequence prev next ((s, t) :: l) := by
  induction l with
  | nil => intros; trivial
  | cons p l ih =>
    intro s t h
    exact ⟨.inl ⟨h.1, h.2.1⟩, ih _ _ h.2.2⟩

theorem sequence_snoc (prev next : LH → Option (List LH)) (r : List (LH × LH)) (x y : LH × LH) :
    ∀ (l : List (LH × LH)), Sequence prev next (l ++ [x]) → Sequence prev next (y :: r) →
    (prev y.1 = some [x.1] ∧ prev y.2 = some [x.2]) → Sequence prev next (l ++ [x] ++ (y :: r))
  | [], _, h2, h => ⟨.inr h, h2⟩
  | [a], h1, h2, h => ⟨h1.1, .inr h, h2⟩
  | a :: b :: l, h1, h2, h => ⟨h1.1, sequence_snoc prev next r x y (b :: l) h1.2 h2 h⟩

theorem sequence_prev (prev next : LH → Option (List LH)) (l : List (LH × LH)) :
    ∀ (r : List (LH × LH)) s t, Continues prev s t l → Sequence prev next ((s, t) :: r) →
      Sequence prev next (l.reverse ++ (s, t) :: r) := by
  induction l with
  | nil => intro r s t _ h; exact h
  | cons p l ih =>
    intro r s t h hr
    have := ih ((s, t) :: r) p.1 p.2 h.2.2 ⟨.inr ⟨h.1, h.2.1⟩, hr⟩
    simpa using this

/-- all lane changes before the position are handed out -/
def DoneTo (m : List Entry) (pos : Nat) : Prop := ∀ (k : Nat) e, k < pos → m[k]? = some e → e.visited = true

theorem DoneTo.later {m m' : List Entry} {pos : Nat} (h : DoneTo m pos) (hl : Later m m') : DoneTo m' pos := by
  intro k e hk he
  have hlen : m'.length = m.length := by have := congrArg List.length hl.1; simpa [pairs] using this
  obtain ⟨hk', -⟩ := List.getElem?_eq_some_iff.mp he
  have hk2 : k < m.length := by omega
  have h0 : m[k]? = some m[k] := List.getElem?_eq_getElem hk2
  obtain ⟨e', h1, h2⟩ := hl.2 k _ h0 (h k _ hk h0)
  rw [he] at h1
  obtain rfl : e = e' := by simpa using h1
  exact h2

theorem doneTo_skip (m : List Entry) (pos : Nat) (h : DoneTo m pos) :
    DoneTo m (pos + ((m.drop pos).takeWhile (·.visited)).length) ∧
    ∀ e, m[pos + ((m.drop pos).takeWhile (·.visited)).length]? = some e → e.visited = false := by
  constructor
  · intro k e hk he
    by_cases hlt : k < pos
    · exact h k e hlt he
    · obtain ⟨d, rfl⟩ := Nat.exists_eq_add_of_le (Nat.le_of_not_lt hlt)
      have hd : d < ((m.drop pos).takeWhile (·.visited)).length := by omega
      have h1 : ((m.drop pos).takeWhile (·.visited))[d]? = (m.drop pos)[d]? := by
        obtain ⟨t, ht⟩ := List.takeWhile_prefix (fun e : Entry => e.visited) (l := m.drop pos)
        conv => rhs; rw [← ht]
        rw [List.getElem?_append_left hd]
      rw [List.getElem?_drop, he] at h1
      have := List.mem_of_getElem? h1
      have hall := List.all_takeWhile (p := fun e : Entry => e.visited) (l := m.drop pos)
      exact List.all_eq_true.mp hall _ this
  · intro e he
    rw [← List.getElem?_drop] at he
    have h1 := List.takeWhile_append_dropWhile (p := fun e : Entry => e.visited) (l := m.drop pos)
    rw [← h1, List.getElem?_append_right] at he
    · have hsub : (List.takeWhile (fun e : Entry => e.visited) (m.drop pos) ++
          List.dropWhile (fun e => e.visited) (m.drop pos)).takeWhile (·.visited) =
          (m.drop pos).takeWhile (·.visited) := by rw [h1]
      rw [hsub, Nat.sub_self] at he
      have h2 : (List.dropWhile (fun e : Entry => e.visited) (m.drop pos)).head? = some e := by
        rw [List.head?_eq_getElem?]; exact he
      cases hd : List.dropWhile (fun e : Entry => e.visited) (m.drop pos) with
      | nil => rw [hd] at h2; simp at h2
      | cons y ys =>
        rw [hd] at h2
        obtain rfl : y = e := by simpa using h2
        have := List.head_dropWhile_not (fun e : Entry => e.visited) (l := m.drop pos) (by rw [hd]; simp)
        simpa [hd] using this
    · rw [h1]; exact Nat.le_refl _

theorem pending_nil_of_done {m : List Entry} {pos : Nat} (h : DoneTo m pos) (hp : m[pos]? = none) : pending m = [] := by
  unfold pending
  rw [List.map_eq_nil_iff, List.filter_eq_nil_iff]
  intro e he
  obtain ⟨k, hk⟩ := List.mem_iff_getElem?.mp he
  have h1 : m.length ≤ pos := List.getElem?_eq_none_iff.mp hp
  obtain ⟨h2, -⟩ := List.getElem?_eq_some_iff.mp hk
  simp [h k e (by omega) hk]

theorem getNext_spec (prev next : LH → Option (List LH)) (m : List Entry) (pos : Nat)
    (hn : (m.map (·.src)).Nodup)
    (hprev : ∀ p ∈ pairs m, (prev p.1).isSome ∧ (prev p.2).isSome)
    (hnext : ∀ p ∈ pairs m, (next p.1).isSome ∧ (next p.2).isSome) (hd : DoneTo m pos) :
    ∃ r m' pos', getNext prev next m pos = some (r, m', pos') ∧ Later m m' ∧ DoneTo m' pos' ∧
      ((r = none ∧ pending m = []) ∨
       (∃ ch, r = some ch ∧ ch ≠ [] ∧ pending m ~ ch ++ pending m' ∧ Sequence prev next ch)) := by
  obtain ⟨hd', hnv⟩ := doneTo_skip m pos hd
  unfold getNext
  simp only
  generalize pos + ((m.drop pos).takeWhile (·.visited)).length = p at hd' hnv ⊢
  cases hp : m[p]? with
  | none =>
    exact ⟨none, m, p, rfl, Later.refl m, hd', .inl ⟨rfl, pending_nil_of_done hd' hp⟩⟩
  | some e =>
    have hem := List.mem_of_getElem? hp
    have hv := hnv e hp
    have hpm := pending_mark m hn e hem hv
    have hmem : (e.src, e.target) ∈ pairs m := List.mem_map.mpr ⟨e, hem, rfl⟩
    have l1 := later_mark m e.src
    obtain ⟨m1, l, h1, h2, h3, h4⟩ := chain_spec next _ (mark m e.src) e.src e.target rfl
      (by rw [keys_of_pairs (pairs_mark m _)]; exact hn) (by rw [pairs_mark]; exact hnext) (hnext _ hmem).1 (hnext _ hmem).2
    have l2 := l1.trans h2
    obtain ⟨m2, l', h1', h2', h3', h4'⟩ := chain_spec prev _ m1 e.src e.target rfl
      (by rw [keys_of_pairs l2.1]; exact hn) (by rw [l2.1]; exact hprev) (hprev _ hmem).1 (hprev _ hmem).2
    have l3 := l2.trans h2'
    refine ⟨some (l'.reverse ++ [(e.src, e.target)] ++ l), m2, p, ?_, l3, hd'.later l3,
      .inr ⟨_, rfl, by simp, ?_, ?_⟩⟩
    · simp [h1, h1']
    · refine hpm.trans ?_
      have s1 : pending (mark m e.src) ~ l ++ (l' ++ pending m2) := h3.trans (h3'.append_left _)
      have s2 : (e.src, e.target) :: (l ++ (l' ++ pending m2)) ~ l' ++ (((e.src, e.target) :: l) ++ pending m2) := by
        rw [← List.cons_append, ← List.append_assoc, ← List.append_assoc]
        exact List.Perm.append_right _ List.perm_append_comm
      refine (s1.cons _).trans (s2.trans ?_)
      have s3 : l'.reverse ++ [(e.src, e.target)] ++ l ++ pending m2 =
          l'.reverse ++ (((e.src, e.target) :: l) ++ pending m2) := by simp
      rw [s3]
      exact List.Perm.append_right _ (List.reverse_perm l').symm
    · have := sequence_prev prev next l' l e.src e.target h4' (sequence_next prev next l _ _ h4)
      simpa using this

end Verif.Build
