import Verif.HMap.Lemmas
import Batteries.Data.List.Perm

/-!
C09: a HybridMap behaves like a plain map, and access by enum and by string agree.

Specification vocabulary: `Plain V` are the contents of all objects as functions from keys to values; `plainStep`
says what every operation of a history does to these contents. Nothing of the implementation occurs in it.
-/
namespace Verif.HMap

variable {V : Type}

/-! ### Specification -/

/-- the contents of the objects -/
abbrev Plain (V : Type) := Nat → Key → Option V

/-- `c` with key `k` of object `o` set to `x` -/
def Plain.put (c : Plain V) (o : Nat) (k : Key) (x : Option V) : Plain V :=
  fun o' k' => if o' = o ∧ k' = k then x else c o' k'

/-- the operations of `std::map`; `name` gives the string of an enum value -/
def plainStep (name : Nat → Key) (c : Plain V) : Op V → Plain V
  | .insert o k x => if (c o k).isSome then c else c.put o k (some x)
  | .insertHint o k x => if (c o k).isSome then c else c.put o k (some x)
  | .assignKey o k x => c.put o k (some x)
  | .assignEnum o pos x => c.put o (name pos) (some x)
  | .erase o k => c.put o k none
  | .clear o => fun o' k' => if o' = o then none else c o' k'
  | .copy dst src => fun o' k' => if o' = dst then c src k' else c o' k'
  | .move dst src => fun o' k' => if o' = src then none else if o' = dst then c src k' else c o' k'

/-- The table of names is one that occurs in the library: names and enum values are distinct, names are C strings. -/
def GoodTable (tab : Table) : Prop :=
  (∀ (i j : Nat) (e e' : Key × Nat), tab[i]? = some e → tab[j]? = some e' → (e.1 = e'.1 ∨ e.2 = e'.2) → i = j) ∧
  ∀ e ∈ tab, Char.ofNat 0 ∉ e.1

/-- The operations a caller may use: keys without NUL, enum values of the table, no move of an object onto itself. -/
def Allowed (tab : Table) : Op V → Prop
  | .insert _ k _ | .insertHint _ k _ | .assignKey _ k _ => Char.ofNat 0 ∉ k
  | .assignEnum _ pos _ => ∃ k, (k, pos) ∈ tab
  | .move dst src => dst ≠ src
  | _ => True

/-- `name` gives the strings of the table -/
def Names (tab : Table) (name : Nat → Key) : Prop := ∀ k p, (k, p) ∈ tab → name p = k

/-! ### Proofs -/

theorem GoodTable.ok {tab : Table} (h : GoodTable tab) : TabOk tab := by
  have key : ∀ {β : Type} (f : Key × Nat → β),
      (∀ (i j : Nat) e e', tab[i]? = some e → tab[j]? = some e' → f e = f e' → i = j) → (tab.map f).Nodup := by
    intro β f hf
    rw [List.nodup_iff_pairwise_ne, List.pairwise_iff_getElem]
    intro i j hi hj hij e
    simp only [List.getElem_map] at e
    simp only [List.length_map] at hi hj
    have := hf i j _ _ (List.getElem?_eq_getElem hi) (List.getElem?_eq_getElem hj) e
    omega
  exact ⟨key _ fun i j e e' h1 h2 h3 => h.1 i j e e' h1 h2 (.inl h3),
    key _ fun i j e e' h1 h2 h3 => h.1 i j e e' h1 h2 (.inr h3), h.2⟩

theorem abs_some {w : World V} {o : Nat} (hk : ((w.maps o).m.map (·.key)).Nodup) {k : Key} {x : V} :
    abs w o k = some x ↔ ∃ a, (⟨a, k⟩ : Node) ∈ (w.maps o).m ∧ w.vals a = x := by
  unfold abs
  rw [Option.map_eq_some_iff]
  constructor
  · rintro ⟨n, hn, rfl⟩
    have := (find?_iff (fun n : Node => n.key) _ hk k n).mp hn
    exact ⟨n.addr, by rw [← this.2]; exact this.1, rfl⟩
  · rintro ⟨a, hm, rfl⟩
    exact ⟨⟨a, k⟩, (find?_iff (fun n : Node => n.key) _ hk k _).mpr ⟨hm, rfl⟩, rfl⟩

theorem abs_none {w : World V} {o : Nat} {k : Key} : abs w o k = none ↔ k ∉ (w.maps o).m.map (·.key) := by
  unfold abs
  rw [Option.map_eq_none_iff]
  exact find?_none_iff (fun n : Node => n.key) _ k

/-- replacing one object -/
theorem WInv.replace {tab : Table} {w w' : World V} (hi : WInv tab w) {o : Nat} {h : HM}
    (hm : w'.maps = upd w.maps o h) (hh : MInv tab o h) (hnext : w.next ≤ w'.next)
    (hin : ∀ n ∈ h.m, n.addr < w'.next ∧ (n ∈ (w.maps o).m ∨ w.next ≤ n.addr)) : WInv tab w' := by
  have hself : w'.maps o = h := by rw [hm]; simp [upd]
  have hother : ∀ o', o' ≠ o → w'.maps o' = w.maps o' := by
    intro o' ho; rw [hm]; simp [upd, ho]
  refine ⟨?_, ?_, ?_⟩
  · intro o'
    by_cases e : o' = o
    · subst e; rw [hself]; exact hh
    · rw [hother o' e]; exact hi.each o'
  · intro o' n hn
    by_cases e : o' = o
    · subst e; rw [hself] at hn; exact (hin n hn).1
    · rw [hother o' e] at hn; have := hi.fresh o' n hn; omega
  · have cross : ∀ o', o' ≠ o → ∀ n ∈ h.m, ∀ n' ∈ (w.maps o').m, n.addr ≠ n'.addr := by
      intro o' e n hn n' hn'
      rcases (hin n hn).2 with hold | hnew
      · exact hi.apart o o' (fun h => e h.symm) n hold n' hn'
      · have := hi.fresh o' n' hn'; omega
    intro o1 o2 hne n hn n' hn'
    by_cases e1 : o1 = o
    · subst e1
      have e2 : o2 ≠ o1 := fun h => hne h.symm
      rw [hself] at hn; rw [hother o2 e2] at hn'
      exact cross o2 e2 n hn n' hn'
    · by_cases e2 : o2 = o
      · subst e2
        rw [hself] at hn'; rw [hother o1 e1] at hn
        exact (cross o1 e1 n' hn' n hn).symm
      · rw [hother o1 e1] at hn; rw [hother o2 e2] at hn'
        exact hi.apart o1 o2 hne n hn n' hn'

theorem addr_fresh {tab : Table} {w : World V} (hi : WInv tab w) (o : Nat) : w.next ∉ (w.maps o).m.map (·.addr) := by
  intro hm
  obtain ⟨n, hn, e⟩ := List.mem_map.mp hm
  have := hi.fresh o n hn
  have e' : n.addr = w.next := e
  omega

/-- the new-node branch that insert and insertHint share -/
theorem addNode_spec {tab : Table} (ht : TabOk tab) {w : World V} (hi : WInv tab w) {o : Nat} {k : Key} {x : V}
    (hk : noNul k) (hn : (w.maps o).m.find? (·.key == k) = none) :
    WInv tab { maps := upd w.maps o ⟨(w.maps o).m ++ [⟨w.next, k⟩], updateV tab o (w.maps o).v ⟨w.next, k⟩⟩,
               vals := upd w.vals w.next x, next := w.next + 1 : World V } ∧
    abs { maps := upd w.maps o ⟨(w.maps o).m ++ [⟨w.next, k⟩], updateV tab o (w.maps o).v ⟨w.next, k⟩⟩,
          vals := upd w.vals w.next x, next := w.next + 1 : World V } = Plain.put (abs w) o k (some x) := by
  have hk' : k ∉ (w.maps o).m.map (·.key) := (find?_none_iff (fun n : Node => n.key) _ k).mp hn
  refine ⟨hi.replace rfl ((hi.each o).append ht hk hk' (addr_fresh hi o)) (by simp) ?_, ?_⟩
  · intro n hm
    simp only [List.mem_append, List.mem_singleton] at hm
    rcases hm with hm | rfl
    · exact ⟨by have := hi.fresh o n hm; simp; omega, .inl hm⟩
    · exact ⟨by simp, .inr (Nat.le_refl _)⟩
  · funext o' k'
    unfold abs Plain.put
    by_cases e : o' = o
    · subst e
      simp only [upd, if_pos, true_and, List.find?_append]
      by_cases ek : k' = k
      · subst ek; simp [hn]
      · have : (k == k') = false := by simpa using fun x => ek x.symm
        simp only [List.find?_cons, this, List.find?_nil, Option.or_none, if_neg ek]
        cases hf : (w.maps o').m.find? (·.key == k') with
        | none => rfl
        | some n =>
          have := hi.fresh o' n (List.mem_of_find?_eq_some hf)
          simp only [Option.map_some]
          rw [if_neg (by omega)]
    · simp only [upd, e, if_false, false_and]
      cases hf : (w.maps o').m.find? (·.key == k') with
      | none => rfl
      | some n =>
        have := hi.fresh o' n (List.mem_of_find?_eq_some hf)
        simp only [Option.map_some]
        rw [if_neg (by omega)]

theorem insert_spec {tab : Table} (ht : TabOk tab) {w : World V} (hi : WInv tab w) (o : Nat) {k : Key} (x : V)
    (hk : noNul k) :
    WInv tab (insert tab o k x w).1 ∧
    abs (insert tab o k x w).1 = (if (abs w o k).isSome then abs w else Plain.put (abs w) o k (some x)) ∧
    (insert tab o k x w).2.1 = find o ((insert tab o k x w).1.maps o) k ∧
    (∃ a, find o ((insert tab o k x w).1.maps o) k = .node a) ∧
    ((insert tab o k x w).2.2 = true ↔ abs w o k = none) := by
  cases hn : (w.maps o).m.find? (·.key == k) with
  | some n =>
    have he : insert tab o k x w = (w, .node n.addr, false) := by simp [insert, hn]
    rw [he]
    have : abs w o k = some (w.vals n.addr) := by unfold abs; rw [hn]; rfl
    have hf : find o (w.maps o) k = .node n.addr := by unfold find; rw [hn]
    exact ⟨hi, by rw [this]; rfl, hf.symm, ⟨_, hf⟩, by simp [this]⟩
  | none =>
    have he : insert tab o k x w =
      ({ maps := upd w.maps o ⟨(w.maps o).m ++ [⟨w.next, k⟩], updateV tab o (w.maps o).v ⟨w.next, k⟩⟩
         vals := upd w.vals w.next x, next := w.next + 1 }, .node w.next, true) := by simp [insert, hn]
    rw [he]
    have : abs w o k = none := by unfold abs; rw [hn]; rfl
    have hk' : k ∉ (w.maps o).m.map (·.key) := (find?_none_iff (fun n : Node => n.key) _ k).mp hn
    obtain ⟨h1, h2⟩ := addNode_spec ht hi (x := x) hk hn
    have hf : find o (upd w.maps o ⟨(w.maps o).m ++ [⟨w.next, k⟩], updateV tab o (w.maps o).v ⟨w.next, k⟩⟩ o) k =
        .node w.next := by
      rw [show upd w.maps o ⟨(w.maps o).m ++ [⟨w.next, k⟩], updateV tab o (w.maps o).v ⟨w.next, k⟩⟩ o =
        ⟨(w.maps o).m ++ [⟨w.next, k⟩], updateV tab o (w.maps o).v ⟨w.next, k⟩⟩ by simp [upd],
        find_append_new _ hk', if_pos rfl]
    exact ⟨h1, by rw [this]; exact h2, hf.symm, ⟨_, hf⟩, by simp [this]⟩

theorem insertHint_spec {tab : Table} (ht : TabOk tab) {w : World V} (hi : WInv tab w) (o : Nat) {k : Key} (x : V)
    (hk : noNul k) :
    WInv tab (insertHint tab o k x w) ∧
    abs (insertHint tab o k x w) = if (abs w o k).isSome then abs w else Plain.put (abs w) o k (some x) := by
  cases hn : (w.maps o).m.find? (·.key == k) with
  | some n =>
    have he : insertHint tab o k x w =
      { w with maps := upd w.maps o { (w.maps o) with v := updateV tab o (w.maps o).v n } } := by
      simp [insertHint, hn]
    rw [he]
    have : abs w o k = some (w.vals n.addr) := by unfold abs; rw [hn]; rfl
    have hmem := List.mem_of_find?_eq_some hn
    refine ⟨hi.replace rfl ((hi.each o).refresh ht hmem) (Nat.le_refl _) ?_, ?_⟩
    · intro m hm; exact ⟨hi.fresh o m hm, .inl hm⟩
    · rw [this]
      funext o' k'
      unfold abs
      by_cases e : o' = o
      · subst e; simp [upd]
      · simp [upd, e]
  | none =>
    have he : insertHint tab o k x w =
      { maps := upd w.maps o ⟨(w.maps o).m ++ [⟨w.next, k⟩], updateV tab o (w.maps o).v ⟨w.next, k⟩⟩
        vals := upd w.vals w.next x, next := w.next + 1 } := by simp [insertHint, hn]
    rw [he]
    have : abs w o k = none := by unfold abs; rw [hn]; rfl
    obtain ⟨h1, h2⟩ := addNode_spec ht hi (x := x) hk hn
    exact ⟨h1, by rw [this]; exact h2⟩

theorem write_spec {tab : Table} {w : World V} (hi : WInv tab w) {o : Nat} {k : Key} {a : Nat}
    (hf : find o (w.maps o) k = .node a) (x : V) :
    ∃ w', write o (.node a) x w = some w' ∧ WInv tab w' ∧ abs w' = Plain.put (abs w) o k (some x) := by
  have hm := (find_node (hi.each o).keys).mp hf
  refine ⟨{ w with vals := upd w.vals a x }, ?_, ?_, ?_⟩
  · unfold write
    simp only
    rw [if_pos]
    exact List.any_eq_true.mpr ⟨_, hm, by simp⟩
  · exact ⟨hi.each, hi.fresh, hi.apart⟩
  · funext o' k'
    unfold abs Plain.put
    simp only
    split
    · rename_i e
      obtain ⟨rfl, rfl⟩ := e
      have := (find?_iff (fun n : Node => n.key) _ (hi.each o').keys k' _).mpr ⟨hm, rfl⟩
      rw [this]; simp [upd]
    · rename_i e
      cases hf' : (w.maps o').m.find? (·.key == k') with
      | none => rfl
      | some n =>
        have hn := (find?_iff (fun n : Node => n.key) _ (hi.each o').keys k' n).mp hf'
        have : n.addr ≠ a := by
          by_cases eo : o' = o
          · subst eo
            intro ha
            have h1 := (find?_iff (fun n : Node => n.addr) _ (hi.each o').addrs a n).mpr ⟨hn.1, ha⟩
            have h2 := (find?_iff (fun n : Node => n.addr) _ (hi.each o').addrs a _).mpr ⟨hm, rfl⟩
            rw [h1] at h2
            have h3 := Option.some.inj h2
            have : k' = k := by rw [← hn.2, h3]
            exact e ⟨rfl, this⟩
          · exact hi.apart o' o eo n hn.1 _ hm
        simp [upd, this]

theorem assign_spec {tab : Table} (ht : TabOk tab) {w : World V} (hi : WInv tab w) (d : V) (o : Nat) {k : Key} (x : V)
    (hk : noNul k) :
    ∃ w', assignKey tab d o k x w = some w' ∧ WInv tab w' ∧ abs w' = Plain.put (abs w) o k (some x) := by
  unfold assignKey
  simp only
  split
  · rename_i hl
    obtain ⟨h1, h2, h3, ⟨a, ha⟩, -⟩ := insert_spec ht hi o d hk
    rw [h3, ha]
    obtain ⟨w', hw, hwi, hab⟩ := write_spec h1 ha x
    refine ⟨w', hw, hwi, ?_⟩
    rw [hab, h2, abs_none.mpr (find_last.mp hl).2]
    funext o' k'
    unfold Plain.put
    by_cases e : o' = o ∧ k' = k <;> simp [e]
  · rename_i hl
    cases hf : find o (w.maps o) k with
    | last o' =>
      exact absurd (by rw [hf, (find_last.mp hf).1]) hl
    | node a => exact write_spec hi hf x

theorem assignEnum_eq {tab : Table} (ht : TabOk tab) {w : World V} (hi : WInv tab w) (d : V) (o : Nat) {k : Key}
    {p : Nat} (x : V) (hp : (k, p) ∈ tab) : assignEnum tab d o p x w = assignKey tab d o k x w := by
  unfold assignEnum assignKey
  rw [(hi.each o).slot k p hp, (findValue_iff ht).mpr hp]

theorem erase_spec {tab : Table} (ht : TabOk tab) {w : World V} (hi : WInv tab w) (o : Nat) (k : Key) :
    ∃ w', eraseKey o k w = some w' ∧ WInv tab w' ∧ abs w' = Plain.put (abs w) o k none := by
  unfold eraseKey
  simp only
  split
  · rename_i hl
    refine ⟨w, rfl, hi, ?_⟩
    have := abs_none.mpr (find_last.mp hl).2
    funext o' k'
    unfold Plain.put
    split
    · rename_i e; rw [e.1, e.2, this]
    · rfl
  · rename_i hl
    cases hf : find o (w.maps o) k with
    | last o' => exact absurd (by rw [hf, (find_last.mp hf).1]) hl
    | node a =>
      have hm := (find_node (hi.each o).keys).mp hf
      unfold eraseAt
      simp only
      rw [if_pos (List.any_eq_true.mpr ⟨_, hm, by simp⟩)]
      refine ⟨_, rfl, hi.replace rfl ((hi.each o).erase ht hm) (Nat.le_refl _) ?_, ?_⟩
      · intro n hn
        have := (List.mem_filter.mp hn).1
        exact ⟨hi.fresh o n this, .inl this⟩
      · have hfil := fun k' => find_filter (o := o) (hi.each o).keys (hi.each o).addrs hm rfl [] k'
        funext o' k'
        unfold Plain.put
        by_cases e : o' = o
        · subst e
          have hk2 : (((w.maps o').m.filter (·.addr != a)).map (·.key)).Nodup :=
            (hi.each o').keys.sublist (List.filter_sublist.map _)
          unfold abs
          simp only [upd, if_pos, true_and]
          have h1 := hfil k'
          unfold find at h1
          simp only at h1
          split
          · rename_i ek
            rw [if_pos ek] at h1
            cases hh : ((w.maps o').m.filter (·.addr != a)).find? (·.key == k') with
            | none => rfl
            | some n => rw [hh] at h1; cases h1
          · rename_i ek
            rw [if_neg ek] at h1
            cases hh : ((w.maps o').m.filter (·.addr != a)).find? (·.key == k') with
            | none =>
              rw [hh] at h1
              cases h' : (w.maps o').m.find? (·.key == k') with
              | none => rfl
              | some n => rw [h'] at h1; cases h1
            | some n =>
              rw [hh] at h1
              cases h' : (w.maps o').m.find? (·.key == k') with
              | none => rw [h'] at h1; cases h1
              | some n' =>
                rw [h'] at h1
                have : n.addr = n'.addr := by injection h1
                simp [this]
        · unfold abs; simp [upd, e]

theorem clear_spec {tab : Table} {w : World V} (hi : WInv tab w) (o : Nat) :
    WInv tab (clear o w) ∧ abs (clear o w) = fun o' k' => if o' = o then none else abs w o' k' := by
  refine ⟨hi.replace rfl (MInv.empty tab o) (Nat.le_refl _) (by simp), ?_⟩
  funext o' k'
  unfold abs clear
  by_cases e : o' = o
  · simp [upd, e]
  · simp [upd, e]

theorem copy_spec {tab : Table} {w : World V} (hi : WInv tab w) (dst src : Nat) :
    ∃ w', copy dst src w = some w' ∧ WInv tab w' ∧
      abs w' = fun o' k' => if o' = dst then abs w src k' else abs w o' k' := by
  unfold copy
  simp only
  split
  · rename_i e
    subst e
    obtain ⟨v, hv, hm⟩ := (hi.each dst).copyV (dst := dst) (new := (w.maps dst).m) rfl (hi.each dst).addrs
    rw [hv]
    refine ⟨_, rfl, hi.replace rfl hm (Nat.le_refl _) fun n hn => ⟨hi.fresh dst n hn, .inl hn⟩, ?_⟩
    funext o' k'
    unfold abs
    by_cases e : o' = dst
    · simp [upd, e]
    · simp [upd, e]
  · rename_i e
    obtain ⟨h1, h2, h3, h4, h5, h6⟩ := copyNodes_spec (w.maps src).m w.next w.vals (hi.fresh src)
    obtain ⟨v, hv, hm⟩ := (hi.each src).copyV (dst := dst) h1 h2
    rw [hv]
    refine ⟨_, rfl, hi.replace rfl hm h3 fun n hn => ⟨(h4 n hn).2, .inr (h4 n hn).1⟩, ?_⟩
    funext o' k'
    by_cases e : o' = dst
    · subst e
      rw [if_pos rfl]
      unfold abs
      simp only [upd, if_pos]
      exact h6 k'
    · rw [if_neg e]
      unfold abs
      simp only [upd, if_neg e]
      cases hf : (w.maps o').m.find? (·.key == k') with
      | none => rfl
      | some n =>
        have := hi.fresh o' n (List.mem_of_find?_eq_some hf)
        simp [h5 _ this]

theorem move_spec {tab : Table} {w : World V} (hi : WInv tab w) {dst src : Nat} (hne : dst ≠ src) :
    WInv tab (move dst src w) ∧
      abs (move dst src w) = fun o' k' => if o' = src then none else if o' = dst then abs w src k' else abs w o' k' := by
  have hsrc : (move dst src w).maps src = ⟨[], []⟩ := by simp [move, upd]
  have hdst : (move dst src w).maps dst =
      ⟨(w.maps src).m, (w.maps src).v.map fun it => if it = .last src then .last dst else it⟩ := by
    simp [move, upd, hne]
  have hother : ∀ o, o ≠ src → o ≠ dst → (move dst src w).maps o = w.maps o := by
    intro o h1 h2; simp [move, upd, h1, h2]
  -- every object holds the nodes of one old object, different objects those of different ones
  have horig : ∀ o, o ≠ src → ((move dst src w).maps o).m = (w.maps (if o = dst then src else o)).m := by
    intro o ho
    by_cases e : o = dst
    · rw [if_pos e, e, hdst]
    · rw [if_neg e, hother o ho e]
  refine ⟨⟨?_, ?_, ?_⟩, ?_⟩
  · intro o
    by_cases e1 : o = src
    · rw [e1, hsrc]; exact MInv.empty tab src
    · by_cases e2 : o = dst
      · rw [e2, hdst]; exact (hi.each src).moved
      · rw [hother o e1 e2]; exact hi.each o
  · intro o n hn
    by_cases e1 : o = src
    · rw [e1, hsrc] at hn; simp at hn
    · rw [horig o e1] at hn; exact hi.fresh _ n hn
  · intro o o' hoo n hn n' hn'
    by_cases e1 : o = src
    · rw [e1, hsrc] at hn; simp at hn
    · by_cases e2 : o' = src
      · rw [e2, hsrc] at hn'; simp at hn'
      · rw [horig o e1] at hn; rw [horig o' e2] at hn'
        refine hi.apart _ _ ?_ n hn n' hn'
        intro e
        by_cases e3 : o = dst <;> by_cases e4 : o' = dst
        · exact hoo (e3.trans e4.symm)
        · rw [if_pos e3, if_neg e4] at e; exact e2 e.symm
        · rw [if_neg e3, if_pos e4] at e; exact e1 e
        · rw [if_neg e3, if_neg e4] at e; exact hoo e
  · funext o k
    by_cases e1 : o = src
    · rw [if_pos e1]; unfold abs; rw [e1, hsrc]; rfl
    · rw [if_neg e1]
      unfold abs
      rw [horig o e1]
      by_cases e2 : o = dst
      · rw [if_pos e2, if_pos e2]; rfl
      · rw [if_neg e2, if_neg e2]; rfl

theorem step_spec {tab : Table} (ht : TabOk tab) {name : Nat → Key} (hname : Names tab name) (d : V) {w : World V}
    (hi : WInv tab w) (op : Op V) (hop : Allowed tab op) :
    ∃ w', run tab d w op = some w' ∧ WInv tab w' ∧ abs w' = plainStep name (abs w) op := by
  cases op with
  | insert o k x => have h := insert_spec ht hi o x hop; exact ⟨_, rfl, h.1, h.2.1⟩
  | insertHint o k x => have h := insertHint_spec ht hi o x hop; exact ⟨_, rfl, h.1, h.2⟩
  | assignKey o k x => exact assign_spec ht hi d o x hop
  | assignEnum o pos x =>
    obtain ⟨k, hk⟩ := hop
    show ∃ w', assignEnum tab d o pos x w = some w' ∧ _
    rw [assignEnum_eq ht hi d o x hk]
    obtain ⟨w', h1, h2, h3⟩ := assign_spec ht hi d o x (ht.nul _ hk)
    refine ⟨w', h1, h2, ?_⟩
    rw [h3]; show _ = Plain.put (abs w) o (name pos) (some x); rw [hname k pos hk]
  | erase o k => exact erase_spec ht hi o k
  | clear o => have h := clear_spec hi o; exact ⟨_, rfl, h.1, h.2⟩
  | copy dst src => exact copy_spec hi dst src
  | move dst src =>
    have h := move_spec hi (show dst ≠ src from hop)
    exact ⟨_, by show (if dst = src then none else _) = _; rw [if_neg hop], h.1, h.2⟩

theorem runAll_spec {tab : Table} (ht : TabOk tab) {name : Nat → Key} (hname : Names tab name) (d : V) :
    ∀ (ops : List (Op V)) (w : World V), WInv tab w → (∀ op ∈ ops, Allowed tab op) →
    ∃ w', runAll tab d w ops = some w' ∧ WInv tab w' ∧ abs w' = ops.foldl (plainStep name) (abs w)
  | [], w, hi, _ => ⟨w, rfl, hi, rfl⟩
  | op :: ops, w, hi, h => by
    obtain ⟨w1, h1, h2, h3⟩ := step_spec ht hname d hi op (h op (by simp))
    obtain ⟨w2, h4, h5, h6⟩ := runAll_spec ht hname d ops w1 h2 (fun o ho => h o (by simp [ho]))
    exact ⟨w2, by rw [runAll, h1]; exact h4, h5, by rw [h6, h3]; rfl⟩

theorem WInv.init (tab : Table) (d : V) : WInv tab (World.init d) :=
  ⟨fun o => MInv.empty tab o, by simp [World.init], by simp [World.init]⟩

theorem read_spec {tab : Table} {w : World V} (hi : WInv tab w) (o : Nat) (k : Key) :
    atKey o k w = some (match abs w o k with | some x => .ok x | none => .error ()) := by
  unfold atKey
  simp only
  split
  · rename_i hl
    rw [abs_none.mpr (find_last.mp hl).2]
  · rename_i hl
    cases hf : find o (w.maps o) k with
    | last o' => exact absurd (by rw [hf, (find_last.mp hf).1]) hl
    | node a =>
      have hm := (find_node (hi.each o).keys).mp hf
      rw [(abs_some (hi.each o).keys).mpr ⟨a, hm, rfl⟩]
      unfold read
      simp only
      rw [if_pos (List.any_eq_true.mpr ⟨_, hm, by simp⟩)]
      rfl

/-! ### C09 -/

/-- C09. After any history of insert, operator[], erase, clear, copies and moves over any number of objects:
no operation had undefined behaviour, the contents of every object are those of plain maps that went through the same
history (so copies and originals do not influence each other, and a map that was moved from is empty), reading by
string gives these contents, and reading by enum is the same as reading by the string of that enum: the same value,
the same error if it is missing, the same iterator. An enum value without a string is never found. -/
theorem hybridMap_refines_map {tab : Table} (ht : GoodTable tab) {name : Nat → Key} (hname : Names tab name) (d : V)
    (ops : List (Op V)) (hops : ∀ op ∈ ops, Allowed tab op) :
    ∃ w, runAll tab d (World.init d) ops = some w ∧
      (∀ o k, atKey o k w = some (match ops.foldl (plainStep name) (fun _ _ => none) o k with
        | some x => .ok x
        | none => .error ())) ∧
      (∀ o k p, (k, p) ∈ tab → atEnum o p w = atKey o k w ∧
        findEnum o (w.maps o) p = find o (w.maps o) k) ∧
      (∀ o p, (∀ k, (k, p) ∉ tab) → atEnum o p w = some (.error ())) := by
  obtain ⟨w, h1, h2, h3⟩ := runAll_spec ht.ok hname d ops (World.init d) (WInv.init tab d) hops
  have hinit : abs (World.init d : World V) = fun _ _ => none := by funext o k; rfl
  rw [hinit] at h3
  refine ⟨w, h1, ?_, ?_, ?_⟩
  · intro o k; rw [read_spec h2, h3]
  · intro o k p hp
    have := (h2.each o).slot k p hp
    exact ⟨by unfold atEnum atKey; rw [this], this⟩
  · intro o p hp
    unfold atEnum
    rw [(h2.each o).other p (by
      intro hm
      obtain ⟨⟨k, p'⟩, he, rfl⟩ := List.mem_map.mp hm
      exact hp k he)]
    simp

/-- The flag that insert returns: true iff the key was not there. The iterator that it returns is where find finds the
key afterwards. -/
theorem insert_result {tab : Table} (ht : GoodTable tab) {name : Nat → Key} (hname : Names tab name) (d : V)
    (ops : List (Op V)) (hops : ∀ op ∈ ops, Allowed tab op) {w : World V}
    (hw : runAll tab d (World.init d) ops = some w) (o : Nat) (k : Key) (x : V) (hk : Char.ofNat 0 ∉ k) :
    ((insert tab o k x w).2.2 = true ↔ ops.foldl (plainStep name) (fun _ _ => none) o k = none) ∧
    (insert tab o k x w).2.1 = find o ((insert tab o k x w).1.maps o) k := by
  obtain ⟨w', h1, h2, h3⟩ := runAll_spec ht.ok hname d ops (World.init d) (WInv.init tab d) hops
  rw [hw] at h1; cases h1
  have h := insert_spec ht.ok h2 o x hk
  refine ⟨?_, h.2.2.1⟩
  rw [h.2.2.2.2, h3]; rfl

/-- size and empty: the number of keys that the plain map has -/
theorem size_spec {tab : Table} (ht : GoodTable tab) {name : Nat → Key} (hname : Names tab name) (d : V)
    (ops : List (Op V)) (hops : ∀ op ∈ ops, Allowed tab op) {w : World V}
    (hw : runAll tab d (World.init d) ops = some w) (o : Nat) :
    ∃ keys : List Key, keys.Nodup ∧ (∀ k, k ∈ keys ↔ (ops.foldl (plainStep name) (fun _ _ => none) o k).isSome) ∧
      size o w = keys.length ∧ (isEmpty o w = true ↔ keys = []) := by
  obtain ⟨w', h1, h2, h3⟩ := runAll_spec ht.ok hname d ops (World.init d) (WInv.init tab d) hops
  rw [hw] at h1; cases h1
  refine ⟨(w.maps o).m.map (·.key), (h2.each o).keys, ?_, by simp [size], by simp [isEmpty]⟩
  intro k
  have h4 : ops.foldl (plainStep name) (fun _ _ => none) o k = abs w o k := by rw [h3]; rfl
  rw [h4, Option.isSome_iff_ne_none, Ne, abs_none, Decidable.not_not]

theorem subset_of_length {l l' : List Key} (hl : l.Nodup) (hsub : l ⊆ l') (hlen : l.length = l'.length) :
    l' ⊆ l := by
  have hp := List.subperm_of_subset hl hsub
  exact (hp.perm_of_length_le (by omega)).symm.subset

/-- Helper of the proofs: operator== in any world that satisfies the invariant -/
theorem equal_abs [DecidableEq V] {tab : Table} {w : World V} (h2 : WInv tab w) (a b : Nat) :
    equal a b w = true ↔ ∀ k, abs w a k = abs w b k := by
  have hA := (h2.each a).keys
  have hB := (h2.each b).keys
  unfold equal
  simp only [Bool.and_eq_true, decide_eq_true_eq, List.all_eq_true]
  constructor
  · rintro ⟨hlen, hall⟩ k
    have hin : ∀ n ∈ (w.maps a).m, abs w b n.key = some (w.vals n.addr) := by
      intro n hn
      have := hall n hn
      unfold abs
      split at this
      · rename_i n' hn'; rw [hn']; simp only [decide_eq_true_eq] at this; rw [this]; rfl
      · cases this
    have hsub : (w.maps a).m.map (·.key) ⊆ (w.maps b).m.map (·.key) := by
      intro k hk
      obtain ⟨n, hn, rfl⟩ := List.mem_map.mp hk
      have := hin n hn
      apply Decidable.byContradiction
      intro hc
      rw [abs_none.mpr hc] at this; cases this
    have hsub' := subset_of_length hA hsub (by simpa using hlen)
    cases hk : abs w a k with
    | none =>
      have := abs_none.mp hk
      exact (abs_none.mpr fun h => this (hsub' h)).symm
    | some x =>
      obtain ⟨ad, hm, rfl⟩ := (abs_some hA).mp hk
      exact (hin _ hm).symm
  · intro h
    have hmem : ∀ k, k ∈ (w.maps a).m.map (·.key) ↔ k ∈ (w.maps b).m.map (·.key) := by
      intro k
      have ha := abs_none (w := w) (o := a) (k := k)
      have hb := abs_none (w := w) (o := b) (k := k)
      rw [h k] at ha
      exact Decidable.not_iff_not.mp (ha.symm.trans hb)
    refine ⟨?_, ?_⟩
    · have := (List.perm_ext_iff_of_nodup hA hB).mpr hmem
      simpa using this.length_eq
    · intro n hn
      have h5 : abs w a n.key = some (w.vals n.addr) := (abs_some hA).mpr ⟨n.addr, hn, rfl⟩
      rw [h n.key] at h5
      unfold abs at h5
      cases hf : (w.maps b).m.find? (·.key == n.key) with
      | none => rw [hf] at h5; cases h5
      | some n' =>
        rw [hf] at h5
        simp only [Option.map_some, Option.some.injEq] at h5
        simp [h5]

/-- operator== says whether the contents are equal -/
theorem equal_spec [DecidableEq V] {tab : Table} (ht : GoodTable tab) {name : Nat → Key} (hname : Names tab name) (d : V)
    (ops : List (Op V)) (hops : ∀ op ∈ ops, Allowed tab op) {w : World V}
    (hw : runAll tab d (World.init d) ops = some w) (a b : Nat) :
    equal a b w = true ↔ ∀ k, ops.foldl (plainStep name) (fun _ _ => none) a k =
      ops.foldl (plainStep name) (fun _ _ => none) b k := by
  obtain ⟨w', h1, h2, h3⟩ := runAll_spec ht.ok hname d ops (World.init d) (WInv.init tab d) hops
  rw [hw] at h1; cases h1
  have h4 : ops.foldl (plainStep name) (fun _ _ => none) = abs w := by rw [h3]; rfl
  rw [h4]
  exact equal_abs h2 a b

/-! ### The tables of the library -/

/-- Specification: `TabOk` as a computable test. -/
def GoodTableB (tab : Table) : Bool :=
  (List.range tab.length).all (fun i => (List.range tab.length).all fun j =>
    i == j || match tab[i]?, tab[j]? with
      | some e, some e' => e.1 != e'.1 && e.2 != e'.2
      | _, _ => true) && tab.all fun e => !(e.1.contains (Char.ofNat 0))

theorem GoodTableB.good {tab : Table} (h : GoodTableB tab = true) : GoodTable tab := by
  unfold GoodTableB at h
  simp only [Bool.and_eq_true, List.all_eq_true, List.mem_range] at h
  refine ⟨?_, ?_⟩
  · intro i j e e' hi hj hor
    have hil : i < tab.length := (List.getElem?_eq_some_iff.mp hi).1
    have hjl : j < tab.length := (List.getElem?_eq_some_iff.mp hj).1
    have := h.1 i hil j hjl
    rw [hi, hj] at this
    simp only [Bool.or_eq_true, beq_iff_eq, Bool.and_eq_true, bne_iff_ne] at this
    rcases this with this | ⟨h1, h2⟩
    · exact this
    · rcases hor with h' | h'
      · exact absurd h' h1
      · exact absurd h' h2
  · intro e he
    have := h.2 e he
    simpa using this

/-- The tables of AttributeMap and RuleParameterMap satisfy the hypothesis of the theorems. -/
theorem attributeTable_good : GoodTable attributeTable := GoodTableB.good (by decide)
theorem roleTable_good : GoodTable roleTable := GoodTableB.good (by decide)

/-- and there are names for them -/
def attributeName (p : Nat) : Key := (findValue attributeTable p).getD []
/-- Specification: the name for a number of the table of roles. -/
def roleName (p : Nat) : Key := (findValue roleTable p).getD []

theorem attributeName_names : Names attributeTable attributeName := by
  intro k p h; unfold attributeName; rw [(findValue_iff attributeTable_good.ok).mpr h]; rfl
theorem roleName_names : Names roleTable roleName := by
  intro k p h; unfold roleName; rw [(findValue_iff roleTable_good.ok).mpr h]; rfl

/-- A history with all operations: object 1 is a copy of object 0 that is changed afterwards, object 2 was moved. -/
example : ((runAll attributeTable 0 (World.init 0)
    [.insert 0 "type".toList 1, .assignEnum 0 1 2, .assignKey 0 "own".toList 3, .copy 1 0, .assignEnum 1 0 9,
      .erase 1 "subtype".toList, .insertHint 1 "type".toList 5, .move 2 0, .assignEnum 0 5 7]).map
    fun w => ([atEnum 0 0 w, atEnum 0 5 w, atEnum 1 0 w, atEnum 1 1 w, atEnum 2 0 w, atEnum 2 1 w].map
      (Option.bind · fun | .ok x => some x | .error _ => none))) =
    some [none, some 7, some 9, none, some 1, some 2] := by decide

/-- Why keys with NUL are excluded: a key `"type\0x"` takes over the slot of `Type`. After inserting it, the enum finds
its value although no key "type" exists; and if "type" was there, reading by enum and by string disagree. -/
theorem embedded_nul_counterexample :
    ∃ w : World Nat, runAll attributeTable 0 (World.init 0)
        [.insert 0 "type".toList 1, .insert 0 ("type".toList ++ [Char.ofNat 0, 'x']) 2] = some w ∧
      (atEnum 0 0 w).map Except.toOption = some (some 2) ∧
      (atKey 0 "type".toList w).map Except.toOption = some (some 1) := by
  refine ⟨_, rfl, ?_, ?_⟩ <;> decide

end Verif.HMap
