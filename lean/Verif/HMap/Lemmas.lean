import Verif.HMap.Model

/-! Invariant of the hybrid maps and its preservation. -/
namespace Verif.HMap

variable {V : Type}

/-- Specification: a key without character 0. -/
def noNul (k : Key) : Prop := Char.ofNat 0 ∉ k

/-- Specification: a table of names and numbers as the library has them. -/
structure TabOk (tab : Table) : Prop where
  names : (tab.map (·.1)).Nodup
  enums : (tab.map (·.2)).Nodup
  nul : ∀ e ∈ tab, noNul e.1

theorem cstr_of_noNul {k : Key} (h : noNul k) : cstr k = k := by
  unfold cstr
  unfold noNul at h
  induction k with
  | nil => rfl
  | cons c cs ih =>
    simp only [List.mem_cons, not_or] at h
    have hc : (c != Char.ofNat 0) = true := by
      simpa using fun e => h.1 e.symm
    rw [List.takeWhile_cons_of_pos (by simpa using hc), ih h.2]

theorem find?_iff {α β : Type} [BEq β] [LawfulBEq β] (f : α → β) : ∀ (l : List α), (l.map f).Nodup → ∀ b a,
    (l.find? (f · == b) = some a ↔ a ∈ l ∧ f a = b)
  | [], _, b, a => by simp
  | x :: l, h, b, a => by
    simp only [List.map_cons, List.nodup_cons] at h
    rw [List.find?_cons]
    by_cases hx : f x = b
    · simp only [hx, beq_self_eq_true, Option.some.injEq, List.mem_cons]
      constructor
      · rintro rfl; exact ⟨.inl rfl, hx⟩
      · rintro ⟨rfl | ha, hb⟩
        · rfl
        · exact absurd (List.mem_map.mpr ⟨a, ha, hb.trans hx.symm⟩) h.1
    · have : (f x == b) = false := by simpa using hx
      simp only [this, List.mem_cons]
      rw [find?_iff f l h.2 b a]
      constructor
      · rintro ⟨ha, hb⟩; exact ⟨.inr ha, hb⟩
      · rintro ⟨rfl | ha, hb⟩
        · exact absurd hb hx
        · exact ⟨ha, hb⟩

theorem find?_none_iff {α β : Type} [BEq β] [LawfulBEq β] (f : α → β) (l : List α) (b : β) :
    (l.find? (f · == b) = none ↔ b ∉ l.map f) := by
  simp only [List.find?_eq_none, beq_iff_eq, List.mem_map, not_exists, not_and]

theorem find?_congr' {α : Type} {p q : α → Bool} : ∀ {l : List α}, (∀ x ∈ l, p x = q x) → l.find? p = l.find? q
  | [], _ => rfl
  | x :: l, h => by
    rw [List.find?_cons, List.find?_cons, h x (by simp), find?_congr' fun y hy => h y (by simp [hy])]

theorem findKeyPos_iff {tab : Table} (ht : TabOk tab) {k : Key} (hk : noNul k) {p : Nat} :
    findKeyPos tab k = some p ↔ (k, p) ∈ tab := by
  have heq : tab.find? (cstr ·.1 == cstr k) = tab.find? (fun e => e.1 == k) := by
    rw [cstr_of_noNul hk]
    exact find?_congr' fun e he => by rw [cstr_of_noNul (ht.nul e he)]
  unfold findKeyPos
  rw [heq, Option.map_eq_some_iff]
  constructor
  · rintro ⟨e, he, rfl⟩
    have := (find?_iff (fun e : Key × Nat => e.1) tab ht.names k e).mp he
    rw [← this.2]; exact this.1
  · intro h
    exact ⟨(k, p), (find?_iff (fun e : Key × Nat => e.1) tab ht.names k _).mpr ⟨h, rfl⟩, rfl⟩

theorem findValue_iff {tab : Table} (ht : TabOk tab) {k : Key} {p : Nat} :
    findValue tab p = some k ↔ (k, p) ∈ tab := by
  unfold findValue
  rw [Option.map_eq_some_iff]
  constructor
  · rintro ⟨e, he, rfl⟩
    have := (find?_iff (fun e : Key × Nat => e.2) tab ht.enums p e).mp he
    rw [← this.2]; exact this.1
  · intro h
    exact ⟨(k, p), (find?_iff (fun e : Key × Nat => e.2) tab ht.enums p _).mpr ⟨h, rfl⟩, rfl⟩

theorem tab_key_unique {tab : Table} (ht : TabOk tab) {k k' : Key} {p : Nat} (h : (k, p) ∈ tab) (h' : (k', p) ∈ tab) :
    k = k' := by
  have a := (findValue_iff ht).mpr h
  have b := (findValue_iff ht).mpr h'
  rw [a] at b; exact Option.some.inj b

theorem findEnum_eq (o : Nat) (h : HM) (p : Nat) : findEnum o h p = h.v.getD p (.last o) := by
  unfold findEnum
  split
  · rename_i hl
    rw [List.getD_eq_getElem?_getD, List.getElem?_eq_none (by omega)]; rfl
  · rfl

theorem getD_updateV (tab : Table) (o : Nat) (v : List It) (n : Node) (p : Nat) :
    (updateV tab o v n).getD p (.last o) =
      if findKeyPos tab n.key = some p then .node n.addr else v.getD p (.last o) := by
  unfold updateV
  split
  · rename_i h; simp [h]
  · rename_i q h
    rw [h]
    simp only [Option.some.injEq]
    split
    · rename_i hl
      by_cases hq : q = p
      · subst hq
        rw [if_pos rfl, List.getD_eq_getElem?_getD, List.getElem?_set_self (by simp; omega)]; rfl
      · rw [if_neg hq, List.getD_eq_getElem?_getD, List.getElem?_set_ne hq, List.getElem?_append,
          List.getD_eq_getElem?_getD]
        split
        · rfl
        · rename_i hp
          rw [List.getElem?_replicate]
          have hnone : v[p]? = none := List.getElem?_eq_none (by omega)
          rw [hnone]
          split <;> rfl
    · rename_i hl
      by_cases hq : q = p
      · subst hq
        rw [if_pos rfl, List.getD_eq_getElem?_getD, List.getElem?_set_self (by omega)]; rfl
      · rw [if_neg hq, List.getD_eq_getElem?_getD, List.getElem?_set_ne hq, List.getD_eq_getElem?_getD]

/-- Invariant of one object. -/
structure MInv (tab : Table) (o : Nat) (h : HM) : Prop where
  keys : (h.m.map (·.key)).Nodup
  addrs : (h.m.map (·.addr)).Nodup
  nul : ∀ n ∈ h.m, noNul n.key
  slot : ∀ k p, (k, p) ∈ tab → findEnum o h p = find o h k
  other : ∀ p, p ∉ tab.map (·.2) → findEnum o h p = .last o

/-- Helper of the proofs: invariant of the objects. -/
structure WInv (tab : Table) (w : World V) : Prop where
  each : ∀ o, MInv tab o (w.maps o)
  fresh : ∀ o, ∀ n ∈ (w.maps o).m, n.addr < w.next
  apart : ∀ o o', o ≠ o' → ∀ n ∈ (w.maps o).m, ∀ n' ∈ (w.maps o').m, n.addr ≠ n'.addr

/-- the contents of an object as a plain map -/
def abs (w : World V) (o : Nat) (k : Key) : Option V :=
  ((w.maps o).m.find? (·.key == k)).map fun n => w.vals n.addr

theorem find_node {h : HM} (hk : (h.m.map (·.key)).Nodup) {o : Nat} {k : Key} {a : Nat} :
    find o h k = .node a ↔ (⟨a, k⟩ : Node) ∈ h.m := by
  unfold find
  split
  · rename_i n hn
    have hn' := (find?_iff (fun n : Node => n.key) h.m hk k n).mp hn
    constructor
    · intro e; cases e; rw [← hn'.2]; exact hn'.1
    · intro hm
      have := (find?_iff (fun n : Node => n.key) h.m hk k _).mpr ⟨hm, rfl⟩
      rw [this] at hn; cases hn; rfl
  · rename_i hn
    constructor
    · intro e; cases e
    · intro hm
      have := (find?_iff (fun n : Node => n.key) h.m hk k _).mpr ⟨hm, rfl⟩
      rw [this] at hn; cases hn

theorem find_last {h : HM} {o o' : Nat} {k : Key} :
    find o h k = .last o' ↔ o = o' ∧ k ∉ h.m.map (·.key) := by
  unfold find
  split
  · rename_i n hn
    constructor
    · intro e; cases e
    · rintro ⟨_, hm⟩
      have := (find?_none_iff (fun n : Node => n.key) h.m k).mpr hm
      rw [this] at hn; cases hn
  · rename_i hn
    have := (find?_none_iff (fun n : Node => n.key) h.m k).mp hn
    constructor
    · intro e; cases e; exact ⟨rfl, this⟩
    · rintro ⟨rfl, _⟩; rfl

/-- in an object that satisfies the invariant, every iterator in `v` is the end or one of its nodes -/
theorem MInv.slot_cases {tab : Table} {o : Nat} {h : HM} (hi : MInv tab o h) (p : Nat) :
    findEnum o h p = .last o ∨ ∃ n ∈ h.m, findEnum o h p = .node n.addr ∧ (n.key, p) ∈ tab := by
  by_cases hp : p ∈ tab.map (·.2)
  · obtain ⟨⟨k, p'⟩, he, rfl⟩ := List.mem_map.mp hp
    have hs := hi.slot k p' he
    cases hf : find o h k with
    | last o' =>
      left
      have := (find_last.mp hf).1
      show findEnum o h p' = _
      rw [hs, hf, this]
    | node a =>
      right
      have hm := (find_node hi.keys).mp hf
      exact ⟨⟨a, k⟩, hm, by show findEnum o h p' = _; rw [hs, hf], he⟩
  · exact .inl (hi.other p hp)

theorem find_append_new {o : Nat} {h : HM} {k : Key} {a : Nat} (v : List It) (hk : k ∉ h.m.map (·.key)) (k' : Key) :
    find o ⟨h.m ++ [⟨a, k⟩], v⟩ k' = if k' = k then .node a else find o h k' := by
  unfold find
  simp only [List.find?_append]
  by_cases e : k' = k
  · subst e
    have := (find?_none_iff (fun n : Node => n.key) h.m k').mpr hk
    rw [this]; simp
  · have : (k == k') = false := by simpa using fun x => e x.symm
    simp [this, e]

/-- inserting a new node keeps the invariant of the object -/
theorem MInv.append {tab : Table} (ht : TabOk tab) {o : Nat} {h : HM} (hi : MInv tab o h) {k : Key} {a : Nat}
    (hn : noNul k) (hk : k ∉ h.m.map (·.key)) (ha : a ∉ h.m.map (·.addr)) :
    MInv tab o ⟨h.m ++ [⟨a, k⟩], updateV tab o h.v ⟨a, k⟩⟩ := by
  constructor
  · simp only [List.map_append, List.map_cons, List.map_nil]
    exact List.nodup_append.mpr ⟨hi.keys, by simp, by
      intro x hx y hy e; simp only [List.mem_singleton] at hy; subst hy; subst e; exact hk hx⟩
  · simp only [List.map_append, List.map_cons, List.map_nil]
    exact List.nodup_append.mpr ⟨hi.addrs, by simp, by
      intro x hx y hy e; simp only [List.mem_singleton] at hy; subst hy; subst e; exact ha hx⟩
  · intro n hm
    simp only [List.mem_append, List.mem_singleton] at hm
    rcases hm with hm | rfl
    · exact hi.nul n hm
    · exact hn
  · intro k' p hp
    rw [findEnum_eq, find_append_new _ hk, getD_updateV]
    by_cases e : k' = k
    · subst e; rw [if_pos ((findKeyPos_iff ht hn).mpr hp), if_pos rfl]
    · rw [if_neg (fun h' => e (tab_key_unique ht hp ((findKeyPos_iff ht hn).mp h'))), if_neg e, ← findEnum_eq, hi.slot k' p hp]
  · intro p hp
    rw [findEnum_eq, getD_updateV, if_neg, ← findEnum_eq, hi.other p hp]
    intro hm
    replace hm := (findKeyPos_iff ht hn).mp hm
    exact hp (List.mem_map.mpr ⟨_, hm, rfl⟩)

/-- updateV for a node that is already there changes nothing that can be observed -/
theorem MInv.refresh {tab : Table} (ht : TabOk tab) {o : Nat} {h : HM} (hi : MInv tab o h) {n : Node}
    (hn : n ∈ h.m) : MInv tab o ⟨h.m, updateV tab o h.v n⟩ := by
  have key : ∀ p, findEnum o ⟨h.m, updateV tab o h.v n⟩ p = findEnum o h p := by
    intro p
    rw [findEnum_eq, getD_updateV]
    split
    · rename_i hm
      replace hm := (findKeyPos_iff ht (hi.nul n hn)).mp hm
      rw [hi.slot _ _ hm]
      exact ((find_node hi.keys).mpr hn).symm
    · rw [findEnum_eq]
  exact ⟨hi.keys, hi.addrs, hi.nul, fun k p hp => by rw [key, hi.slot k p hp]; rfl, fun p hp => by
    rw [key, hi.other p hp]⟩

theorem MInv.empty (tab : Table) (o : Nat) : MInv tab o ⟨[], []⟩ :=
  ⟨by simp, by simp, by simp, fun _ _ _ => by simp [findEnum, find], fun _ _ => by simp [findEnum]⟩

theorem find_filter {o : Nat} {h : HM} {a : Nat} (hk : (h.m.map (·.key)).Nodup) (ha : (h.m.map (·.addr)).Nodup)
    {n : Node} (hn : n ∈ h.m) (hna : n.addr = a) (v : List It) (k : Key) :
    find o ⟨h.m.filter (·.addr != a), v⟩ k = if k = n.key then .last o else find o h k := by
  have hk' : (((h.m.filter (·.addr != a))).map (·.key)).Nodup := hk.sublist (List.filter_sublist.map _)
  have inj : ∀ x ∈ h.m, x.addr = a → x = n := by
    intro x hx hxa
    have h1 := (find?_iff (fun n : Node => n.addr) h.m ha a x).mpr ⟨hx, hxa⟩
    have h2 := (find?_iff (fun n : Node => n.addr) h.m ha a n).mpr ⟨hn, hna⟩
    rw [h1] at h2; exact Option.some.inj h2
  have injk : ∀ x ∈ h.m, x.key = n.key → x = n := by
    intro x hx hxa
    have h1 := (find?_iff (fun n : Node => n.key) h.m hk n.key x).mpr ⟨hx, hxa⟩
    have h2 := (find?_iff (fun n : Node => n.key) h.m hk n.key n).mpr ⟨hn, rfl⟩
    rw [h1] at h2; exact Option.some.inj h2
  by_cases e : k = n.key
  · rw [if_pos e, find_last]
    refine ⟨rfl, ?_⟩
    intro hm
    obtain ⟨x, hx, hxk⟩ := List.mem_map.mp hm
    have hx' := List.mem_filter.mp hx
    have := injk x hx'.1 (hxk.trans e)
    rw [this, hna] at hx'
    simp at hx'
  · rw [if_neg e]
    cases hf : find o h k with
    | last o' =>
      have := find_last.mp hf
      rw [find_last]
      refine ⟨this.1, fun hm => this.2 ?_⟩
      obtain ⟨x, hx, hxk⟩ := List.mem_map.mp hm
      exact List.mem_map.mpr ⟨x, (List.mem_filter.mp hx).1, hxk⟩
    | node b =>
      have hm := (find_node hk).mp hf
      rw [find_node hk']
      refine List.mem_filter.mpr ⟨hm, ?_⟩
      have : b ≠ a := by
        intro hb
        have := inj _ hm hb
        exact e (by rw [← this])
      simpa using this

/-- erasing a node keeps the invariant of the object -/
theorem MInv.erase {tab : Table} {o : Nat} {h : HM} (ht : TabOk tab) (hi : MInv tab o h) {n : Node} (hn : n ∈ h.m) :
    MInv tab o ⟨h.m.filter (·.addr != n.addr),
      if h.v.idxOf (.node n.addr) < h.v.length then h.v.set (h.v.idxOf (.node n.addr)) (.last o) else h.v⟩ := by
  have key : ∀ p, (if h.v.idxOf (.node n.addr) < h.v.length then h.v.set (h.v.idxOf (.node n.addr)) (.last o)
      else h.v).getD p (.last o) = if (n.key, p) ∈ tab then .last o else findEnum o h p := by
    intro p
    have inj : ∀ x ∈ h.m, x.addr = n.addr → x = n := by
      intro x hx hxa
      have h1 := (find?_iff (fun n : Node => n.addr) h.m hi.addrs n.addr x).mpr ⟨hx, hxa⟩
      have h2 := (find?_iff (fun n : Node => n.addr) h.m hi.addrs n.addr n).mpr ⟨hn, rfl⟩
      rw [h1] at h2; exact Option.some.inj h2
    have hslot : ∀ q, findEnum o h q = .node n.addr → (n.key, q) ∈ tab := by
      intro q hq
      rcases hi.slot_cases q with hl | ⟨x, hx, hxe, hxt⟩
      · rw [hl] at hq; cases hq
      · rw [hxe] at hq
        have : x.addr = n.addr := by injection hq
        rw [inj x hx this] at hxt; exact hxt
    have huniq : ∀ q q', (n.key, q) ∈ tab → (n.key, q') ∈ tab → q = q' := by
      intro q q' h1 h2
      have a := (findKeyPos_iff ht (hi.nul n hn)).mpr h1
      have b := (findKeyPos_iff ht (hi.nul n hn)).mpr h2
      rw [a] at b; exact Option.some.inj b
    split
    · rename_i hlt
      have hat : h.v[h.v.idxOf (.node n.addr)] = .node n.addr := List.getElem_idxOf hlt
      have hat' : findEnum o h (h.v.idxOf (.node n.addr)) = .node n.addr := by
        rw [findEnum_eq, List.getD_eq_getElem?_getD, List.getElem?_eq_getElem hlt, hat]; rfl
      have hit := hslot _ hat'
      by_cases e : (n.key, p) ∈ tab
      · rw [if_pos e, huniq _ _ e hit, List.getD_eq_getElem?_getD, List.getElem?_set_self hlt]; rfl
      · rw [if_neg e, List.getD_eq_getElem?_getD, List.getElem?_set_ne, findEnum_eq, List.getD_eq_getElem?_getD]
        intro e'; rw [e'] at hit; exact e hit
    · rename_i hge
      split
      · rename_i hm
        exfalso
        have h1 := hi.slot _ _ hm
        rw [(find_node hi.keys).mpr hn, findEnum_eq, List.getD_eq_getElem?_getD] at h1
        cases hv : h.v[p]? with
        | none => rw [hv] at h1; cases h1
        | some x =>
          rw [hv] at h1
          simp only [Option.getD_some] at h1
          have : (It.node n.addr) ∈ h.v := by rw [← h1]; exact List.mem_of_getElem? hv
          exact hge (List.idxOf_lt_length_of_mem this)
      · rw [findEnum_eq]
  constructor
  · exact hi.keys.sublist (List.filter_sublist.map _)
  · exact hi.addrs.sublist (List.filter_sublist.map _)
  · intro x hx; exact hi.nul x (List.mem_filter.mp hx).1
  · intro k p hp
    rw [findEnum_eq, key, find_filter hi.keys hi.addrs hn rfl]
    by_cases e : k = n.key
    · subst e; rw [if_pos hp, if_pos rfl]
    · rw [if_neg e, if_neg (fun h' => e (tab_key_unique ht hp h')), hi.slot k p hp]
  · intro p hp
    rw [findEnum_eq, key, if_neg, hi.other p hp]
    intro hm; exact hp (List.mem_map.mpr ⟨_, hm, rfl⟩)

theorem mapAll_spec (f : It → Option It) : ∀ l, (∀ x ∈ l, (f x).isSome) →
    ∃ r, mapAll f l = some r ∧ r.length = l.length ∧ ∀ (p : Nat) (x : It), l[p]? = some x → r[p]? = f x
  | [], _ => ⟨[], rfl, rfl, by simp⟩
  | x :: l, h => by
    obtain ⟨r, hr, hl, hp⟩ := mapAll_spec f l (fun y hy => h y (by simp [hy]))
    obtain ⟨y, hy⟩ := Option.isSome_iff_exists.mp (h x (by simp))
    refine ⟨y :: r, by rw [mapAll, hy, hr], by simp [hl], ?_⟩
    intro p z hz
    cases p with
    | zero => simp at hz; subst hz; simp [hy]
    | succ p => simp at hz ⊢; exact hp p z hz

/-- copying the iterators of an object into a map with the same keys -/
theorem MInv.copyV {tab : Table} {src dst : Nat} {h : HM} (hi : MInv tab src h) {new : List Node}
    (hkeys : new.map (·.key) = h.m.map (·.key)) (hnew : (new.map (·.addr)).Nodup) :
    ∃ v, mapAll (copyIt src dst h.m new) h.v = some v ∧ MInv tab dst ⟨new, v⟩ := by
  have hval : ∀ p x, h.v[p]? = some x →
      copyIt src dst h.m new x = some (match findEnum src h p with
        | .last _ => .last dst
        | .node a => match h.m.find? (·.addr == a) with
          | some n => find dst ⟨new, []⟩ n.key
          | none => .last dst) := by
    intro p x hx
    have hxe : findEnum src h p = x := by
      rw [findEnum_eq, List.getD_eq_getElem?_getD, hx]; rfl
    rw [hxe]
    rcases hi.slot_cases p with hl | ⟨n, hn, hne, -⟩
    · rw [hxe] at hl; subst hl; simp [copyIt]
    · rw [hxe] at hne; subst hne
      have := (find?_iff (fun n : Node => n.addr) h.m hi.addrs n.addr n).mpr ⟨hn, rfl⟩
      simp [copyIt, this]
  obtain ⟨v, hv, hlen, hvp⟩ := mapAll_spec (copyIt src dst h.m new) h.v (by
    intro x hx
    obtain ⟨p, hp⟩ := List.getElem?_of_mem hx
    rw [hval p x hp]; rfl)
  have hslot : ∀ p, findEnum dst ⟨new, v⟩ p = match findEnum src h p with
        | .last _ => .last dst
        | .node a => match h.m.find? (·.addr == a) with
          | some n => find dst ⟨new, []⟩ n.key
          | none => .last dst := by
    intro p
    cases hp : h.v[p]? with
    | none =>
      have h1 : findEnum src h p = .last src := by rw [findEnum_eq, List.getD_eq_getElem?_getD, hp]; rfl
      have h2 : v[p]? = none := by
        rw [List.getElem?_eq_none_iff] at hp ⊢; omega
      rw [h1, findEnum_eq, List.getD_eq_getElem?_getD, h2]; rfl
    | some x =>
      rw [findEnum_eq, List.getD_eq_getElem?_getD, hvp p x hp, hval p x hp]; rfl
  refine ⟨v, hv, ⟨by rw [hkeys]; exact hi.keys, hnew, ?_, ?_, ?_⟩⟩
  · intro n hn
    have : n.key ∈ h.m.map (·.key) := by rw [← hkeys]; exact List.mem_map.mpr ⟨n, hn, rfl⟩
    obtain ⟨n', hn', e⟩ := List.mem_map.mp this
    have e' : n'.key = n.key := e
    rw [← e']; exact hi.nul n' hn'
  · intro k p hp
    rw [hslot, hi.slot k p hp]
    cases hf : find src h k with
    | last o' =>
      have := (find_last.mp hf).2
      exact (find_last.mpr ⟨rfl, by rw [hkeys]; exact this⟩).symm
    | node a =>
      have hm := (find_node hi.keys).mp hf
      have := (find?_iff (fun n : Node => n.addr) h.m hi.addrs a _).mpr ⟨hm, rfl⟩
      dsimp only
      rw [this]
      rfl
  · intro p hp
    rw [hslot, hi.other p hp]

theorem copyNodes_spec : ∀ (ns : List Node) (nx : Nat) (vals : Nat → V), (∀ n ∈ ns, n.addr < nx) →
    (copyNodes ns nx vals).1.map (·.key) = ns.map (·.key) ∧
    ((copyNodes ns nx vals).1.map (·.addr)).Nodup ∧
    nx ≤ (copyNodes ns nx vals).2.1 ∧
    (∀ n ∈ (copyNodes ns nx vals).1, nx ≤ n.addr ∧ n.addr < (copyNodes ns nx vals).2.1) ∧
    (∀ a, a < nx → (copyNodes ns nx vals).2.2 a = vals a) ∧
    (∀ k, (((copyNodes ns nx vals).1.find? (·.key == k)).map fun n => (copyNodes ns nx vals).2.2 n.addr) =
      (ns.find? (·.key == k)).map fun n => vals n.addr)
  | [], nx, vals, _ => by simp [copyNodes]
  | n :: ns, nx, vals, h => by
    have hn : n.addr < nx := h n (by simp)
    obtain ⟨h1, h2, h3, h4, h5, h6⟩ := copyNodes_spec ns (nx + 1) (upd vals nx (vals n.addr)) (by
      intro x hx; have := h x (by simp [hx]); omega)
    have hupd : ∀ a, a < nx → upd vals nx (vals n.addr) a = vals a := by
      intro a ha; unfold upd; rw [if_neg (by omega)]
    refine ⟨by simp [copyNodes, h1], ?_, by simp only [copyNodes]; omega, ?_, ?_, ?_⟩
    · simp only [copyNodes, List.map_cons, List.nodup_cons]
      refine ⟨?_, h2⟩
      intro hm
      obtain ⟨x, hx, e⟩ := List.mem_map.mp hm
      have := (h4 x hx).1
      have e' : x.addr = nx := e
      omega
    · intro x hx
      simp only [copyNodes, List.mem_cons] at hx ⊢
      rcases hx with rfl | hx
      · exact ⟨Nat.le_refl _, by show nx < _; omega⟩
      · have := h4 x hx; exact ⟨by omega, this.2⟩
    · intro a ha
      simp only [copyNodes]
      rw [h5 a (by omega), hupd a ha]
    · intro k
      simp only [copyNodes, List.find?_cons]
      cases hk : n.key == k with
      | true =>
        show some ((copyNodes ns (nx + 1) (upd vals nx (vals n.addr))).2.2 nx) = some (vals n.addr)
        rw [h5 nx (by omega)]
        simp [upd]
      | false =>
        simp only
        rw [h6 k]
        cases hf : ns.find? (·.key == k) with
        | none => rfl
        | some x =>
          have := h x (by simp [List.mem_of_find?_eq_some hf])
          simp [hupd _ this]

/-- moving: the node iterators stay, the end iterators are replaced -/
theorem MInv.moved {tab : Table} {src dst : Nat} {h : HM} (hi : MInv tab src h) :
    MInv tab dst ⟨h.m, h.v.map fun it => if it = .last src then .last dst else it⟩ := by
  have hslot : ∀ p, findEnum dst ⟨h.m, h.v.map fun it => if it = .last src then .last dst else it⟩ p =
      if findEnum src h p = .last src then .last dst else findEnum src h p := by
    intro p
    rw [findEnum_eq, findEnum_eq, List.getD_eq_getElem?_getD, List.getD_eq_getElem?_getD, List.getElem?_map]
    cases h.v[p]? <;> simp
  refine ⟨hi.keys, hi.addrs, hi.nul, ?_, ?_⟩
  · intro k p hp
    rw [hslot, hi.slot k p hp]
    cases hf : find src h k with
    | last o' =>
      have := find_last.mp hf
      rw [if_pos (by rw [this.1])]
      exact (find_last.mpr ⟨rfl, this.2⟩).symm
    | node a =>
      rw [if_neg (by intro e; cases e)]
      exact ((find_node (h := ⟨h.m, _⟩) hi.keys).mpr ((find_node hi.keys).mp hf)).symm
  · intro p hp
    rw [hslot, hi.other p hp, if_pos rfl]

end Verif.HMap
