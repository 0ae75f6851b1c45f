import Verif.Bin.Lemmas
import Mathlib.Data.List.Nodup

/-!
Steps of the loader on its objects.
-/
namespace Verif.Bin

section
variable {H : List Obj} {V : Addr → Prop} {φ : Addr → Addr} {s : SaveSt} {prog : Addr → Stage} {ℓ : LoadSt}

/-! ### pointers -/

theorem track_known {a : Addr} (h : a ∈ s.table) : track a s = pure (false, { s with out := s.out ++ [.oid (s.table.idxOf a)] }) := by
  unfold track
  rw [run_bind (show (get : S SaveSt) s = pure (s, s) from rfl), if_pos h]
  rfl

theorem track_new {a : Addr} (h : a ∉ s.table) :
    track a s = pure (true, { s with out := s.out ++ [.oid s.table.length], table := s.table ++ [a] }) := by
  unfold track
  rw [run_bind (show (get : S SaveSt) s = pure (s, s) from rfl), if_neg h]
  rfl

theorem enter_known {n : Nat} {rest : List Tok} (h : ℓ.inp = .oid n :: rest) (hn : n < ℓ.objs.length) :
    enter ℓ = pure ((n, false), { ℓ with inp := rest }) := by
  unfold enter
  rw [run_bind (next_run h)]
  simp only
  rw [run_bind (show (get : L LoadSt) { ℓ with inp := rest } = pure ({ ℓ with inp := rest }, { ℓ with inp := rest }) from rfl)]
  simp only
  rw [if_pos hn]
  rfl

theorem enter_new {n : Nat} {rest : List Tok} (h : ℓ.inp = .oid n :: rest) (hn : ¬ n < ℓ.objs.length) :
    enter ℓ = pure ((ℓ.objs.length, true), { ℓ with inp := rest, objs := ℓ.objs ++ [none] }) := by
  unfold enter
  rw [run_bind (next_run h)]
  simp only
  rw [run_bind (show (get : L LoadSt) { ℓ with inp := rest } = pure ({ ℓ with inp := rest }, { ℓ with inp := rest }) from rfl)]
  simp only
  rw [if_neg hn]
  rfl

theorem Compat.idx (h : Compat φ s.table) {a : Addr} (ha : a ∈ s.table) : φ a = s.table.idxOf a ∧ φ a < s.table.length := by
  have h1 : s.table.idxOf a < s.table.length := List.idxOf_lt_length_of_mem ha
  have h2 : φ a = s.table.idxOf a := h _ a (by rw [List.getElem?_eq_getElem h1, List.getElem_idxOf])
  exact ⟨h2, h2 ▸ h1⟩

theorem idx_unique {t : List Addr} (h : t.Nodup) {i j : Nat} {a : Addr} (h1 : t[i]? = some a) (h2 : t[j]? = some a) : i = j := by
  obtain ⟨k1, e1⟩ := List.getElem?_eq_some_iff.mp h1
  obtain ⟨k2, e2⟩ := List.getElem?_eq_some_iff.mp h2
  exact (h.getElem_inj_iff).mp (e1.trans e2.symm)

/-- memory for a new object -/
theorem Inv.push (hi : Inv H φ s prog ℓ) {a : Addr} (ha : a ∉ s.table) {o : Obj} (ho : H[a]? = some o) (out inp : List Tok) (ids : List Int)
    (hids : ∀ id ∈ s.ids, id ∈ ids) (hre : ∀ d, o = .re d → d.id ∉ s.ids) :
    Inv H φ { out := out, table := s.table ++ [a], ids := ids } (Function.update prog a .alloc)
      { ℓ with inp := inp, objs := ℓ.objs ++ [none], entered := ids } where
  len := by simp [hi.len]
  ent := rfl
  fresh := by
    intro b hb
    simp only [List.mem_append, List.mem_singleton, not_or] at hb
    rw [Function.update_of_ne hb.2]
    exact hi.fresh b hb.1
  unseen := fun id hid => hi.unseen id fun h => hid (hids id h)
  res := by
    intro r d hr hd
    rcases List.mem_append.mp hr with hr | hr
    · have : r ≠ a := fun h => ha (h ▸ hr)
      rw [Function.update_of_ne this]
      exact hi.res r d hr hd
    · simp only [List.mem_singleton] at hr
      subst hr
      rw [Function.update_self, if_neg (by simp)]
      rw [ho] at hd
      exact (hi.unseen _ (hre d (by simpa using hd))).1
  obj := by
    intro i b o' hib hb hp
    by_cases hba : b = a
    · subst hba
      exact absurd (Function.update_self ..) hp
    · have hil : i < s.table.length := by
        by_contra hc
        rw [List.getElem?_append_right (by omega)] at hib
        have hm := List.mem_of_getElem? hib
        simp only [List.mem_singleton] at hm
        exact hba hm
      simp only at hib
      rw [List.getElem?_append_left hil] at hib
      rw [Function.update_of_ne hba] at hp ⊢
      obtain ⟨l, k1, k2, k3⟩ := hi.obj i b o' hib hb hp
      refine ⟨l, ?_, k2, ?_⟩
      · simp only
        rw [List.getElem?_append_left (by rw [hi.len]; exact hil)]
        exact k1
      · intro j r d hj hd hh
        obtain ⟨m1, m2, m3⟩ := k3 j r d hj hd hh
        have hra : r ≠ a := fun h => ha (h ▸ m1)
        rw [Function.update_of_ne hra]
        exact ⟨by simp [m1], m2, m3⟩
  wait := by
    intro r d σ hr hd hp hσ
    rcases List.mem_append.mp hr with hr | hr
    · have : r ≠ a := fun h => ha (h ▸ hr)
      rw [Function.update_of_ne this] at hp
      obtain ⟨i, j, b, o', h1, h2, h3, h4⟩ := hi.wait r d σ hr hd hp hσ
      refine ⟨i, j, b, o', h1, ?_, h3, h4⟩
      simp only
      rw [List.getElem?_append_left (List.getElem?_eq_some_iff.mp h2).1]
      exact h2
    · simp only [List.mem_singleton] at hr
      subst hr
      rw [ho] at hd
      have := (hi.unseen _ (hre d (by simpa using hd))).2
      simp only at hσ
      rw [this] at hσ
      cases hσ

/-- an object that is not a regulatory element is constructed -/
theorem Inv.construct (hi : Inv H φ s prog ℓ) (hn : s.table.Nodup) {i : Nat} {a : Addr} (hia : s.table[i]? = some a) {o : Obj} (ho : H[a]? = some o)
    (hre : ∀ d, o ≠ .re d) {st : Stage} (hh : ∀ j < o.regs.length, ¬ st.handled j) (l : List (Option Addr)) (hl : l.length = o.regs.length) :
    Inv H φ s (Function.update prog a st) { ℓ with objs := ℓ.objs.set i (some ((st.view (o.rename φ)).setRegs l)) } where
  len := by simp [hi.len]
  ent := hi.ent
  fresh := by
    intro b hb
    have : b ≠ a := fun h => hb (h ▸ List.mem_of_getElem? hia)
    rw [Function.update_of_ne this]
    exact hi.fresh b hb
  unseen := hi.unseen
  res := by
    intro r d hr hd
    have : r ≠ a := by
      rintro rfl
      rw [ho] at hd
      exact hre d (by simpa using hd)
    rw [Function.update_of_ne this]
    exact hi.res r d hr hd
  obj := by
    intro k b o' hkb hb hp
    have hne : ∀ r d, H[r]? = some (.re d) → r ≠ a := by
      rintro r d hd rfl
      rw [ho] at hd
      exact hre d (by simpa using hd)
    by_cases hba : b = a
    · subst hba
      have := idx_unique hn hkb hia
      subst this
      rw [ho] at hb
      cases hb
      rw [Function.update_self]
      refine ⟨l, ?_, hl, ?_⟩
      · simp only
        rw [List.getElem?_set_self (by rw [hi.len]; exact (List.getElem?_eq_some_iff.mp hia).1)]
      · intro j r d hj _ hhj
        exact absurd hhj (hh j (List.getElem?_eq_some_iff.mp hj).1)
    · rw [Function.update_of_ne hba] at hp ⊢
      obtain ⟨l', k1, k2, k3⟩ := hi.obj k b o' hkb hb hp
      have hki : i ≠ k := by
        rintro rfl
        rw [hia] at hkb
        exact hba (by simpa using hkb.symm)
      refine ⟨l', ?_, k2, ?_⟩
      · simp only
        rw [List.getElem?_set_ne hki]
        exact k1
      · intro j r d hj hd hhj
        rw [Function.update_of_ne (hne r d hd)]
        exact k3 j r d hj hd hhj
  wait := by
    intro r d σ hr hd hp hσ
    have : r ≠ a := by
      rintro rfl
      rw [ho] at hd
      exact hre d (by simpa using hd)
    rw [Function.update_of_ne this] at hp
    exact hi.wait r d σ hr hd hp hσ

/-! ### pointers to regulatory elements -/

theorem setReg_setRegs (o : Obj) (l : List (Option Addr)) (j : Nat) (v : Addr) : (o.setRegs l).setReg j v = o.setRegs (l.set j (some v)) := by
  cases o <;> rfl

theorem setSlot_same (ℓ : LoadSt) (σ : Slot) (v : Addr) : (ℓ.setSlot σ v).objs.length = ℓ.objs.length ∧ (ℓ.setSlot σ v).inp = ℓ.inp ∧
    (ℓ.setSlot σ v).entered = ℓ.entered ∧ (ℓ.setSlot σ v).done = ℓ.done ∧ (ℓ.setSlot σ v).waiting = ℓ.waiting := by
  unfold LoadSt.setSlot
  cases σ with
  | none => simp
  | some x => simp

theorem setSlot_obj {ℓ : LoadSt} {k : Nat} {o : Obj} {l : List (Option Addr)} (h : ℓ.objs[k]? = some (some (o.setRegs l))) (σ : Slot) (v : Addr) :
    ∃ l', (ℓ.setSlot σ v).objs[k]? = some (some (o.setRegs l')) ∧ l'.length = l.length ∧
      ∀ j, (σ = some (k, j) → j < l.length → l'[j]? = some (some v)) ∧ (σ ≠ some (k, j) → l'[j]? = l[j]?) := by
  unfold LoadSt.setSlot
  cases σ with
  | none => exact ⟨l, h, rfl, fun j => ⟨by simp, fun _ => rfl⟩⟩
  | some x =>
    obtain ⟨a, j0⟩ := x
    simp only
    by_cases hak : a = k
    · subst hak
      refine ⟨l.set j0 (some v), ?_, by simp, ?_⟩
      · rw [List.getElem?_modify_eq, h]
        simp [setReg_setRegs]
      · intro j
        constructor
        · intro hj hlt
          simp only [Option.some.injEq, Prod.mk.injEq, true_and] at hj
          subst hj
          rw [List.getElem?_set_self hlt]
        · intro hj
          have : j0 ≠ j := by rintro rfl; exact hj rfl
          rw [List.getElem?_set_ne this]
    · refine ⟨l, ?_, rfl, fun j => ⟨?_, fun _ => rfl⟩⟩
      · rw [List.getElem?_modify, h]
        simp [hak]
      · intro hj
        simp only [Option.some.injEq, Prod.mk.injEq] at hj
        exact absurd hj.1 hak

theorem setSlot_comm (ℓ : LoadSt) (σ σ' : Slot) (v : Addr) : (ℓ.setSlot σ v).setSlot σ' v = (ℓ.setSlot σ' v).setSlot σ v := by
  cases σ with
  | none => cases σ' <;> rfl
  | some x =>
    cases σ' with
    | none => rfl
    | some y =>
      unfold LoadSt.setSlot
      simp only [LoadSt.mk.injEq, and_true, true_and]
      apply List.ext_getElem?
      intro k
      simp only [List.getElem?_modify]
      cases ℓ.objs[k]? with
      | none => rfl
      | some ob =>
        by_cases h1 : x.1 = k <;> by_cases h2 : y.1 = k <;> simp [h1, h2]
        cases ob with
        | none => rfl
        | some o =>
          simp only [Option.map_some, Option.some.injEq]
          by_cases hj : x.2 = y.2
          · rw [hj]
          · cases o <;> simp [Obj.setReg, List.set_comm _ _ hj]

/-- Helper of the proofs: several slots get the same value. -/
def fill (W : List Slot) (v : Addr) (ℓ : LoadSt) : LoadSt := W.foldl (fun s σ => s.setSlot σ v) ℓ

theorem fill_same (v : Addr) : ∀ (W : List Slot) (ℓ : LoadSt), (fill W v ℓ).objs.length = ℓ.objs.length ∧ (fill W v ℓ).inp = ℓ.inp ∧
    (fill W v ℓ).entered = ℓ.entered ∧ (fill W v ℓ).done = ℓ.done ∧ (fill W v ℓ).waiting = ℓ.waiting := by
  intro W
  induction W with
  | nil => intro ℓ; exact ⟨rfl, rfl, rfl, rfl, rfl⟩
  | cons σ W ih =>
    intro ℓ
    have h1 := ih (ℓ.setSlot σ v)
    have h2 := setSlot_same ℓ σ v
    show (fill W v (ℓ.setSlot σ v)).objs.length = _ ∧ (fill W v (ℓ.setSlot σ v)).inp = _ ∧ (fill W v (ℓ.setSlot σ v)).entered = _ ∧
      (fill W v (ℓ.setSlot σ v)).done = _ ∧ (fill W v (ℓ.setSlot σ v)).waiting = _
    exact ⟨h1.1.trans h2.1, h1.2.1.trans h2.2.1, h1.2.2.1.trans h2.2.2.1, h1.2.2.2.1.trans h2.2.2.2.1, h1.2.2.2.2.trans h2.2.2.2.2⟩

theorem fill_obj (v : Addr) : ∀ (W : List Slot) (ℓ : LoadSt) (k : Nat) (o : Obj) (l : List (Option Addr)), ℓ.objs[k]? = some (some (o.setRegs l)) →
    ∃ l', (fill W v ℓ).objs[k]? = some (some (o.setRegs l')) ∧ l'.length = l.length ∧
      ∀ j, (some (k, j) ∈ W → j < l.length → l'[j]? = some (some v)) ∧ (some (k, j) ∉ W → l'[j]? = l[j]?) := by
  intro W
  induction W with
  | nil => intro ℓ k o l h; exact ⟨l, h, rfl, fun j => ⟨by simp, fun _ => rfl⟩⟩
  | cons σ W ih =>
    intro ℓ k o l h
    obtain ⟨l1, a1, a2, a3⟩ := setSlot_obj h σ v
    obtain ⟨l2, b1, b2, b3⟩ := ih (ℓ.setSlot σ v) k o l1 a1
    refine ⟨l2, b1, b2.trans a2, ?_⟩
    intro j
    constructor
    · intro hm hj
      by_cases hW : some (k, j) ∈ W
      · exact (b3 j).1 hW (by omega)
      · rw [(b3 j).2 hW]
        rcases List.mem_cons.mp hm with hm | hm
        · exact (a3 j).1 hm.symm hj
        · exact absurd hm hW
    · intro hm
      simp only [List.mem_cons, not_or] at hm
      rw [(b3 j).2 hm.2, (a3 j).2 (Ne.symm hm.1)]

theorem fill_setSlot (v : Addr) (σ : Slot) : ∀ (W : List Slot) (ℓ : LoadSt), fill W v (ℓ.setSlot σ v) = (fill W v ℓ).setSlot σ v := by
  intro W
  induction W with
  | nil => intro ℓ; rfl
  | cons σ' W ih =>
    intro ℓ
    show fill W v ((ℓ.setSlot σ v).setSlot σ' v) = (fill W v (ℓ.setSlot σ' v)).setSlot σ v
    rw [setSlot_comm, ih]

theorem finish_setSlot (ℓ : LoadSt) (σ : Slot) (v : Addr) (id : Int) : (ℓ.setSlot σ v).finish id v = (ℓ.finish id v).setSlot σ v := by
  have e := (setSlot_same ℓ σ v).2.2.2.2
  unfold LoadSt.finish
  simp only
  rw [e]
  change (let s' := fill (ℓ.waiting id) v (ℓ.setSlot σ v); ({ s' with done := Function.update s'.done id (some v) } : LoadSt)) =
    (let s' := fill (ℓ.waiting id) v ℓ; ({ s' with done := Function.update s'.done id (some v) } : LoadSt)).setSlot σ v
  simp only
  rw [fill_setSlot]
  cases σ <;> rfl

/-- a regulatory element is created -/
theorem Inv.finish (hi : Inv H φ s prog ℓ) (hs : SInv H V s) (huniq : ∀ r r' d d', V r → V r' → H[r]? = some (.re d) → H[r']? = some (.re d') → d.id = d'.id → r = r')
    {i : Nat} {r : Addr} (hir : s.table[i]? = some r) {d : ReD} (hd : H[r]? = some (.re d)) (hφ : φ r = i) (hp : prog r = .alloc) :
    Inv H φ s (Function.update prog r .done) (({ ℓ with objs := ℓ.objs.set i (some (.re (d.rename φ))) } : LoadSt).finish d.id i) := by
  have hr : r ∈ s.table := List.mem_of_getElem? hir
  generalize hℓ1 : ({ ℓ with objs := ℓ.objs.set i (some (.re (d.rename φ))) } : LoadSt) = ℓ1
  have e1 : ℓ1.objs = ℓ.objs.set i (some (.re (d.rename φ))) := by rw [← hℓ1]
  have e2 : ℓ1.waiting = ℓ.waiting := by rw [← hℓ1]
  have e3 : ℓ1.done = ℓ.done := by rw [← hℓ1]
  have e4 : ℓ1.entered = ℓ.entered := by rw [← hℓ1]
  have hfill := fill_same i (ℓ1.waiting d.id) ℓ1
  have hfin : ℓ1.finish d.id i = { fill (ℓ1.waiting d.id) i ℓ1 with done := Function.update (fill (ℓ1.waiting d.id) i ℓ1).done d.id (some i) } := rfl
  rw [hfin]
  have hid : d.id ∈ s.ids := (hs.ids d.id).mpr ⟨r, hr, d, hd, rfl⟩
  have hother : ∀ r' d', r' ∈ s.table → H[r']? = some (.re d') → r' ≠ r → d'.id ≠ d.id := by
    intro r' d' h1 h2 h3 h4
    exact h3 (huniq r' r d' d (hs.valid r' h1) (hs.valid r hr) h2 hd h4)
  refine ⟨?_, ?_, ?_, ?_, ?_, ?_, ?_⟩
  · simp only
    rw [hfill.1, e1]
    simp [hi.len]
  · simp only
    rw [hfill.2.2.1, e4]
    exact hi.ent
  · intro b hb
    have : b ≠ r := fun h => hb (h ▸ hr)
    rw [Function.update_of_ne this]
    exact hi.fresh b hb
  · intro id hn
    have : id ≠ d.id := fun h => hn (h ▸ hid)
    simp only
    rw [Function.update_of_ne this, hfill.2.2.2.1, hfill.2.2.2.2, e2, e3]
    exact hi.unseen id hn
  · intro r' d' hr' hd'
    by_cases h : r' = r
    · subst h
      rw [hd] at hd'
      cases hd'
      simp only
      rw [Function.update_self, Function.update_self, if_pos rfl, hφ]
    · simp only
      rw [Function.update_of_ne (hother r' d' hr' hd' h), Function.update_of_ne h, hfill.2.2.2.1, e3]
      exact hi.res r' d' hr' hd'
  · intro k b o hkb hb hpb
    simp only
    by_cases hbr : b = r
    · subst hbr
      have := idx_unique hs.nodup hkb hir
      subst this
      rw [hd] at hb
      cases hb
      have h0 : ℓ1.objs[k]? = some (some (((Obj.re d).rename φ).setRegs [])) := by
        rw [e1, List.getElem?_set_self (by rw [hi.len]; exact (List.getElem?_eq_some_iff.mp hkb).1)]
        rfl
      obtain ⟨l', c1, c2, -⟩ := fill_obj k (ℓ1.waiting d.id) ℓ1 k _ _ h0
      refine ⟨l', ?_, c2, ?_⟩
      · rw [Function.update_self]
        exact c1
      · intro j r' d' hj
        simp [Obj.regs] at hj
    · rw [Function.update_of_ne hbr] at hpb ⊢
      obtain ⟨l, k1, k2, k3⟩ := hi.obj k b o hkb hb hpb
      have hik : i ≠ k := by
        rintro rfl
        rw [hir] at hkb
        exact hbr (by simpa using hkb.symm)
      have h0 : ℓ1.objs[k]? = some (some (((prog b).view (o.rename φ)).setRegs l)) := by
        rw [e1, List.getElem?_set_ne hik]
        exact k1
      obtain ⟨l', c1, c2, c3⟩ := fill_obj i (ℓ1.waiting d.id) ℓ1 k _ _ h0
      refine ⟨l', c1, c2.trans k2, ?_⟩
      intro j r' d' hj hd' hh
      obtain ⟨m1, m2, m3⟩ := k3 j r' d' hj hd' hh
      have hjl : j < l.length := by rw [k2]; exact (List.getElem?_eq_some_iff.mp hj).1
      refine ⟨m1, ?_, ?_⟩
      · intro hdone
        by_cases h : r' = r
        · subst h
          rw [hd] at hd'
          cases hd'
          have hw := m3 (by rw [hp]; simp)
          rw [hφ]
          exact (c3 j).1 (by rw [e2]; exact hw) hjl
        · rw [Function.update_of_ne h] at hdone
          have hnw : some (k, j) ∉ ℓ1.waiting d.id := by
            intro hw
            rw [e2] at hw
            obtain ⟨i', j', a', o', w1, w2, w3, w4⟩ := hi.wait r d _ hr hd (by rw [hp]; simp) hw
            simp only [Option.some.injEq, Prod.mk.injEq] at w1
            obtain ⟨rfl, rfl⟩ := w1
            rw [hkb] at w2
            cases w2
            rw [hb] at w3
            cases w3
            rw [hj] at w4
            simp only [Option.some.injEq] at w4
            exact h w4
          rw [(c3 j).2 hnw]
          exact m2 hdone
      · intro hnd
        have h : r' ≠ r := by
          rintro rfl
          exact hnd (Function.update_self ..)
        rw [Function.update_of_ne h] at hnd
        rw [hfill.2.2.2.2, e2]
        exact m3 hnd
  · intro r' d' σ hr' hd' hp' hσ
    have h : r' ≠ r := by
      rintro rfl
      exact hp' (Function.update_self ..)
    rw [Function.update_of_ne h] at hp'
    simp only at hσ
    rw [hfill.2.2.2.2, e2] at hσ
    exact hi.wait r' d' σ hr' hd' hp' hσ

/-- a pointer to a regulatory element is loaded or waits for it -/
theorem Inv.slot (hi : Inv H φ s prog ℓ) (hs : SInv H V s) {i : Nat} {a : Addr} (hia : s.table[i]? = some a) {o : Obj} (ho : H[a]? = some o) {j : Nat}
    (hp : prog a = .slots j) {r : Addr} (hj : o.regs[j]? = some (some r)) {d : ReD} (hd : H[r]? = some (.re d)) (hr : r ∈ s.table)
    (huniq : ∀ r r' d d', V r → V r' → H[r]? = some (.re d) → H[r']? = some (.re d') → d.id = d'.id → r = r') :
    Inv H φ s (Function.update prog a (.slots (j + 1))) (if prog r = .done then ℓ.setSlot (some (i, j)) (φ r) else ℓ.wait d.id (some (i, j))) := by
  have hra : ∀ r' d', H[r']? = some (.re d') → r' ≠ a := by
    rintro r' d' hd' rfl
    rw [ho] at hd'
    cases hd'
    simp [Obj.regs] at hj
  have hsame : ∀ b, (Function.update prog a (.slots (j + 1)) b = .done ↔ prog b = .done) ∧ (Function.update prog a (.slots (j + 1)) b = .alloc ↔ prog b = .alloc) := by
    intro b
    by_cases h : b = a
    · subst h
      rw [Function.update_self, hp]
      simp
    · rw [Function.update_of_ne h]
      simp
  have hview : ∀ b, (Function.update prog a (.slots (j + 1)) b).view = (prog b).view := by
    intro b
    by_cases h : b = a
    · subst h
      rw [Function.update_self, hp]
      rfl
    · rw [Function.update_of_ne h]
  have hhandled : ∀ b j', (Function.update prog a (.slots (j + 1)) b).handled j' → (prog b).handled j' ∨ (b = a ∧ j' = j) := by
    intro b j' hh
    by_cases h : b = a
    · subst h
      rw [Function.update_self] at hh
      rw [hp]
      simp only [Stage.handled] at hh ⊢
      by_cases h' : j' < j
      · exact .inl h'
      · exact .inr ⟨trivial, by omega⟩
    · rw [Function.update_of_ne h] at hh
      exact .inl hh
  by_cases hdone : prog r = .done
  · rw [if_pos hdone]
    have hS := setSlot_same ℓ (some (i, j)) (φ r)
    refine ⟨by rw [hS.1]; exact hi.len, by rw [hS.2.2.1]; exact hi.ent, fun b hb => (hsame b).1.mpr (hi.fresh b hb), ?_, ?_, ?_, ?_⟩
    · rw [hS.2.2.2.1, hS.2.2.2.2]; exact hi.unseen
    · intro r' d' h1 h2
      rw [hS.2.2.2.1, hi.res r' d' h1 h2]
      simp only [(hsame r').1]
    · intro k b o' hkb hb hpb
      obtain ⟨l, k1, k2, k3⟩ := hi.obj k b o' hkb hb (fun h => hpb ((hsame b).2.mpr h))
      obtain ⟨l', c1, c2, c3⟩ := setSlot_obj k1 (some (i, j)) (φ r)
      rw [hview]
      refine ⟨l', c1, c2.trans k2, ?_⟩
      intro j' r' d' hj' hd' hh
      rw [hS.2.2.2.2]
      by_cases hslot : k = i ∧ j' = j
      · obtain ⟨rfl, rfl⟩ := hslot
        rw [hia] at hkb
        cases hkb
        rw [ho] at hb
        cases hb
        rw [hj] at hj'
        simp only [Option.some.injEq] at hj'
        subst hj'
        refine ⟨hr, fun _ => (c3 j').1 rfl (by rw [k2]; exact (List.getElem?_eq_some_iff.mp hj).1), ?_⟩
        intro h
        exact absurd ((hsame r).1.mpr hdone) h
      · have hh' : (prog b).handled j' := by
          rcases hhandled b j' hh with h | ⟨rfl, rfl⟩
          · exact h
          · exact absurd ⟨idx_unique hs.nodup hkb hia, rfl⟩ hslot
        obtain ⟨m1, m2, m3⟩ := k3 j' r' d' hj' hd' hh'
        refine ⟨m1, fun h => ?_, fun h => m3 fun h' => h ((hsame r').1.mpr h')⟩
        rw [(c3 j').2 (by simp only [ne_eq, Option.some.injEq, Prod.mk.injEq]; rintro ⟨rfl, rfl⟩; exact hslot ⟨rfl, rfl⟩)]
        exact m2 ((hsame r').1.mp h)
    · intro r' d' σ h1 h2 h3 h4
      rw [hS.2.2.2.2] at h4
      exact hi.wait r' d' σ h1 h2 (fun h => h3 ((hsame r').1.mpr h)) h4
  · rw [if_neg hdone]
    have hw : ∀ id σ, σ ∈ (ℓ.wait d.id (some (i, j))).waiting id ↔ σ ∈ ℓ.waiting id ∨ (id = d.id ∧ σ = some (i, j)) := by
      intro id σ
      unfold LoadSt.wait
      simp only
      by_cases h : id = d.id
      · subst h
        rw [Function.update_self]
        simp
      · rw [Function.update_of_ne h]
        simp [h]
    have hid : d.id ∈ s.ids := (hs.ids d.id).mpr ⟨r, hr, d, hd, rfl⟩
    refine ⟨hi.len, hi.ent, fun b hb => (hsame b).1.mpr (hi.fresh b hb), ?_, ?_, ?_, ?_⟩
    · intro id hn'
      refine ⟨(hi.unseen id hn').1, ?_⟩
      unfold LoadSt.wait
      simp only
      rw [Function.update_of_ne (show id ≠ d.id from fun h => hn' (h ▸ hid))]
      exact (hi.unseen id hn').2
    · intro r' d' h1 h2
      simp only [(hsame r').1]
      exact hi.res r' d' h1 h2
    · intro k b o' hkb hb hpb
      obtain ⟨l, k1, k2, k3⟩ := hi.obj k b o' hkb hb (fun h => hpb ((hsame b).2.mpr h))
      rw [hview]
      refine ⟨l, k1, k2, ?_⟩
      intro j' r' d' hj' hd' hh
      rcases hhandled b j' hh with hh' | ⟨h1, h2⟩
      · obtain ⟨m1, m2, m3⟩ := k3 j' r' d' hj' hd' hh'
        exact ⟨m1, fun h => m2 ((hsame r').1.mp h), fun h => (hw _ _).mpr (.inl (m3 fun h' => h ((hsame r').1.mpr h')))⟩
      · rw [h1] at hkb hb
        rw [h2] at hj' ⊢
        have := idx_unique hs.nodup hkb hia
        rw [this]
        rw [ho] at hb
        cases hb
        rw [hj] at hj'
        simp only [Option.some.injEq] at hj'
        subst hj'
        rw [hd] at hd'
        cases hd'
        exact ⟨hr, fun h => absurd ((hsame r).1.mp h) hdone, fun _ => (hw _ _).mpr (.inr ⟨rfl, rfl⟩)⟩
    · intro r' d' σ h1 h2 h3 h4
      rcases (hw _ _).mp h4 with h4 | ⟨h4, h5⟩
      · exact hi.wait r' d' σ h1 h2 (fun h => h3 ((hsame r').1.mpr h)) h4
      · have := huniq r' r d' d (hs.valid r' h1) (hs.valid r hr) h2 hd h4
        subst this
        exact ⟨i, j, a, o, h5, hia, ho, hj⟩

/-- an object is complete -/
theorem Inv.complete (hi : Inv H φ s prog ℓ) (hs : SInv H V s) {i : Nat} {a : Addr} (hia : s.table[i]? = some a) {o : Obj} (ho : H[a]? = some o)
    (hre : ∀ d, o ≠ .re d) (hp : prog a = .slots o.regs.length) (f : Obj → Obj) (hf : ∀ l, f ((o.rename φ).noCenter.setRegs l) = (o.rename φ).setRegs l) :
    Inv H φ s (Function.update prog a .done) { ℓ with objs := ℓ.objs.modify i (Option.map f) } := by
  have hne : ∀ r d, H[r]? = some (.re d) → Function.update prog a .done r = prog r := by
    intro r d hd
    refine Function.update_of_ne ?_ ..
    rintro rfl
    rw [ho] at hd
    exact hre d (by simpa using hd)
  refine ⟨?_, hi.ent, ?_, hi.unseen, ?_, ?_, ?_⟩
  · simp [hi.len]
  · intro b hb
    have : b ≠ a := fun h => hb (h ▸ List.mem_of_getElem? hia)
    rw [Function.update_of_ne this]
    exact hi.fresh b hb
  · intro r d hr hd
    rw [hne r d hd]
    exact hi.res r d hr hd
  · intro k b o' hkb hb hpb
    by_cases hba : b = a
    · subst hba
      have := idx_unique hs.nodup hkb hia
      subst this
      rw [ho] at hb
      cases hb
      obtain ⟨l, k1, k2, k3⟩ := hi.obj k b o hkb ho (by rw [hp]; simp)
      rw [Function.update_self]
      refine ⟨l, ?_, k2, ?_⟩
      · simp only
        rw [List.getElem?_modify, k1, hp]
        simp only [if_true]
        exact congrArg (fun x => some (some x)) (hf l)
      · intro j r d hj hd _
        rw [hne r d hd]
        exact k3 j r d hj hd (by rw [hp]; exact (List.getElem?_eq_some_iff.mp hj).1)
    · rw [Function.update_of_ne hba] at hpb ⊢
      obtain ⟨l, k1, k2, k3⟩ := hi.obj k b o' hkb hb hpb
      have hik : i ≠ k := by
        rintro rfl
        rw [hia] at hkb
        exact hba (by simpa using hkb.symm)
      refine ⟨l, ?_, k2, ?_⟩
      · simp only
        rw [List.getElem?_modify, k1]
        simp [hik]
      · intro j r d hj hd hh
        rw [hne r d hd]
        exact k3 j r d hj hd hh
  · intro r d σ hr hd hp' hσ
    rw [hne r d hd] at hp'
    exact hi.wait r d σ hr hd hp' hσ

end
end Verif.Bin
