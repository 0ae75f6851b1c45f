import Verif.Bin.Objects

/-!
Saving and loading of objects.
-/
namespace Verif.Bin

section
variable {H : List Obj} {V : Addr → Prop}

theorem SInv.push {s : SaveSt} (hs : SInv H V s) {a : Addr} (ha : a ∉ s.table) (va : V a) {o : Obj} (ho : H[a]? = some o) (hre : ∀ d, o ≠ .re d) (out : List Tok) :
    SInv H V { s with out := out, table := s.table ++ [a] } where
  nodup := by
    simp only
    rw [List.nodup_append]
    refine ⟨hs.nodup, by simp, ?_⟩
    intro x hx y hy hxy
    simp only [List.mem_singleton] at hy
    subst hy hxy
    exact ha hx
  valid := by
    intro b hb
    rcases List.mem_append.mp hb with hb | hb
    · exact hs.valid b hb
    · simp only [List.mem_singleton] at hb
      exact hb ▸ va
  ids := by
    intro id
    rw [hs.ids]
    constructor
    · rintro ⟨r, h1, h2⟩
      exact ⟨r, by simp [h1], h2⟩
    · rintro ⟨r, h1, d, h2, h3⟩
      rcases List.mem_append.mp h1 with h1 | h1
      · exact ⟨r, h1, d, h2, h3⟩
      · simp only [List.mem_singleton] at h1
        subst h1
        rw [ho] at h2
        exact absurd (by simpa using h2) (hre d)

theorem SInv.pushRe {s : SaveSt} (hs : SInv H V s) {a : Addr} (ha : a ∉ s.table) (va : V a) {d : ReD} (ho : H[a]? = some (.re d)) (out : List Tok) :
    SInv H V { out := out, table := s.table ++ [a], ids := s.ids ++ [d.id] } where
  nodup := by
    simp only
    rw [List.nodup_append]
    refine ⟨hs.nodup, by simp, ?_⟩
    intro x hx y hy hxy
    simp only [List.mem_singleton] at hy
    subst hy hxy
    exact ha hx
  valid := by
    intro b hb
    rcases List.mem_append.mp hb with hb | hb
    · exact hs.valid b hb
    · simp only [List.mem_singleton] at hb
      exact hb ▸ va
  ids := by
    intro id
    simp only [List.mem_append, List.mem_singleton]
    rw [hs.ids]
    constructor
    · rintro (⟨r, h1, h2⟩ | rfl)
      · exact ⟨r, by simp [h1], h2⟩
      · exact ⟨a, by simp, d, ho, rfl⟩
    · rintro ⟨r, h1 | h1, d', h2, h3⟩
      · exact .inl ⟨r, h1, d', h2, h3⟩
      · subst h1
        rw [ho] at h2
        cases h2
        exact .inr h3.symm

/-- what happens between the registration of an object and its completion -/
def Body (H : List Obj) (V : Addr → Prop) (a : Addr) (o : Obj) (f : S Unit) (k : Addr → L Unit) (s1 : SaveSt) : Prop :=
  SInv H V s1 → ∃ s2 τ, f s1 = pure ((), s2) ∧ Saved H V s1 s2 τ ∧ (∀ c ∈ o.pointers, c ∈ s2.table) ∧ ∀ φ, Compat φ s2.table →
    ∀ ℓ prog rest, prog a = .alloc → Inv H φ s1 prog ℓ → ℓ.inp = τ ++ rest →
      ∃ ℓ', k (φ a) ℓ = pure ((), ℓ') ∧ ℓ'.inp = rest ∧ Inv H φ s2 (Function.update prog a .done) ℓ'

/-- a pointer to an object that is not a regulatory element -/
theorem RT_ptr {s : SaveSt} {a : Addr} {o : Obj} (va : V a) (ho : H[a]? = some o) (hre : ∀ d, o ≠ .re d) (f : S Unit) (k : Addr → L Unit)
    (hb : ∀ s1, a ∉ s.table → s1.table = s.table ++ [a] → Body H V a o f k s1) :
    RT H V (track a >>= fun b => if b then f else pure ()) (fun _ => enter >>= fun x => if x.2 then k x.1 >>= fun _ => pure x.1 else pure x.1)
      (fun φ => φ a) [a] s := by
  intro hs
  by_cases ha : a ∈ s.table
  · refine ⟨_, [.oid (s.table.idxOf a)], run_bind (track_known ha), ?_, ?_, ?_⟩
    · exact ⟨rfl, List.prefix_rfl, hs.emit _, fun _ h => .inl h⟩
    · intro c hc
      simp only [List.mem_singleton] at hc
      exact hc ▸ ha
    · intro φ hφ ℓ prog rest hi hinp
      obtain ⟨h1, h2⟩ := Compat.idx hφ (a := a) ha
      simp only at h1 h2
      refine ⟨{ ℓ with inp := rest }, ?_, rfl, hi.emit _ _ _⟩
      rw [← h1] at hinp
      exact run_bind (enter_known hinp (by rw [hi.len]; exact h2))
  · obtain ⟨s2, τ, b1, b2, b3, b4⟩ := hb { s with out := s.out ++ [.oid s.table.length], table := s.table ++ [a] } ha rfl (hs.push ha va ho hre _)
    refine ⟨s2, .oid s.table.length :: τ, (run_bind (track_new ha)).trans b1, ⟨?_, ?_, b2.inv, ?_⟩, ?_, ?_⟩
    · rw [b2.out]; simp
    · exact (List.prefix_append _ _).trans b2.pre
    · intro b hb'
      rcases b2.closed b hb' with h | h
      · rcases List.mem_append.mp h with h | h
        · exact .inl h
        · simp only [List.mem_singleton] at h
          subst h
          refine .inr fun o' ho' c hc => ?_
          rw [ho] at ho'
          cases ho'
          exact b3 c hc
      · exact .inr h
    · intro c hc
      simp only [List.mem_singleton] at hc
      exact b2.pre.subset (by simp [hc])
    · intro φ hφ ℓ prog rest hi hinp
      have hφa : φ a = s.table.length := (hφ.prefix b2.pre) s.table.length a (by simp)
      have hpush := hi.push ha ho (s.out ++ [.oid s.table.length]) (τ ++ rest) s.ids (fun _ h => h) (fun d h => absurd h (hre d))
      rw [← hi.ent] at hpush
      have hpush' : Inv H φ { s with out := s.out ++ [.oid s.table.length], table := s.table ++ [a] } (Function.update prog a .alloc)
          { ℓ with inp := τ ++ rest, objs := ℓ.objs ++ [none] } := by
        rw [hi.ent] at hpush
        have e : ({ ℓ with inp := τ ++ rest, objs := ℓ.objs ++ [none] } : LoadSt) =
            { ℓ with inp := τ ++ rest, objs := ℓ.objs ++ [none], entered := s.ids } := by rw [← hi.ent]
        rw [e]
        exact hpush
      obtain ⟨ℓ', c1, c2, c3⟩ := b4 φ hφ _ _ rest (Function.update_self ..) hpush' rfl
      refine ⟨ℓ', ?_, c2, ?_⟩
      · refine (run_bind (enter_new hinp (by rw [hi.len]; simp))).trans ?_
        rw [hi.len, ← hφa]
        exact run_bind c1
      · have : Function.update (Function.update prog a Stage.alloc) a .done = prog := by
          rw [Function.update_idem]
          have := hi.fresh a ha
          rw [← this]
          exact Function.update_eq_self ..
        rw [this] at c3
        exact c3

/-- an object without pointers to regulatory elements -/
theorem RT_simple {s : SaveSt} {a : Addr} {o : Obj} (va : V a) (ho : H[a]? = some o) (hre : ∀ d, o ≠ .re d) (hregs : o.regs = []) (hset : ∀ φ l, (o.rename φ).setRegs l = o.rename φ)
    (f : S Unit) (g : L Obj) (hb : ∀ s1, s.table ++ [a] <+: s1.table → RT H V f (fun _ => g) (fun φ => o.rename φ) o.pointers s1) :
    RT H V (track a >>= fun b => if b then f else pure ()) (fun _ => enter >>= fun x => if x.2 then (g >>= put x.1) >>= fun _ => pure x.1 else pure x.1)
      (fun φ => φ a) [a] s := by
  refine RT_ptr va ho hre f (fun i => g >>= put i) ?_
  intro s1 ha hs1 hinv
  obtain ⟨s2, τ, b1, b2, b3, b4⟩ := hb s1 (hs1 ▸ List.prefix_rfl) hinv
  refine ⟨s2, τ, b1, b2, b3, ?_⟩
  intro φ hφ ℓ prog rest hp hi hinp
  obtain ⟨ℓ1, c1, c2, c3⟩ := b4 φ hφ ℓ prog rest hi hinp
  have ha2 : a ∈ s2.table := b2.pre.subset (by rw [hs1]; simp)
  have hidx : s2.table[φ a]? = some a := by
    rw [(hφ.idx ha2).1]
    have := List.idxOf_lt_length_of_mem ha2
    rw [List.getElem?_eq_getElem this, List.getElem_idxOf]
  have := c3.construct (o := o) b2.inv.nodup hidx ho hre (st := .done) (by rw [hregs]; simp) [] (by rw [hregs])
  rw [show Stage.done.view (o.rename φ) = o.rename φ from rfl, hset] at this
  exact ⟨_, run_bind c1, c2, this⟩

/-! ### points and linestrings -/

theorem RT_pt {s : SaveSt} {a : Addr} (va : V a) (h : IsPt H a) : RT H V (savePt H a) (fun _ => loadPt) (fun φ => φ a) [a] s := by
  obtain ⟨id, attrs, x, y, z, ho⟩ := h
  have key := RT_simple (s := s) va ho (by simp) rfl (fun _ _ => rfl)
    (emit (.num id) >>= fun _ => emit (.attrs attrs) >>= fun _ => emit (.num x) >>= fun _ => emit (.num y) >>= fun _ => emit (.num z))
    (getNum >>= fun id => getAttrs >>= fun attrs => getNum >>= fun x => getNum >>= fun y => getNum >>= fun z => pure (.pt id attrs x y z))
    (by
      intro s1 _
      refine RT_bind (t := []) (t' := []) (RT_num _) fun _ _ => RT_bind (t := []) (t' := []) (RT_attrs _) fun _ _ =>
        RT_bind (t := []) (t' := []) (RT_num _) fun _ _ => RT_bind (t := []) (t' := []) (RT_num _) fun _ _ => RT_map (t := []) (fun _ z => Obj.pt id attrs x y z) (RT_num _))
  have e1 : savePt H a = (track a >>= fun b => if b then (emit (.num id) >>= fun _ => emit (.attrs attrs) >>= fun _ => emit (.num x) >>= fun _ => emit (.num y) >>= fun _ =>
      emit (.num z)) else pure ()) := by
    unfold savePt
    rw [ho]
  have e2 : loadPt = (enter >>= fun x => if x.2 then ((getNum >>= fun id => getAttrs >>= fun attrs => getNum >>= fun x => getNum >>= fun y => getNum >>= fun z =>
      pure (Obj.pt id attrs x y z)) >>= put x.1) >>= fun _ => pure x.1 else pure x.1) := by
    unfold loadPt
    simp only [bind_assoc, pure_bind]
  rw [e1, e2]
  exact key

theorem RT_lsData {s : SaveSt} {a : Addr} (hV : ∀ a o, V a → H[a]? = some o → o.Typed H ∧ ∀ c ∈ o.pointers, V c) (va : V a) (h : IsLs H a) :
    RT H V (saveLsData H a) (fun _ => loadLsData) (fun φ => φ a) [a] s := by
  obtain ⟨id, attrs, points, ho⟩ := h
  obtain ⟨ht, hp⟩ := hV a _ va ho
  have key := RT_simple (s := s) va ho (by simp) rfl (fun _ _ => rfl)
    (emit (.num id) >>= fun _ => emit (.attrs attrs) >>= fun _ => emit (.size points.length) >>= fun _ => points.forM (savePt H))
    (getNum >>= fun id => getAttrs >>= fun attrs => (getSize >>= fun n => (List.range n).mapM fun _ => loadPt) >>= fun points => pure (.ls id attrs points))
    (by
      intro s1 _
      refine RT_bind (t := []) (t' := points) (RT_num _) fun _ _ => RT_bind (t := []) (t' := points) (RT_attrs _) fun _ _ =>
        RT_map (t := points) (fun _ points => Obj.ls id attrs points) ?_
      refine RT_congr (RT_list (savePt H) loadPt (fun x φ => φ x) (fun x => [x]) points _ fun x hx s' _ => RT_pt (hp x hx) (ht x hx)) (fun _ => rfl) ?_
      intro c hc
      exact List.mem_flatMap.mpr ⟨c, hc, by simp⟩)
  have e1 : saveLsData H a = (track a >>= fun b => if b then (emit (.num id) >>= fun _ => emit (.attrs attrs) >>= fun _ => emit (.size points.length) >>= fun _ =>
      points.forM (savePt H)) else pure ()) := by
    unfold saveLsData
    rw [ho]
  have e2 : loadLsData = (enter >>= fun x => if x.2 then ((getNum >>= fun id => getAttrs >>= fun attrs =>
      (getSize >>= fun n => (List.range n).mapM fun _ => loadPt) >>= fun points => pure (Obj.ls id attrs points)) >>= put x.1) >>= fun _ => pure x.1 else pure x.1) := by
    unfold loadLsData
    simp only [bind_assoc, pure_bind]
  rw [e1, e2]
  exact key

theorem RT_ls {s : SaveSt} {h : LsH} (hV : ∀ a o, V a → H[a]? = some o → o.Typed H ∧ ∀ c ∈ o.pointers, V c) (va : V h.2) (hl : IsLs H h.2) :
    RT H V (saveLs H h) (fun _ => loadLs) (fun φ => (h.1, φ h.2)) [h.2] s :=
  RT_bind (t := []) (k := fun _ inv => loadLsData >>= fun a => pure (inv, a)) (RT_flag h.1) fun _ _ => RT_map (fun _ a => (h.1, a)) (RT_lsData hV va hl)

theorem RT_lss {s : SaveSt} {l : List LsH} (hV : ∀ a o, V a → H[a]? = some o → o.Typed H ∧ ∀ c ∈ o.pointers, V c) (va : ∀ h ∈ l, V h.2) (hl : ∀ h ∈ l, IsLs H h.2) :
    RT H V (saveLss H l) (fun _ => loadLss) (fun φ => l.map fun h => (h.1, φ h.2)) (l.map (·.2)) s := by
  refine RT_congr (RT_list (saveLs H) loadLs (fun h φ => (h.1, φ h.2)) (fun h => [h.2]) l s fun h hh s' _ => RT_ls hV (va h hh) (hl h hh)) (fun _ => rfl) ?_
  intro c hc
  obtain ⟨h, h1, h2⟩ := List.mem_map.mp hc
  exact List.mem_flatMap.mpr ⟨h, h1, by simp [h2]⟩

/-! ### regulatory elements of lanelets and areas -/

/-- a pointer to a regulatory element -/
def RTre (H : List Obj) (V : Addr → Prop) (accepts : String → ReD → Bool) (r : Addr) (d : ReD) (s : SaveSt) : Prop :=
  SInv H V s → ∃ s' τ, saveRec H (.re r) s = pure ((), s') ∧ Saved H V s s' τ ∧ r ∈ s'.table ∧ ∀ φ, Compat φ s'.table → ∀ ℓ prog rest σ, Inv H φ s prog ℓ →
    ℓ.inp = τ ++ rest → ∃ ℓ1 x, Inv H φ s' prog ℓ1 ∧ ℓ1.inp = rest ∧
      loadRec accepts (.re σ) ℓ = pure (x, if prog r = .done then ℓ1.setSlot σ (φ r) else ℓ1.wait d.id σ)

/-- Helper of the proofs: saving a pointer to a regulatory element. -/
def saveReg (H : List Obj) (r : Option Addr) : S Unit :=
  match r with
  | some r => saveRec H (.re r)
  | none => throw .ub

theorem table_idx {φ : Addr → Addr} {s : SaveSt} {a : Addr} (h : Compat φ s.table) (ha : a ∈ s.table) : s.table[φ a]? = some a := by
  rw [(h.idx ha).1]
  have := List.idxOf_lt_length_of_mem ha
  rw [List.getElem?_eq_getElem this, List.getElem_idxOf]

theorem slot_inp {ℓ : LoadSt} (c : Prop) [Decidable c] (σ : Slot) (v : Addr) (id : Int) : (if c then ℓ.setSlot σ v else ℓ.wait id σ).inp = ℓ.inp := by
  split
  · exact (setSlot_same ℓ σ v).2.1
  · rfl

theorem regs_loop {accepts : String → ReD → Bool} (huniq : ∀ r r' d d', V r → V r' → H[r]? = some (.re d) → H[r']? = some (.re d') → d.id = d'.id → r = r')
    {a : Addr} {o : Obj} (ho : H[a]? = some o) : ∀ (suf pre : List (Option Addr)) (s : SaveSt), o.regs = pre ++ suf → a ∈ s.table →
    (∀ x ∈ suf, ∃ r d, x = some r ∧ H[r]? = some (.re d) ∧ ∀ s', s.table <+: s'.table → RTre H V accepts r d s') → SInv H V s →
    ∃ s' τ, suf.forM (saveReg H) s = pure ((), s') ∧ Saved H V s s' τ ∧ (∀ r, some r ∈ suf → r ∈ s'.table) ∧ ∀ φ, Compat φ s'.table →
      ∀ ℓ prog rest, prog a = .slots pre.length → Inv H φ s prog ℓ → ℓ.inp = τ ++ rest →
        ∃ ℓ', (List.range' pre.length suf.length).forM (fun j => loadRec accepts (.re (some (φ a, j))) >>= fun _ => pure ()) ℓ = pure ((), ℓ') ∧ ℓ'.inp = rest ∧
          Inv H φ s' (Function.update prog a (.slots o.regs.length)) ℓ' := by
  intro suf
  induction suf with
  | nil =>
    intro pre s hregs ha _ hs
    refine ⟨s, [], rfl, Saved.refl hs, by simp, ?_⟩
    intro φ _ ℓ prog rest hp hi hinp
    refine ⟨ℓ, rfl, by simpa using hinp, ?_⟩
    rw [hregs, List.append_nil, ← hp, Function.update_eq_self]
    exact hi
  | cons x suf ih =>
    intro pre s hregs ha hre hs
    obtain ⟨r, d, rfl, hd, hrt⟩ := hre x (by simp)
    obtain ⟨s1, τ1, a1, a2, a3, a4⟩ := hrt s List.prefix_rfl hs
    obtain ⟨s2, τ2, b1, b2, b3, b4⟩ := ih (pre ++ [some r]) s1 (by simp [hregs]) (a2.pre.subset ha)
      (fun y hy => by
        obtain ⟨r', d', h1, h2, h3⟩ := hre y (by simp [hy])
        exact ⟨r', d', h1, h2, fun s' hs' => h3 s' (a2.pre.trans hs')⟩) a2.inv
    refine ⟨s2, τ1 ++ τ2, (run_bind a1).trans b1, a2.trans b2, ?_, ?_⟩
    · intro r' hr'
      rcases List.mem_cons.mp hr' with h | h
      · cases h
        exact b2.pre.subset a3
      · exact b3 r' h
    · intro φ hφ ℓ prog rest hp hi hinp
      have hφ1 := hφ.prefix b2.pre
      obtain ⟨ℓ1, x, c1, c2, c3⟩ := a4 φ hφ1 ℓ prog (τ2 ++ rest) (some (φ a, pre.length)) hi (by rw [hinp, List.append_assoc])
      have hslot := c1.slot a2.inv (table_idx hφ1 (a2.pre.subset ha)) ho hp (r := r) (d := d) (by rw [hregs]; simp) hd a3 huniq
      obtain ⟨ℓ', e1, e2, e3⟩ := b4 φ hφ _ _ rest (by rw [Function.update_self]; simp) hslot (by rw [slot_inp, c2])
      refine ⟨ℓ', ?_, e2, ?_⟩
      · rw [List.length_cons, List.range'_succ]
        have h1 : (loadRec accepts (.re (some (φ a, pre.length))) >>= fun _ => (pure () : L Unit)) ℓ =
            pure ((), if prog r = .done then ℓ1.setSlot (some (φ a, pre.length)) (φ r) else ℓ1.wait d.id (some (φ a, pre.length))) := run_bind c3
        refine (run_bind h1).trans ?_
        simpa using e1
      · rw [Function.update_idem] at e3
        exact e3

end
end Verif.Bin
