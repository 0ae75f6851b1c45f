import Verif.Bin.Rec
import Mathlib.Data.List.Perm.Subperm

/-!
Lanelets, areas and regulatory elements.
-/
namespace Verif.Bin

section
variable {H : List Obj} {V : Addr → Prop} {accepts : String → ReD → Bool}

theorem table_le {s : SaveSt} (hs : SInv H V s) (hV : ∀ a, V a → ∃ o, H[a]? = some o) : s.table.length ≤ H.length := by
  have h : s.table ⊆ List.range H.length := by
    intro a ha
    obtain ⟨o, ho⟩ := hV a (hs.valid a ha)
    exact List.mem_range.mpr (List.getElem?_eq_some_iff.mp ho).1
  have := (List.Nodup.subperm hs.nodup h).length_le
  simpa using this

/-! ### lanelets -/

/-- Helper of the proofs: saving a lanelet up to the centerline. -/
def llHead (d : LlD) (H : List Obj) : S Unit := do
  emit (.num d.id)
  emit (.attrs d.attrs)
  saveLs H d.left
  saveLs H d.right
  emit (.size d.regs.length)

/-- Helper of the proofs: saving the centerline. -/
def centerSave (H : List Obj) : Option LsH → S Unit
  | some c => saveLs H c
  | none => pure ()

/-- Helper of the proofs: saving a lanelet behind the centerline. -/
def llTail (d : LlD) (H : List Obj) : S Unit := do
  emit (.flag d.center.isSome)
  centerSave H d.center

theorem saveRec_ll {a : Addr} {d : LlD} (ho : H[a]? = some (.ll d)) :
    saveRec H (.ll a) = (track a >>= fun b => if b then (llHead d H >>= fun _ => d.regs.forM (saveReg H) >>= fun _ => llTail d H) else pure ()) := by
  rw [saveRec]
  simp only [ho]
  refine bind_congr fun b => ?_
  split
  · unfold llHead llTail
    simp only [bind_assoc]
    have : (fun r => match r with | some r => saveRec H (.re r) | none => throw .ub) = saveReg H := by
      funext r
      cases r <;> rfl
    rw [← this]
    cases d.center <;> rfl
  · rfl

/-- Helper of the proofs: loading a lanelet up to the centerline. -/
def llHeadLoad : L LlD := do
  let id ← getNum
  let attrs ← getAttrs
  let left ← loadLs
  let right ← loadLs
  let n ← getSize
  return { id := id, attrs := attrs, left := left, right := right, regs := List.replicate n none, center := none }

/-- Helper of the proofs: loading the centerline. -/
def centerLoad : L (Option LsH) := do
  let b ← getFlag
  if b then
    let c ← loadLs
    return some c
  else return none

/-- Helper of the proofs: setting the centerline. -/
def applyCenter (a : Addr) : Option LsH → L Unit
  | some c => modify fun s => s.setCenter a c
  | none => pure ()

/-- Helper of the proofs: loading regulatory elements. -/
def regsLoad (accepts : String → ReD → Bool) (a : Addr) (n : Nat) : L Unit :=
  (List.range n).forM (fun j => loadRec accepts (.re (some (a, j))) >>= fun _ => pure ())

theorem loadRec_ll : loadRec accepts .ll = (enter >>= fun x => if x.2 then
    (llHeadLoad >>= fun d => put x.1 (.ll d) >>= fun _ => regsLoad accepts x.1 d.regs.length >>= fun _ => centerLoad >>= applyCenter x.1) >>= fun _ => pure x.1
    else pure x.1) := by
  rw [loadRec]
  unfold llHeadLoad centerLoad regsLoad
  simp only [bind_assoc, pure_bind, List.length_replicate]
  refine bind_congr fun x => ?_
  split
  · refine bind_congr fun id => bind_congr fun attrs => bind_congr fun left => bind_congr fun right => bind_congr fun n => bind_congr fun _ => bind_congr fun _ => bind_congr fun b => ?_
    cases b
    · rfl
    · simp [applyCenter]
  · rfl

theorem RT_llHead {s : SaveSt} {d : LlD} (hV : ∀ a o, V a → H[a]? = some o → o.Typed H ∧ ∀ c ∈ o.pointers, V c) {a : Addr} (va : V a) (ho : H[a]? = some (.ll d)) :
    RT H V (llHead d H) (fun _ => llHeadLoad)
      (fun φ => { id := d.id, attrs := d.attrs, left := (d.left.1, φ d.left.2), right := (d.right.1, φ d.right.2), regs := List.replicate d.regs.length none, center := none })
      [d.left.2, d.right.2] s := by
  obtain ⟨ht, hp⟩ := hV a _ va ho
  refine RT_bind (t := []) (t' := [d.left.2, d.right.2]) (RT_num _) fun _ _ => RT_bind (t := []) (t' := [d.left.2, d.right.2]) (RT_attrs _) fun _ _ =>
    RT_bind (t := [d.left.2]) (t' := [d.right.2]) (RT_ls hV (hp _ (by simp [Obj.pointers])) ht.1) fun _ _ =>
    RT_bind (t := [d.right.2]) (t' := []) (RT_ls hV (hp _ (by simp [Obj.pointers])) ht.2.1) fun _ _ =>
    RT_map (t := []) (fun φ n => LlD.mk d.id d.attrs (d.left.1, φ d.left.2) (d.right.1, φ d.right.2) (List.replicate n none) none) (RT_size _)

theorem RT_llTail {s : SaveSt} {d : LlD} (hV : ∀ a o, V a → H[a]? = some o → o.Typed H ∧ ∀ c ∈ o.pointers, V c) {a : Addr} (va : V a) (ho : H[a]? = some (.ll d)) :
    RT H V (llTail d H) (fun _ => centerLoad) (fun φ => d.center.map fun h => (h.1, φ h.2)) (d.center.toList.map (·.2)) s := by
  obtain ⟨ht, hp⟩ := hV a _ va ho
  unfold llTail centerLoad
  cases hc : d.center with
  | none =>
    exact RT_bind (t := []) (t' := []) (k := fun _ b => if b then loadLs >>= fun c => pure (some c) else pure none) (RT_flag false) fun _ _ => RT_pure fun _ => none
  | some c =>
    exact RT_bind (t := []) (t' := [c.2]) (k := fun _ b => if b then loadLs >>= fun c => pure (some c) else pure none) (RT_flag true) fun _ _ =>
      RT_map (fun _ c => some c) (RT_ls hV (hp _ (by simp [Obj.pointers, hc])) (ht.2.2.2 c hc))

theorem modify_none (ℓ : LoadSt) (i : Nat) : ({ ℓ with objs := ℓ.objs.modify i (Option.map id) } : LoadSt) = ℓ := by
  have : ℓ.objs.modify i (Option.map id) = ℓ.objs := by
    apply List.ext_getElem?
    intro k
    rw [List.getElem?_modify]
    cases ℓ.objs[k]? <;> simp
  rw [this]

/-- Helper of the proofs: with a centerline. -/
def setC (c : LsH) : Obj → Obj
  | .ll d => .ll { d with center := some c }
  | o => o

theorem setCenter_eq (ℓ : LoadSt) (a : Addr) (c : LsH) : ℓ.setCenter a c = { ℓ with objs := ℓ.objs.modify a (Option.map (setC c)) } := by
  unfold LoadSt.setCenter
  have : (fun o => match o with | .ll d => Obj.ll { d with center := some c } | o => o) = setC c := by
    funext o
    cases o <;> rfl
  rw [← this]
  rfl

theorem body_ll (hV : ∀ a o, V a → H[a]? = some o → o.Typed H ∧ ∀ c ∈ o.pointers, V c)
    (huniq : ∀ r r' d d', V r → V r' → H[r]? = some (.re d) → H[r']? = some (.re d') → d.id = d'.id → r = r') {a : Addr} {d : LlD} (va : V a) (ho : H[a]? = some (.ll d))
    (s1 : SaveSt) (ha : a ∈ s1.table) (hre : ∀ r d', V r → H[r]? = some (.re d') → ∀ s', s1.table <+: s'.table → RTre H V accepts r d' s') :
    Body H V a (.ll d) (llHead d H >>= fun _ => d.regs.forM (saveReg H) >>= fun _ => llTail d H)
      (fun a => llHeadLoad >>= fun d => put a (.ll d) >>= fun _ => regsLoad accepts a d.regs.length >>= fun _ => centerLoad >>= applyCenter a) s1 := by
  intro hs1
  obtain ⟨ht, hp⟩ := hV a _ va ho
  obtain ⟨s2, τ2, a1, a2, a3, a4⟩ := RT_llHead hV va ho hs1
  have hregs : ∀ x ∈ d.regs, ∃ r d', x = some r ∧ H[r]? = some (.re d') ∧ ∀ s', s2.table <+: s'.table → RTre H V accepts r d' s' := by
    intro x hx
    obtain ⟨r, rfl, d', hd'⟩ := ht.2.2.1 x hx
    exact ⟨r, d', rfl, hd', fun s' hs' => hre r d' (hp r (by
      simp only [Obj.pointers, List.mem_append, List.mem_flatMap]
      exact .inl (.inr ⟨_, hx, by simp⟩))) hd' s' (a2.pre.trans hs')⟩
  obtain ⟨s3, τ3, b1, b2, b3, b4⟩ := regs_loop huniq ho d.regs [] s2 (by simp [Obj.regs]) (a2.pre.subset ha) hregs a2.inv
  obtain ⟨s4, τ4, c1, c2, c3, c4⟩ := RT_llTail hV va ho b2.inv
  refine ⟨s4, τ2 ++ (τ3 ++ τ4), (run_bind a1).trans ((run_bind b1).trans c1), a2.trans (b2.trans c2), ?_, ?_⟩
  · intro c hc
    simp only [Obj.pointers, List.mem_append] at hc
    rcases hc with (hc | hc) | hc
    · exact c2.pre.subset (b2.pre.subset (a3 c hc))
    · obtain ⟨x, h1, h2⟩ := List.mem_flatMap.mp hc
      cases x with
      | none => simp at h2
      | some r =>
        simp only [Option.toList_some, List.mem_singleton] at h2
        subst h2
        exact c2.pre.subset (b3 c h1)
    · exact c3 c hc
  · intro φ hφ ℓ prog rest halloc hi hinp
    have hφ3 := hφ.prefix c2.pre
    have hφ2 := hφ3.prefix b2.pre
    have hidx := table_idx hφ2 (a2.pre.subset ha)
    obtain ⟨ℓ2, e1, e2, e3⟩ := a4 φ hφ2 ℓ prog (τ3 ++ (τ4 ++ rest)) hi (by rw [hinp]; simp)
    have hcon := e3.construct (o := .ll d) a2.inv.nodup hidx ho (by simp) (st := .slots 0) (by simp [Stage.handled]) (List.replicate d.regs.length none)
      (by simp [Obj.regs])
    obtain ⟨ℓ3, f1, f2, f3⟩ := b4 φ hφ3 _ _ (τ4 ++ rest) (by rw [Function.update_self]; rfl) hcon (by simp only; rw [e2])
    obtain ⟨ℓ4, g1, g2, g3⟩ := c4 φ hφ ℓ3 _ rest f3 f2
    have hidx4 := table_idx hφ (c2.pre.subset (b2.pre.subset (a2.pre.subset ha)))
    have hload : ∀ ℓ', applyCenter (φ a) (d.center.map fun h => (h.1, φ h.2)) ℓ4 = pure ((), ℓ') →
        (llHeadLoad >>= fun d => put (φ a) (.ll d) >>= fun _ => regsLoad accepts (φ a) d.regs.length >>= fun _ => centerLoad >>= applyCenter (φ a)) ℓ = pure ((), ℓ') := by
      intro ℓ' h
      refine (run_bind e1).trans ?_
      refine (run_bind (show put _ _ _ = pure ((), _) from rfl)).trans ?_
      have f1' : regsLoad accepts (φ a) (List.replicate d.regs.length (none : Option Addr)).length
          { ℓ2 with objs := ℓ2.objs.set (φ a) (some ((Stage.view (.slots 0) ((Obj.ll d).rename φ)).setRegs (List.replicate d.regs.length none))) } = pure ((), ℓ3) := by
        unfold regsLoad
        rw [List.length_replicate, List.range_eq_range']
        exact f1
      exact (run_bind f1').trans ((run_bind g1).trans h)
    cases hc : d.center with
    | none =>
      rw [hc] at hload
      refine ⟨ℓ4, hload ℓ4 rfl, g2, ?_⟩
      have := g3.complete c2.inv hidx4 ho (by simp) (Function.update_self ..) id (by
        intro l
        simp [Obj.rename, Obj.noCenter, Obj.setRegs, hc])
      rw [modify_none] at this
      simpa only [Function.update_idem] using this
    | some c =>
      rw [hc] at hload
      refine ⟨_, hload _ rfl, g2, ?_⟩
      have := g3.complete c2.inv hidx4 ho (by simp) (Function.update_self ..) (setC (c.1, φ c.2)) (by
        intro l
        simp [Obj.rename, Obj.noCenter, Obj.setRegs, hc, setC])
      rw [← setCenter_eq, Function.update_idem, Function.update_idem] at this
      exact this

/-! ### areas -/

/-- Helper of the proofs: saving an area up to the regulatory elements. -/
def arHead (d : ArD) (H : List Obj) : S Unit := do
  emit (.num d.id)
  emit (.attrs d.attrs)
  emit (.size d.inner.length)
  d.inner.forM (saveLss H)
  saveLss H d.outer
  emit (.size d.regs.length)

theorem saveRec_ar {a : Addr} {d : ArD} (ho : H[a]? = some (.ar d)) :
    saveRec H (.ar a) = (track a >>= fun b => if b then (arHead d H >>= fun _ => d.regs.forM (saveReg H)) else pure ()) := by
  rw [saveRec]
  simp only [ho]
  refine bind_congr fun b => ?_
  split
  · unfold arHead
    simp only [bind_assoc]
    have : (fun r => match r with | some r => saveRec H (.re r) | none => throw .ub) = saveReg H := by
      funext r
      cases r <;> rfl
    rw [← this]
    rfl
  · rfl

/-- Helper of the proofs: loading an area up to the regulatory elements. -/
def arHeadLoad : L ArD := do
  let id ← getNum
  let attrs ← getAttrs
  let inner ← getSize >>= fun n => (List.range n).mapM fun _ => loadLss
  let outer ← loadLss
  let n ← getSize
  return { id := id, attrs := attrs, inner := inner, outer := outer, regs := List.replicate n none }

theorem loadRec_ar : loadRec accepts .ar = (enter >>= fun x => if x.2 then
    (arHeadLoad >>= fun d => put x.1 (.ar d) >>= fun _ => regsLoad accepts x.1 d.regs.length) >>= fun _ => pure x.1 else pure x.1) := by
  rw [loadRec]
  unfold arHeadLoad regsLoad
  simp only [bind_assoc, pure_bind, List.length_replicate]

theorem RT_arHead {s : SaveSt} {d : ArD} (hV : ∀ a o, V a → H[a]? = some o → o.Typed H ∧ ∀ c ∈ o.pointers, V c) {a : Addr} (va : V a) (ho : H[a]? = some (.ar d)) :
    RT H V (arHead d H) (fun _ => arHeadLoad)
      (fun φ => { id := d.id, attrs := d.attrs, inner := d.inner.map (List.map fun h => (h.1, φ h.2)), outer := d.outer.map fun h => (h.1, φ h.2), regs := List.replicate d.regs.length none })
      (d.inner.flatten.map (·.2) ++ d.outer.map (·.2)) s := by
  obtain ⟨ht, hp⟩ := hV a _ va ho
  have e : arHead d H = (emit (.num d.id) >>= fun _ => emit (.attrs d.attrs) >>= fun _ => (emit (.size d.inner.length) >>= fun _ => d.inner.forM (saveLss H)) >>= fun _ =>
      saveLss H d.outer >>= fun _ => emit (.size d.regs.length)) := by
    unfold arHead
    simp only [bind_assoc]
  rw [e]
  refine RT_bind (t := []) (t' := d.inner.flatten.map (·.2) ++ d.outer.map (·.2)) (RT_num _) fun _ _ =>
    RT_bind (t := []) (t' := d.inner.flatten.map (·.2) ++ d.outer.map (·.2)) (RT_attrs _) fun _ _ =>
    RT_bind (t := d.inner.flatten.map (·.2)) (t' := d.outer.map (·.2)) (v := fun φ => d.inner.map (List.map fun h => (h.1, φ h.2))) ?_ fun _ _ =>
    RT_congr (RT_bind (t := d.outer.map (·.2)) (t' := []) (k := fun φ outer => getSize >>= fun n => pure (ArD.mk d.id d.attrs (d.inner.map (List.map fun h => (h.1, φ h.2))) outer
      (List.replicate n none))) (RT_lss hV (fun h hh => hp _ ?_) ht.2.1) fun _ _ =>
    RT_map (t := []) (fun φ n => ArD.mk d.id d.attrs (d.inner.map (List.map fun h => (h.1, φ h.2))) (d.outer.map fun h => (h.1, φ h.2)) (List.replicate n none)) (RT_size _)) (fun _ => rfl) (by intro c hc; simpa using hc)
  · refine RT_congr (RT_list (saveLss H) loadLss (fun l φ => l.map fun h => (h.1, φ h.2)) (fun l => l.map (·.2)) d.inner _ fun l hl s' _ =>
      RT_lss hV (fun h hh => hp _ ?_) (fun h hh => ht.1 l hl h hh)) (fun _ => rfl) ?_
    · simp only [Obj.pointers, List.mem_append, List.mem_map, List.mem_flatten]
      exact .inl (.inl ⟨h, ⟨l, hl, hh⟩, rfl⟩)
    · intro c hc
      obtain ⟨h, h1, h2⟩ := List.mem_map.mp hc
      obtain ⟨l, h3, h4⟩ := List.mem_flatten.mp h1
      exact List.mem_flatMap.mpr ⟨l, h3, List.mem_map.mpr ⟨h, h4, h2⟩⟩
  · simp only [Obj.pointers, List.mem_append, List.mem_map]
    exact .inl (.inr ⟨h, hh, rfl⟩)

theorem body_ar (hV : ∀ a o, V a → H[a]? = some o → o.Typed H ∧ ∀ c ∈ o.pointers, V c)
    (huniq : ∀ r r' d d', V r → V r' → H[r]? = some (.re d) → H[r']? = some (.re d') → d.id = d'.id → r = r') {a : Addr} {d : ArD} (va : V a) (ho : H[a]? = some (.ar d))
    (s1 : SaveSt) (ha : a ∈ s1.table) (hre : ∀ r d', V r → H[r]? = some (.re d') → ∀ s', s1.table <+: s'.table → RTre H V accepts r d' s') :
    Body H V a (.ar d) (arHead d H >>= fun _ => d.regs.forM (saveReg H)) (fun a => arHeadLoad >>= fun d => put a (.ar d) >>= fun _ => regsLoad accepts a d.regs.length) s1 := by
  intro hs1
  obtain ⟨ht, hp⟩ := hV a _ va ho
  obtain ⟨s2, τ2, a1, a2, a3, a4⟩ := RT_arHead hV va ho hs1
  have hregs : ∀ x ∈ d.regs, ∃ r d', x = some r ∧ H[r]? = some (.re d') ∧ ∀ s', s2.table <+: s'.table → RTre H V accepts r d' s' := by
    intro x hx
    obtain ⟨r, rfl, d', hd'⟩ := ht.2.2 x hx
    exact ⟨r, d', rfl, hd', fun s' hs' => hre r d' (hp r (by
      simp only [Obj.pointers, List.mem_append, List.mem_flatMap]
      exact .inr ⟨_, hx, by simp⟩)) hd' s' (a2.pre.trans hs')⟩
  obtain ⟨s3, τ3, b1, b2, b3, b4⟩ := regs_loop huniq ho d.regs [] s2 (by simp [Obj.regs]) (a2.pre.subset ha) hregs a2.inv
  refine ⟨s3, τ2 ++ τ3, (run_bind a1).trans b1, a2.trans b2, ?_, ?_⟩
  · intro c hc
    simp only [Obj.pointers] at hc
    rcases List.mem_append.mp hc with hc | hc
    · exact b2.pre.subset (a3 c hc)
    · obtain ⟨x, h1, h2⟩ := List.mem_flatMap.mp hc
      cases x with
      | none => simp at h2
      | some r =>
        simp only [Option.toList_some, List.mem_singleton] at h2
        subst h2
        exact b3 c h1
  · intro φ hφ ℓ prog rest halloc hi hinp
    have hφ2 := hφ.prefix b2.pre
    have hidx := table_idx hφ2 (a2.pre.subset ha)
    obtain ⟨ℓ2, e1, e2, e3⟩ := a4 φ hφ2 ℓ prog (τ3 ++ rest) hi (by rw [hinp]; simp)
    have hcon := e3.construct (o := .ar d) a2.inv.nodup hidx ho (by simp) (st := .slots 0) (by simp [Stage.handled]) (List.replicate d.regs.length none)
      (by simp [Obj.regs])
    obtain ⟨ℓ3, f1, f2, f3⟩ := b4 φ hφ _ _ rest (by rw [Function.update_self]; rfl) hcon (by simp only; rw [e2])
    refine ⟨ℓ3, ?_, f2, ?_⟩
    · refine (run_bind e1).trans ?_
      refine (run_bind (show put _ _ _ = pure ((), _) from rfl)).trans ?_
      show regsLoad accepts (φ a) (List.replicate d.regs.length (none : Option Addr)).length _ = _
      unfold regsLoad
      rw [List.length_replicate, List.range_eq_range']
      exact f1
    · have := f3.complete b2.inv (table_idx hφ (b2.pre.subset (a2.pre.subset ha))) ho (by simp) (Function.update_self ..) id (by
        intro l
        simp [Obj.rename, Obj.noCenter, Obj.setRegs])
      rw [modify_none] at this
      simpa only [Function.update_idem] using this

end
end Verif.Bin
