import Verif.Bin.Main

/-!
Regulatory elements, and the induction over nested objects.
-/
namespace Verif.Bin

section
variable {H : List Obj} {V : Addr → Prop} {accepts : String → ReD → Bool}

/-- Helper of the proofs: saving a parameter. -/
def saveParam (H : List Obj) : Param → S Unit
  | .pt a => do emit (.size 0); savePt H a
  | .ls h => do emit (.size 1); saveLs H h
  | .poly h => do emit (.size 2); saveLs H h
  | .ll inv (some a) => do emit (.size 3); emit (.flag inv); saveRec H (.ll a)
  | .ar (some a) => do emit (.size 4); saveRec H (.ar a)
  | _ => throw .expired

/-- Helper of the proofs: saving the parameters of a role. -/
def saveRole (H : List Obj) (x : String × List Param) : S Unit := do
  emit (.str x.1)
  emit (.size x.2.length)
  x.2.forM (saveParam H)

/-- Helper of the proofs: saving the data of a regulatory element. -/
def saveReD (H : List Obj) (d : ReD) : S Unit := do
  emit (.num d.id)
  emit (.attrs d.attrs)
  emit (.size d.params.length)
  d.params.forM (saveRole H)

theorem saveRec_re {a : Addr} {d : ReD} (ho : H[a]? = some (.re d)) :
    saveRec H (.re a) = (emit (.num d.id) >>= fun _ => get >>= fun s => if d.id ∈ s.ids then pure () else
      (modify fun s => { s with ids := s.ids ++ [d.id] }) >>= fun _ => track a >>= fun b => if b then saveReD H d else pure ()) := by
  rw [saveRec]
  simp only [ho]
  refine bind_congr fun _ => bind_congr fun s => ?_
  split
  · rfl
  · refine bind_congr fun _ => bind_congr fun b => ?_
    split
    · unfold saveReD
      refine bind_congr fun _ => bind_congr fun _ => bind_congr fun _ => ?_
      refine congrArg (fun f => d.params.forM f) (funext fun x => ?_)
      unfold saveRole
      refine bind_congr fun _ => bind_congr fun _ => ?_
      refine congrArg (fun f => x.2.forM f) (funext fun p => ?_)
      cases p with
      | pt a => rfl
      | ls h => rfl
      | poly h => rfl
      | ll inv a => cases a <;> rfl
      | ar a => cases a <;> rfl
    · rfl

/-- Helper of the proofs: loading a parameter. -/
def loadParam (accepts : String → ReD → Bool) : Nat → L Param
  | 0 => do let a ← loadPt; return Param.pt a
  | 1 => do let h ← loadLs; return Param.ls h
  | 2 => do let h ← loadLs; return Param.poly h
  | 3 => do let inv ← getFlag; let a ← loadRec accepts .ll; return Param.ll inv (some a)
  | 4 => do let a ← loadRec accepts .ar; return Param.ar (some a)
  | _ => throw .archive

/-- Helper of the proofs: loading the parameters of a role. -/
def loadRole (accepts : String → ReD → Bool) : L (String × List Param) := do
  let role ← getStr
  let ps ← getSize >>= fun k => (List.range k).mapM fun _ => getSize >>= loadParam accepts
  return (role, ps)

/-- Helper of the proofs: loading the data of a regulatory element. -/
def loadReD (accepts : String → ReD → Bool) : L ReD := do
  let id ← getNum
  let attrs ← getAttrs
  let params ← getSize >>= fun n => (List.range n).mapM fun _ => loadRole accepts
  return { id := id, attrs := attrs, params := params }

/-- what happens after the data was loaded -/
def createRe (accepts : String → ReD → Bool) (σ : Slot) (a : Addr) : L Addr := do
  match (← get).objs[a]? with
  | some (some (.re d)) => do
    if accepts (created d).1 (created d).2 then
      if d.id ∈ (← get).entered then
        put a (.re (created d).2)
        modify fun s => s.setSlot σ a
        modify fun s => s.finish d.id a
      else throw .ub
    else throw .invalid
  | _ => throw .ub
  return 0

/-- Helper of the proofs: the slot is complete. -/
def known (σ : Slot) (id : Int) (s : LoadSt) : L Addr := do
  match s.done id with
  | some v => modify fun s => s.setSlot σ v
  | none => modify fun s => s.wait id σ
  return 0

theorem loadRec_re (σ : Slot) : loadRec accepts (.re σ) = (getNum >>= fun id => get >>= fun s => if id ∈ s.entered then known σ id s else
    (modify fun s => { s with entered := s.entered ++ [id] }) >>= fun _ => enter >>= fun x =>
      if x.2 then (loadReD accepts >>= fun d => put x.1 (.re d)) >>= fun _ => createRe accepts σ x.1 else createRe accepts σ x.1) := by
  rw [loadRec]
  refine bind_congr fun id => bind_congr fun s => ?_
  split
  · rfl
  · refine bind_congr fun _ => bind_congr fun x => ?_
    obtain ⟨a, new⟩ := x
    cases new
    · rfl
    · unfold loadReD loadRole
      simp only [bind_assoc, pure_bind, if_true]
      refine bind_congr fun id => bind_congr fun attrs => bind_congr fun n => ?_
      refine congrArg (fun f : L (List (String × List Param)) => f >>= _) ?_
      refine congrArg (fun f => List.mapM f (List.range n)) (funext fun _ => ?_)
      refine bind_congr fun role => bind_congr fun k => ?_
      refine congrArg (fun f : L (List Param) => f >>= _) ?_
      refine congrArg (fun f => List.mapM f (List.range k)) (funext fun _ => ?_)
      refine bind_congr fun c => ?_
      match c with
      | 0 => rfl
      | 1 => rfl
      | 2 => rfl
      | 3 => rfl
      | 4 => rfl
      | _ + 5 => rfl

theorem RT_param {s : SaveSt} (hV : ∀ a o, V a → H[a]? = some o → o.Typed H ∧ ∀ c ∈ o.pointers, V c) {p : Param} (ht : p.Typed H) (hp : ∀ c ∈ p.pointers, V c)
    (hll : ∀ a s', V a → IsLl H a → s.table <+: s'.table → RT H V (saveRec H (.ll a)) (fun _ => loadRec accepts .ll) (fun φ => φ a) [a] s')
    (har : ∀ a s', V a → IsAr H a → s.table <+: s'.table → RT H V (saveRec H (.ar a)) (fun _ => loadRec accepts .ar) (fun φ => φ a) [a] s') :
    RT H V (saveParam H p) (fun _ => getSize >>= loadParam accepts) (fun φ => p.rename φ) p.pointers s := by
  cases p with
  | pt a =>
    exact RT_bind (t := []) (t' := [a]) (k := fun _ => loadParam accepts) (RT_size 0) fun _ _ =>
      RT_map (fun _ a => Param.pt a) (RT_pt (hp a (by simp [Param.pointers])) ht)
  | ls h =>
    exact RT_bind (t := []) (t' := [h.2]) (k := fun _ => loadParam accepts) (RT_size 1) fun _ _ =>
      RT_map (fun _ a => Param.ls a) (RT_ls hV (hp _ (by simp [Param.pointers])) ht)
  | poly h =>
    exact RT_bind (t := []) (t' := [h.2]) (k := fun _ => loadParam accepts) (RT_size 2) fun _ _ =>
      RT_map (fun _ a => Param.poly a) (RT_ls hV (hp _ (by simp [Param.pointers])) ht)
  | ll inv a =>
    obtain ⟨b, rfl, hb⟩ := ht
    exact RT_bind (t := []) (t' := [b]) (k := fun _ => loadParam accepts) (RT_size 3) fun s' hs' =>
      RT_bind (t := []) (t' := [b]) (k := fun _ inv => (loadRec accepts .ll >>= fun a => pure (Param.ll inv (some a)) : L Param)) (RT_flag inv) fun s'' hs'' =>
      RT_map (fun _ a => Param.ll inv (some a)) (hll b s'' (hp b (by simp [Param.pointers])) hb (hs'.trans hs''))
  | ar a =>
    obtain ⟨b, rfl, hb⟩ := ht
    exact RT_bind (t := []) (t' := [b]) (k := fun _ => loadParam accepts) (RT_size 4) fun s' hs' =>
      RT_map (fun _ a => Param.ar (some a)) (har b s' (hp b (by simp [Param.pointers])) hb hs')

theorem RT_reD {s : SaveSt} (hV : ∀ a o, V a → H[a]? = some o → o.Typed H ∧ ∀ c ∈ o.pointers, V c) {r : Addr} {d : ReD} (vr : V r) (ho : H[r]? = some (.re d))
    (hll : ∀ a s', V a → IsLl H a → s.table <+: s'.table → RT H V (saveRec H (.ll a)) (fun _ => loadRec accepts .ll) (fun φ => φ a) [a] s')
    (har : ∀ a s', V a → IsAr H a → s.table <+: s'.table → RT H V (saveRec H (.ar a)) (fun _ => loadRec accepts .ar) (fun φ => φ a) [a] s') :
    RT H V (saveReD H d) (fun _ => loadReD accepts) (fun φ => d.rename φ) (Obj.re d).pointers s := by
  obtain ⟨ht, hp⟩ := hV r _ vr ho
  refine RT_bind (t := []) (t' := (Obj.re d).pointers) (RT_num _) fun s1 h1 => RT_bind (t := []) (t' := (Obj.re d).pointers) (RT_attrs _) fun s2 h2 =>
    RT_map (fun _ params => ReD.mk d.id d.attrs params) (v := fun φ => d.params.map fun x => (x.1, x.2.map (Param.rename φ))) ?_
  refine RT_list (saveRole H) (loadRole accepts) (fun x φ => (x.1, x.2.map (Param.rename φ))) (fun x => x.2.flatMap Param.pointers) d.params s2 ?_
  intro x hx s3 h3
  refine RT_bind (t := []) (t' := x.2.flatMap Param.pointers) (RT_str _) fun s4 h4 =>
    RT_map (fun _ ps => (x.1, ps)) (v := fun φ => x.2.map (Param.rename φ)) ?_
  refine RT_list (saveParam H) (getSize >>= loadParam accepts) (fun p φ => p.rename φ) Param.pointers x.2 s4 ?_
  intro p hp' s5 h5
  have hpre : s.table <+: s5.table := h1.trans (h2.trans (h3.trans (h4.trans h5)))
  refine RT_param hV (ht x hx p hp') (fun c hc => hp c ?_) (fun a s' h1 h2 h3 => hll a s' h1 h2 (hpre.trans h3)) (fun a s' h1 h2 h3 => har a s' h1 h2 (hpre.trans h3))
  simp only [Obj.pointers, List.mem_flatMap]
  exact ⟨x, hx, p, hp', hc⟩

theorem lookup_setAttr {k v : String} : ∀ {l : Attrs}, lookup k l = some v → setAttr k v l = l := by
  intro l
  induction l with
  | nil => intro h; cases h
  | cons x l ih =>
    obtain ⟨k', v'⟩ := x
    intro h
    unfold lookup at h
    unfold setAttr
    split at h
    · rename_i hk
      rw [if_pos hk]
      simp only [Option.some.injEq] at h
      rw [h, hk]
    · rename_i hk
      rw [if_neg hk, ih h]

theorem created_eq {d : ReD} {name : String} (h : lookup "subtype" d.attrs = some name) (hn : name ≠ "") : created d = (name, d) := by
  unfold created
  simp only [h, Option.getD_some, if_neg hn]
  rw [lookup_setAttr h]

theorem createRe_run {σ : Slot} {a : Addr} {ℓ : LoadSt} {d : ReD} (hobj : ℓ.objs[a]? = some (some (.re d))) {name : String} (h : lookup "subtype" d.attrs = some name)
    (hn : name ≠ "") (hacc : accepts name d = true) (hent : d.id ∈ ℓ.entered) : createRe accepts σ a ℓ = pure (0, (ℓ.finish d.id a).setSlot σ a) := by
  unfold createRe
  refine (run_bind (show (get : L LoadSt) ℓ = pure (ℓ, ℓ) from rfl)).trans ?_
  simp only [hobj, created_eq h hn, hacc, if_true]
  refine (run_bind (show (get : L LoadSt) ℓ = pure (ℓ, ℓ) from rfl)).trans ?_
  rw [if_pos hent]
  have hput : put a (.re d) ℓ = pure ((), ℓ) := by
    have : ({ ℓ with objs := ℓ.objs.set a (some (.re d)) } : LoadSt) = ℓ := by
      have : ℓ.objs.set a (some (.re d)) = ℓ.objs := by
        apply List.ext_getElem?
        intro k
        by_cases hk : a = k
        · subst hk
          rw [List.getElem?_set_self (List.getElem?_eq_some_iff.mp hobj).1, hobj]
        · rw [List.getElem?_set_ne hk]
      rw [this]
    exact congrArg (fun x => (pure ((), x) : M (Unit × LoadSt))) this
  refine (run_bind hput).trans ?_
  rw [← finish_setSlot]
  rfl

theorem RTre_of {s : SaveSt} (hV : ∀ a o, V a → H[a]? = some o → o.Typed H ∧ ∀ c ∈ o.pointers, V c)
    (huniq : ∀ r r' d d', V r → V r' → H[r]? = some (.re d) → H[r']? = some (.re d') → d.id = d'.id → r = r')
    (hknown : ∀ r d, V r → H[r]? = some (.re d) → ∃ name, lookup "subtype" d.attrs = some name ∧ name ≠ "" ∧ ∀ φ, accepts name (d.rename φ) = true)
    {r : Addr} {d : ReD} (vr : V r) (ho : H[r]? = some (.re d))
    (hll : ∀ a s', V a → IsLl H a → SInv H V s' → r ∉ s.table → s.table ++ [r] <+: s'.table → RT H V (saveRec H (.ll a)) (fun _ => loadRec accepts .ll) (fun φ => φ a) [a] s')
    (har : ∀ a s', V a → IsAr H a → SInv H V s' → r ∉ s.table → s.table ++ [r] <+: s'.table → RT H V (saveRec H (.ar a)) (fun _ => loadRec accepts .ar) (fun φ => φ a) [a] s') :
    RTre H V accepts r d s := by
  intro hs
  rw [saveRec_re ho]
  by_cases hid : d.id ∈ s.ids
  · have hr : r ∈ s.table := by
      obtain ⟨r', h1, d', h2, h3⟩ := (hs.ids _).mp hid
      have := huniq r' r d' d (hs.valid r' h1) vr h2 ho h3
      exact this ▸ h1
    refine ⟨{ s with out := s.out ++ [.num d.id] }, [.num d.id], ?_, Saved.emit hs _, hr, ?_⟩
    · refine (run_bind (show emit _ s = pure ((), _) from rfl)).trans ?_
      refine (run_bind (show (get : S SaveSt) _ = pure (_, _) from rfl)).trans ?_
      rw [if_pos hid]
      rfl
    · intro φ hφ ℓ prog rest σ hi hinp
      refine ⟨{ ℓ with inp := rest }, 0, hi.emit _ _ _, rfl, ?_⟩
      rw [loadRec_re]
      have h1 : getNum ℓ = pure (d.id, { ℓ with inp := rest }) := by
        unfold getNum
        rw [run_bind (next_run hinp)]
        rfl
      refine (run_bind h1).trans ?_
      refine (run_bind (show (get : L LoadSt) _ = pure (_, _) from rfl)).trans ?_
      rw [if_pos (by simp only; rw [hi.ent]; exact hid)]
      unfold known
      have hdone := hi.res r d hr ho
      simp only
      by_cases hpr : prog r = .done
      · rw [if_pos hpr] at hdone ⊢
        rw [hdone]
        rfl
      · rw [if_neg hpr] at hdone ⊢
        rw [hdone]
        rfl
  · have hr : r ∉ s.table := fun h => hid ((hs.ids _).mpr ⟨r, h, d, ho, rfl⟩)
    let s1 : SaveSt := { out := s.out ++ [.num d.id] ++ [.oid s.table.length], table := s.table ++ [r], ids := s.ids ++ [d.id] }
    have hs1 : SInv H V s1 := hs.pushRe hr vr ho _
    have hRT : RT H V (saveReD H d) (fun _ => loadReD accepts) (fun φ => d.rename φ) (Obj.re d).pointers s1 := by
      refine RT_reD hV vr ho ?_ ?_
      · intro a s' va ha hpre hs'
        exact hll a s' va ha hs' hr hpre hs'
      · intro a s' va ha hpre hs'
        exact har a s' va ha hs' hr hpre hs'
    obtain ⟨s2, τ, b1, b2, b3, b4⟩ := hRT hs1
    have hr2 : r ∈ s2.table := b2.pre.subset (by simp [s1])
    refine ⟨s2, .num d.id :: .oid s.table.length :: τ, ?_, ⟨?_, ?_, b2.inv, ?_⟩, hr2, ?_⟩
    · refine (run_bind (show emit _ s = pure ((), _) from rfl)).trans ?_
      refine (run_bind (show (get : S SaveSt) _ = pure (_, _) from rfl)).trans ?_
      rw [if_neg hid]
      refine (run_bind (show (modify _ : S Unit) _ = pure ((), _) from rfl)).trans ?_
      refine (run_bind (track_new (s := { out := s.out ++ [.num d.id], table := s.table, ids := s.ids ++ [d.id] }) hr)).trans ?_
      exact b1
    · rw [b2.out]; simp [s1]
    · exact (List.prefix_append _ _).trans b2.pre
    · intro b hb'
      rcases b2.closed b hb' with h | h
      · rcases List.mem_append.mp h with h | h
        · exact .inl h
        · simp only [List.mem_singleton] at h
          subst h
          refine .inr fun o' ho' c hc => ?_
          rw [ho] at ho'
          cases ho'
          exact b3 c hc
      · exact .inr h
    · intro φ hφ ℓ prog rest σ hi hinp
      have hφr : φ r = s.table.length := (hφ.prefix b2.pre) s.table.length r (by simp [s1])
      have hpush := hi.push hr ho s1.out (τ ++ rest) (s.ids ++ [d.id]) (fun _ h => by simp [h]) (fun d' h => by cases h; exact hid)
      obtain ⟨ℓ2, c1, c2, c3⟩ := b4 φ hφ _ _ rest hpush rfl
      have hidx := table_idx hφ hr2
      have hlt : φ r < ℓ2.objs.length := by rw [c3.len]; exact (List.getElem?_eq_some_iff.mp hidx).1
      have hfin := c3.finish b2.inv huniq hidx ho rfl (Function.update_self ..)
      obtain ⟨name, n1, n2, n3⟩ := hknown r d vr ho
      rw [Function.update_idem] at hfin
      have hupd : Function.update prog r .done = prog := by
        rw [← hi.fresh r hr]
        exact Function.update_eq_self ..
      rw [hupd] at hfin
      refine ⟨_, 0, hfin, ?_, ?_⟩
      · exact ((fill_same (φ r) _ _).2.1).trans c2
      rw [if_pos (hi.fresh r hr), loadRec_re]
      have h1 : getNum ℓ = pure (d.id, { ℓ with inp := .oid s.table.length :: (τ ++ rest) }) := by
        unfold getNum
        rw [run_bind (next_run hinp)]
        rfl
      refine (run_bind h1).trans ?_
      refine (run_bind (show (get : L LoadSt) _ = pure (_, _) from rfl)).trans ?_
      rw [if_neg (by simp only; rw [hi.ent]; exact hid)]
      refine (run_bind (show (modify _ : L Unit) _ = pure ((), _) from rfl)).trans ?_
      refine (run_bind (enter_new (n := s.table.length) (rest := τ ++ rest) rfl (by simp only; rw [hi.len]; simp))).trans ?_
      simp only [if_true]
      rw [hi.len, ← hφr, hi.ent]
      have h2 : (loadReD accepts >>= fun d => put (φ r) (.re d)) { ℓ with inp := τ ++ rest, objs := ℓ.objs ++ [none], entered := s.ids ++ [d.id] } =
          pure ((), { ℓ2 with objs := ℓ2.objs.set (φ r) (some (.re (d.rename φ))) }) := run_bind c1
      refine (run_bind h2).trans ?_
      refine createRe_run (d := d.rename φ) ?_ n1 n2 (n3 φ) ?_
      · simp only
        rw [List.getElem?_set_self hlt]
      · simp only
        rw [c3.ent]
        exact (b2.inv.ids _).mpr ⟨r, hr2, d, ho, rfl⟩

/-- everything that can be nested -/
theorem rec_main (hV : ∀ a, V a → ∃ o, H[a]? = some o ∧ o.Typed H ∧ ∀ c ∈ o.pointers, V c)
    (huniq : ∀ r r' d d', V r → V r' → H[r]? = some (.re d) → H[r']? = some (.re d') → d.id = d'.id → r = r')
    (hknown : ∀ r d, V r → H[r]? = some (.re d) → ∃ name, lookup "subtype" d.attrs = some name ∧ name ≠ "" ∧ ∀ φ, accepts name (d.rename φ) = true) :
    ∀ (n : Nat) (s : SaveSt), H.length < s.table.length + n →
      (∀ a, V a → IsLl H a → RT H V (saveRec H (.ll a)) (fun _ => loadRec accepts .ll) (fun φ => φ a) [a] s) ∧
      (∀ a, V a → IsAr H a → RT H V (saveRec H (.ar a)) (fun _ => loadRec accepts .ar) (fun φ => φ a) [a] s) ∧
      ∀ r d, V r → H[r]? = some (.re d) → RTre H V accepts r d s := by
  have hV1 : ∀ a o, V a → H[a]? = some o → o.Typed H ∧ ∀ c ∈ o.pointers, V c := by
    intro a o va ho
    obtain ⟨o', h1, h2⟩ := hV a va
    rw [ho] at h1
    cases h1
    exact h2
  have hV2 : ∀ a, V a → ∃ o, H[a]? = some o := fun a va => let ⟨o, h, _⟩ := hV a va; ⟨o, h⟩
  intro n
  induction n with
  | zero =>
    intro s hn
    have : ¬ SInv H V s := fun hs => by
      have := table_le hs hV2
      omega
    exact ⟨fun _ _ _ hs => absurd hs this, fun _ _ _ hs => absurd hs this, fun _ _ _ _ hs => absurd hs this⟩
  | succ n ih =>
    intro s hn
    have hstep : ∀ (a : Addr) (s' : SaveSt), s.table ++ [a] <+: s'.table → H.length < s'.table.length + n := by
      intro a s' h
      have := h.length_le
      simp only [List.length_append, List.length_singleton] at this
      omega
    refine ⟨?_, ?_, ?_⟩
    · rintro a va ⟨d, ho⟩
      rw [saveRec_ll ho, loadRec_ll]
      refine RT_ptr va ho (by simp) _ (fun a => llHeadLoad >>= fun d => put a (.ll d) >>= fun _ => regsLoad accepts a d.regs.length >>= fun _ => centerLoad >>= applyCenter a) ?_
      intro s1 ha hs1
      refine body_ll hV1 huniq va ho s1 (by rw [hs1]; simp) ?_
      intro r d' vr hd' s' hs'
      rw [hs1] at hs'
      exact (ih s' (hstep a s' hs')).2.2 r d' vr hd'
    · rintro a va ⟨d, ho⟩
      rw [saveRec_ar ho, loadRec_ar]
      refine RT_ptr va ho (by simp) _ (fun a => arHeadLoad >>= fun d => put a (.ar d) >>= fun _ => regsLoad accepts a d.regs.length) ?_
      intro s1 ha hs1
      refine body_ar hV1 huniq va ho s1 (by rw [hs1]; simp) ?_
      intro r d' vr hd' s' hs'
      rw [hs1] at hs'
      exact (ih s' (hstep a s' hs')).2.2 r d' vr hd'
    · intro r d vr ho
      refine RTre_of hV1 huniq hknown vr ho ?_ ?_
      · intro a s' va ha _ _ hpre
        exact (ih s' (hstep r s' hpre)).1 a va ha
      · intro a s' va ha _ _ hpre
        exact (ih s' (hstep r s' hpre)).2.1 a va ha

end
end Verif.Bin
