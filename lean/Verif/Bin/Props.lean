import Verif.Bin.Regs
import Verif.Bin.Eval

/-!
C39: the binary format.
-/
namespace Verif.Bin

section
variable {H : List Obj} {V : Addr → Prop} {accepts : String → ReD → Bool}

/-! ### layers -/

/-- as RT, outside of all objects -/
def RT0 {α : Type} (H : List Obj) (V : Addr → Prop) (f : S Unit) (g : (Addr → Addr) → L α) (v : (Addr → Addr) → α) (t : List Addr) (s : SaveSt) : Prop :=
  SInv H V s → ∃ s' τ, f s = pure ((), s') ∧ Saved H V s s' τ ∧ (∀ c ∈ t, c ∈ s'.table) ∧ ∀ φ, Compat φ s'.table →
    ∀ ℓ rest, Inv H φ s (fun _ => .done) ℓ → ℓ.inp = τ ++ rest → ∃ ℓ', g φ ℓ = pure (v φ, ℓ') ∧ ℓ'.inp = rest ∧ Inv H φ s' (fun _ => .done) ℓ'

theorem RT.top {α : Type} {f : S Unit} {g : (Addr → Addr) → L α} {v : (Addr → Addr) → α} {t : List Addr} {s : SaveSt} (h : RT H V f g v t s) : RT0 H V f g v t s := by
  intro hs
  obtain ⟨s', τ, a1, a2, a3, a4⟩ := h hs
  exact ⟨s', τ, a1, a2, a3, fun φ hφ ℓ rest hi hinp => a4 φ hφ ℓ _ rest hi hinp⟩

theorem setRegs_id (o : Obj) (l : List (Option Addr)) : (o.setRegs l).id = o.id := by cases o <;> rfl

theorem rename_id (o : Obj) (φ : Addr → Addr) : (o.rename φ).id = o.id := by cases o <;> rfl

theorem idOf_eq {ℓ : LoadSt} {i : Addr} {o : Obj} (h : ℓ.objs[i]? = some (some o)) : ℓ.idOf i = some o.id := by
  unfold LoadSt.idOf
  rw [h]
  cases o <;> rfl

theorem idOf_inv {φ : Addr → Addr} {s : SaveSt} {ℓ : LoadSt} (hi : Inv H φ s (fun _ => .done) ℓ) (hφ : Compat φ s.table) {a : Addr} (ha : a ∈ s.table) {o : Obj}
    (ho : H[a]? = some o) : ℓ.idOf (φ a) = some o.id := by
  obtain ⟨l, h, -⟩ := hi.obj (φ a) a o (table_idx hφ ha) ho (by simp)
  rw [idOf_eq h, setRegs_id]
  exact congrArg some (rename_id o φ)

/-- the loop of loadLayer -/
def insertAll {α : Type} (elem : L (α × Addr)) (is : List Nat) (acc : List (Int × α)) : L (List (Int × α)) :=
  is.foldlM (fun (acc : List (Int × α)) _ => do
    let (p, a) ← elem
    match (← get).idOf a with
    | some id => return if id ∈ acc.map (·.1) then acc else acc ++ [(id, p)]
    | none => throw .ub) acc

theorem layer_loop {α β : Type} (f : β → S Unit) (elem : L (α × Addr)) (v : β → (Addr → Addr) → α) (ad : β → Addr) (i : β → Int) :
    ∀ (l : List β) (s : SaveSt), (∀ x ∈ l, ∀ s', s.table <+: s'.table → RT0 H V (f x) (fun _ => elem) (fun φ => (v x φ, φ (ad x))) [ad x] s') →
      (∀ x ∈ l, ∃ o, H[ad x]? = some o ∧ o.id = i x) → (l.map i).Nodup → SInv H V s →
      ∃ s' τ, l.forM f s = pure ((), s') ∧ Saved H V s s' τ ∧ (∀ c ∈ l.map ad, c ∈ s'.table) ∧ ∀ φ, Compat φ s'.table → ∀ (ℓ : LoadSt) rest (is : List Nat) (acc : List (Int × α)),
        Inv H φ s (fun _ => .done) ℓ → ℓ.inp = τ ++ rest → is.length = l.length → (∀ x ∈ l, i x ∉ acc.map (·.1)) →
          ∃ ℓ', insertAll elem is acc ℓ = pure (acc ++ l.map (fun x => (i x, v x φ)), ℓ') ∧ ℓ'.inp = rest ∧ Inv H φ s' (fun _ => .done) ℓ' := by
  intro l
  induction l with
  | nil =>
    intro s _ _ _ hs
    refine ⟨s, [], rfl, Saved.refl hs, by simp, ?_⟩
    intro φ _ ℓ rest is acc hi hinp his _
    have : is = [] := by simpa using his
    subst this
    exact ⟨ℓ, by simp [insertAll]; rfl, by simpa using hinp, hi⟩
  | cons x l ih =>
    intro s h hids hnd hs
    obtain ⟨s1, τ1, a1, a2, a3, a4⟩ := h x (by simp) s List.prefix_rfl hs
    simp only [List.map_cons, List.nodup_cons] at hnd
    obtain ⟨s2, τ2, b1, b2, b3, b4⟩ := ih s1 (fun y hy s' hs' => h y (by simp [hy]) s' (a2.pre.trans hs')) (fun y hy => hids y (by simp [hy])) hnd.2 a2.inv
    refine ⟨s2, τ1 ++ τ2, (run_bind a1).trans b1, a2.trans b2, ?_, ?_⟩
    · intro c hc
      simp only [List.map_cons, List.mem_cons] at hc
      rcases hc with rfl | hc
      · exact b2.pre.subset (a3 _ (by simp))
      · exact b3 c hc
    · intro φ hφ ℓ rest is acc hi hinp his hacc
      match is, his with
      | j :: is, his =>
        have hφ1 := hφ.prefix b2.pre
        obtain ⟨ℓ1, c1, c2, c3⟩ := a4 φ hφ1 ℓ (τ2 ++ rest) hi (by rw [hinp, List.append_assoc])
        obtain ⟨o, ho, hoid⟩ := hids x (by simp)
        have hid := idOf_inv c3 hφ1 (a3 _ (by simp)) ho
        obtain ⟨ℓ2, d1, d2, d3⟩ := b4 φ hφ ℓ1 rest is (acc ++ [(i x, v x φ)]) c3 c2 (by simpa using his) (by
          intro y hy
          simp only [List.map_append, List.mem_append, List.map_cons, List.map_nil, List.mem_singleton, not_or]
          refine ⟨hacc y (by simp [hy]), ?_⟩
          intro heq
          exact hnd.1 (List.mem_map.mpr ⟨y, hy, heq⟩))
        refine ⟨ℓ2, ?_, d2, d3⟩
        unfold insertAll
        rw [List.foldlM_cons]
        have hstep : (do
            let (p, a) ← elem
            match (← get).idOf a with
            | some id => return if id ∈ acc.map (·.1) then acc else acc ++ [(id, p)]
            | none => throw .ub : L (List (Int × α))) ℓ = pure (acc ++ [(i x, v x φ)], ℓ1) := by
          refine (run_bind c1).trans ?_
          simp only
          refine (run_bind (show (get : L LoadSt) ℓ1 = pure (ℓ1, ℓ1) from rfl)).trans ?_
          rw [hid, hoid]
          simp only
          rw [if_neg (hacc x (by simp))]
          rfl
        refine (run_bind hstep).trans ?_
        have e : acc ++ (x :: l).map (fun x => (i x, v x φ)) = acc ++ [(i x, v x φ)] ++ l.map (fun x => (i x, v x φ)) := by simp
        rw [e]
        exact d1

theorem RT0_layer {α β : Type} (f : β → S Unit) (elem : L (α × Addr)) (v : β → (Addr → Addr) → α) (ad : β → Addr) (l : List β) (s : SaveSt)
    (h : ∀ x ∈ l, ∀ s', s.table <+: s'.table → RT0 H V (f x) (fun _ => elem) (fun φ => (v x φ, φ (ad x))) [ad x] s') (hids : ∀ x ∈ l, ∃ o, H[ad x]? = some o)
    (hnd : (l.map fun x => (H[ad x]?).map Obj.id).Nodup) :
    RT0 H V (emit (.size l.length) >>= fun _ => l.forM f) (fun _ => loadLayer elem) (fun φ => l.map fun x => v x φ) (l.map ad) s := by
  intro hs
  obtain ⟨s1, τ1, a1, a2, a3, a4⟩ := RT_size (H := H) (V := V) (s := s) l.length hs
  let i : β → Int := fun x => ((H[ad x]?).map Obj.id).getD 0
  have hi' : ∀ x ∈ l, ∃ o, H[ad x]? = some o ∧ o.id = i x := by
    intro x hx
    obtain ⟨o, ho⟩ := hids x hx
    exact ⟨o, ho, by simp [i, ho]⟩
  have hnd' : (l.map i).Nodup := by
    have e : (l.map fun x => (H[ad x]?).map Obj.id) = (l.map i).map some := by
      rw [List.map_map]
      apply List.map_congr_left
      intro x hx
      obtain ⟨o, ho⟩ := hids x hx
      simp [i, ho]
    rw [e] at hnd
    exact hnd.of_map
  obtain ⟨s2, τ2, b1, b2, b3, b4⟩ := layer_loop f elem v ad i l s1 (fun x hx s' hs' => h x hx s' (a2.pre.trans hs')) hi' hnd' a2.inv
  refine ⟨s2, τ1 ++ τ2, (run_bind a1).trans b1, a2.trans b2, b3, ?_⟩
  intro φ hφ ℓ rest hi hinp
  obtain ⟨ℓ1, c1, c2, c3⟩ := a4 φ (hφ.prefix b2.pre) ℓ _ (τ2 ++ rest) hi (by rw [hinp, List.append_assoc])
  obtain ⟨ℓ2, d1, d2, d3⟩ := b4 φ hφ ℓ1 rest (List.range l.length) [] c3 c2 (by simp) (by simp)
  refine ⟨ℓ2, ?_, d2, d3⟩
  unfold loadLayer
  refine (run_bind c1).trans ?_
  refine (run_bind d1).trans ?_
  simp
  rfl

theorem RT0_bind {α β : Type} {s : SaveSt} {f f' : S Unit} {g : (Addr → Addr) → L α} {v : (Addr → Addr) → α} {t t' : List Addr} {k : (Addr → Addr) → α → L β}
    {w : (Addr → Addr) → β} (h1 : RT0 H V f g v t s) (h2 : ∀ s', s.table <+: s'.table → RT0 H V f' (fun φ => k φ (v φ)) w t' s') :
    RT0 H V (f >>= fun _ => f') (fun φ => g φ >>= k φ) w (t ++ t') s := by
  intro hs
  obtain ⟨s1, τ1, a1, a2, a3, a4⟩ := h1 hs
  obtain ⟨s2, τ2, b1, b2, b3, b4⟩ := h2 s1 a2.pre a2.inv
  refine ⟨s2, τ1 ++ τ2, (run_bind a1).trans b1, a2.trans b2, ?_, ?_⟩
  · intro c hc
    rcases List.mem_append.mp hc with hc | hc
    · exact b2.pre.subset (a3 c hc)
    · exact b3 c hc
  · intro φ hφ ℓ rest hi hinp
    obtain ⟨ℓ1, c1, c2, c3⟩ := a4 φ (hφ.prefix b2.pre) ℓ (τ2 ++ rest) hi (by rw [hinp, List.append_assoc])
    obtain ⟨ℓ2, d1, d2, d3⟩ := b4 φ hφ ℓ1 rest c3 c2
    exact ⟨ℓ2, (run_bind c1).trans d1, d2, d3⟩

theorem RT0_map {α β : Type} {s : SaveSt} {f : S Unit} {g : (Addr → Addr) → L α} {v : (Addr → Addr) → α} {t : List Addr} (h : (Addr → Addr) → α → β) (h1 : RT0 H V f g v t s) :
    RT0 H V f (fun φ => g φ >>= fun x => pure (h φ x)) (fun φ => h φ (v φ)) t s := by
  intro hs
  obtain ⟨s1, τ1, a1, a2, a3, a4⟩ := h1 hs
  refine ⟨s1, τ1, a1, a2, a3, ?_⟩
  intro φ hφ ℓ rest hi hinp
  obtain ⟨ℓ1, c1, c2, c3⟩ := a4 φ hφ ℓ rest hi hinp
  exact ⟨ℓ1, run_bind c1, c2, c3⟩

/-- the loop body of the layer of regulatory elements -/
def loadTop (accepts : String → ReD → Bool) : L (Addr × Addr) := do
  modify fun s => { s with top := none }
  let _ ← loadRec accepts (.re none)
  match (← get).top with
  | some a => return (a, a)
  | none => throw .ub

theorem RT0_re {s : SaveSt} {r : Addr} {d : ReD} (h : RTre H V accepts r d s) : RT0 H V (saveRec H (.re r)) (fun _ => loadTop accepts) (fun φ => (φ r, φ r)) [r] s := by
  intro hs
  obtain ⟨s', τ, a1, a2, a3, a4⟩ := h hs
  refine ⟨s', τ, a1, a2, by simpa using a3, ?_⟩
  intro φ hφ ℓ rest hi hinp
  obtain ⟨ℓ1, x, b1, b2, b3⟩ := a4 φ hφ { ℓ with top := none } _ rest none (hi.emit _ ℓ.inp none) hinp
  rw [if_pos rfl] at b3
  refine ⟨ℓ1.setSlot none (φ r), ?_, b2, b1.emit s'.out ℓ1.inp (some (φ r))⟩
  unfold loadTop
  refine (run_bind (show (modify _ : L Unit) ℓ = pure ((), { ℓ with top := none }) from rfl)).trans ?_
  exact (run_bind b3).trans rfl

/-! ### maps -/

theorem saveMap_run {m : Layers} (hv : Valid accepts H m) : RT0 H (Reach H m) (saveMap H m) (fun _ => loadMap accepts) (fun φ => m.rename φ) m.pointers {} := by
  have hV : ∀ a, Reach H m a → ∃ o, H[a]? = some o ∧ o.Typed H ∧ ∀ c ∈ o.pointers, Reach H m c := by
    intro a ha
    obtain ⟨o, h1, h2⟩ := hv.typed a ha
    exact ⟨o, h1, h2, fun c hc => .step ha h1 hc⟩
  have hV1 : ∀ a o, Reach H m a → H[a]? = some o → o.Typed H ∧ ∀ c ∈ o.pointers, Reach H m c := by
    intro a o va ho
    obtain ⟨o', h1, h2⟩ := hV a va
    rw [ho] at h1
    cases h1
    exact h2
  have hrec := fun s => rec_main (accepts := accepts) hV hv.unique hv.known (H.length + 1) s (by omega)
  have hroot : ∀ a ∈ m.pointers, Reach H m a := fun a h => .root h
  have hmem := hroot
  simp only [Layers.pointers, List.mem_append] at hmem
  have e1 : saveMap H m = ((emit (.size m.pts.length) >>= fun _ => m.pts.forM (savePt H)) >>= fun _ => (emit (.size m.lss.length) >>= fun _ => m.lss.forM (saveLs H)) >>= fun _ =>
      (emit (.size m.polys.length) >>= fun _ => m.polys.forM (saveLs H)) >>= fun _ => (emit (.size m.ars.length) >>= fun _ => m.ars.forM fun a => saveRec H (.ar a)) >>= fun _ =>
      (emit (.size m.lls.length) >>= fun _ => m.lls.forM fun l => emit (.flag l.1) >>= fun _ => saveRec H (.ll l.2)) >>= fun _ =>
      (emit (.size m.res.length) >>= fun _ => m.res.forM fun a => saveRec H (.re a))) := by
    unfold saveMap
    simp only [bind_assoc]
  have e2 : m.pointers = m.pts ++ (m.lss.map (·.2) ++ (m.polys.map (·.2) ++ (m.ars ++ (m.lls.map (·.2) ++ m.res)))) := by
    simp [Layers.pointers]
  rw [e1, e2]
  have hids := hv.ids
  simp only [List.mem_cons, List.not_mem_nil, or_false, forall_eq_or_imp, forall_eq, List.map_map] at hids
  obtain ⟨i1, i2, i3, i4, i5, i6⟩ := hids
  refine RT0_bind (t := m.pts) (v := fun φ => m.pts.map φ) ?_ fun _ _ => RT0_bind (t := m.lss.map (·.2)) (v := fun φ => m.lss.map fun h => (h.1, φ h.2)) ?_ fun _ _ =>
    RT0_bind (t := m.polys.map (·.2)) (v := fun φ => m.polys.map fun h => (h.1, φ h.2)) ?_ fun _ _ => RT0_bind (t := m.ars) (v := fun φ => m.ars.map φ) ?_ fun _ _ =>
    RT0_bind (t := m.lls.map (·.2)) (v := fun φ => m.lls.map fun h => (h.1, φ h.2)) ?_ fun _ _ =>
    RT0_map (t := m.res) (v := fun φ => m.res.map φ) (fun φ res => Layers.mk (m.pts.map φ) (m.lss.map fun h => (h.1, φ h.2)) (m.polys.map fun h => (h.1, φ h.2)) (m.ars.map φ)
      (m.lls.map fun h => (h.1, φ h.2)) res) ?_
  · have := RT0_layer (s := {}) (H := H) (V := Reach H m) (savePt H) (loadPt >>= fun a => pure (a, a)) (fun a φ => φ a) id m.pts
      (fun x hx s' _ => (RT_map (fun _ a => (a, a)) (RT_pt (hmem x (by simp [hx])) (hv.pts x hx))).top) (fun x hx => let ⟨id, at', a, b, c, h⟩ := hv.pts x hx; ⟨_, h⟩) i1
    simpa using this
  · exact RT0_layer (saveLs H) (loadLs >>= fun h => pure (h, h.2)) (fun h φ => (h.1, φ h.2)) (·.2) m.lss _
      (fun x hx s' _ => (RT_map (fun _ h => (h, h.2)) (RT_ls hV1 (hroot x.2 (by simp only [Layers.pointers, List.mem_append, List.mem_map]; exact .inl (.inl (.inl (.inl (.inr ⟨x, hx, rfl⟩)))))) (hv.lss x hx))).top)
      (fun x hx => let ⟨id, at', a, h⟩ := hv.lss x hx; ⟨_, h⟩) i2
  · exact RT0_layer (saveLs H) (loadLs >>= fun h => pure (h, h.2)) (fun h φ => (h.1, φ h.2)) (·.2) m.polys _
      (fun x hx s' _ => (RT_map (fun _ h => (h, h.2)) (RT_ls hV1 (hroot x.2 (by simp only [Layers.pointers, List.mem_append, List.mem_map]; exact .inl (.inl (.inl (.inr ⟨x, hx, rfl⟩))))) (hv.polys x hx))).top)
      (fun x hx => let ⟨id, at', a, h⟩ := hv.polys x hx; ⟨_, h⟩) i3
  · have := RT0_layer (H := H) (V := Reach H m) (fun a => saveRec H (.ar a)) (loadRec accepts .ar >>= fun a => pure (a, a)) (fun a φ => φ a) id m.ars ‹_›
      (fun x hx s' _ => (RT_map (fun _ a => (a, a)) ((hrec s').2.1 x (hmem x (by simp [hx])) (hv.ars x hx))).top) (fun x hx => let ⟨d, h⟩ := hv.ars x hx; ⟨_, h⟩) i4
    simpa using this
  · exact RT0_layer (fun l => emit (.flag l.1) >>= fun _ => saveRec H (.ll l.2)) (getFlag >>= fun inv => loadRec accepts .ll >>= fun a => pure ((inv, a), a)) (fun h φ => (h.1, φ h.2)) (·.2) m.lls _
      (fun x hx s' _ => (RT_bind (t := []) (t' := [x.2]) (k := fun _ inv => (loadRec accepts .ll >>= fun a => pure ((inv, a), a) : L ((Bool × Addr) × Addr))) (RT_flag x.1) fun s'' _ =>
        RT_map (fun _ a => ((x.1, a), a)) ((hrec s'').1 x.2 (hroot x.2 (by simp only [Layers.pointers, List.mem_append, List.mem_map]; exact .inl (.inr ⟨x, hx, rfl⟩))) (hv.lls x hx))).top)
      (fun x hx => let ⟨d, h⟩ := hv.lls x hx; ⟨_, h⟩) i5
  · have := RT0_layer (H := H) (V := Reach H m) (fun a => saveRec H (.re a)) (loadTop accepts) (fun a φ => φ a) id m.res ‹_›
      (fun x hx s' _ => let ⟨d, hd⟩ := hv.res x hx; RT0_re ((hrec s').2.2 x d (hmem x (by simp [hx])) hd)) (fun x hx => let ⟨d, h⟩ := hv.res x hx; ⟨_, h⟩) i6
    rw [List.map_id] at this
    exact this

theorem done_obj {φ : Addr → Addr} {s : SaveSt} {ℓ : LoadSt} (hi : Inv H φ s (fun _ => .done) ℓ) {i : Nat} {a : Addr} (hia : s.table[i]? = some a) {o : Obj}
    (ho : H[a]? = some o) (ht : o.Typed H) : ℓ.objs[i]? = some (some (o.rename φ)) := by
  obtain ⟨l, h1, h2, h3⟩ := hi.obj i a o hia ho (by simp)
  rw [h1]
  have hregs : ∀ r ∈ o.regs, ∃ b, r = some b ∧ IsRe H b := by
    cases o with
    | pt | ls | re => intro r hr; cases hr
    | ll d => exact ht.2.2.1
    | ar d => exact ht.2.2
  have hl : l = o.regs.map (Option.map φ) := by
    apply List.ext_getElem?
    intro j
    rw [List.getElem?_map]
    by_cases hj : j < o.regs.length
    · obtain ⟨b, hb, d, hd⟩ := hregs _ (List.getElem_mem hj)
      have hj' : o.regs[j]? = some (some b) := by rw [List.getElem?_eq_getElem hj, hb]
      rw [(h3 j b d hj' hd trivial).2.1 rfl, hj']
      rfl
    · rw [List.getElem?_eq_none (by omega), List.getElem?_eq_none (by omega)]
      rfl
  rw [hl]
  cases o <;> rfl

theorem release_owned {m : Layers} (hv : Valid accepts H m) (φ : Addr → Addr) {a : Addr} (ha : Reach H m a) {o : Obj} (ho : H[a]? = some o) :
    release (m.rename φ) (o.rename φ) = o.rename φ := by
  cases o with
  | pt | ls | ll | ar => rfl
  | re d =>
    simp only [Obj.rename, ReD.rename, release, Obj.re.injEq, ReD.mk.injEq, true_and]
    rw [List.map_map]
    apply List.map_congr_left
    intro x hx
    simp only [Function.comp_apply, Prod.mk.injEq, true_and]
    rw [List.map_map]
    apply List.map_congr_left
    intro p hp
    obtain ⟨h1, h2⟩ := hv.owned a d x p ha ho hx hp
    cases p with
    | pt | ls | poly => rfl
    | ll inv b =>
      cases b with
      | none => rfl
      | some b =>
        have hb : φ b ∈ (m.rename φ).lls.map (·.2) := by
          obtain ⟨h, h3, h4⟩ := List.mem_map.mp (h1 inv b rfl)
          simp only [Layers.rename, List.map_map, List.mem_map]
          exact ⟨h, h3, by simp [h4]⟩
        simp only [Function.comp_apply, Param.rename, Option.map_some, if_pos hb]
    | ar b =>
      cases b with
      | none => rfl
      | some b =>
        have hb : φ b ∈ (m.rename φ).ars := List.mem_map.mpr ⟨b, h2 b rfl, rfl⟩
        simp only [Function.comp_apply, Param.rename, Option.map_some, if_pos hb]

/-- **C39**: a valid map can be saved, and what is loaded is the same map at other addresses: there is a renaming of addresses, different for different
objects, such that the layers of the loaded map are the renamed layers, every object is loaded with everything it had but renamed pointers, and there
are no other objects. Lanelets, areas and regulatory elements may refer to each other in any way. -/
theorem binary_roundtrip {m : Layers} (hv : Valid accepts H m) : ∃ out H' φ, write H m = pure out ∧ parse accepts out = pure (H', m.rename φ) ∧
    (∀ a b, Reach H m a → Reach H m b → φ a = φ b → a = b) ∧
    (∀ a o, Reach H m a → H[a]? = some o → H'[φ a]? = some (some (o.rename φ))) ∧
    ∀ i < H'.length, ∃ a, Reach H m a ∧ φ a = i := by
  have hs0 : SInv H (Reach H m) {} := ⟨by simp, by simp, by simp⟩
  obtain ⟨s, τ, a1, a2, a3, a4⟩ := saveMap_run hv hs0
  have hτ : s.out = τ := by simpa using a2.out
  have hφ : Compat (fun a => s.table.idxOf a) s.table := by
    intro i a hi
    obtain ⟨hlt, rfl⟩ := List.getElem?_eq_some_iff.mp hi
    exact a2.inv.nodup.idxOf_getElem i hlt
  have hi0 : Inv H (fun a => s.table.idxOf a) {} (fun _ => .done) { inp := s.out } :=
    ⟨rfl, rfl, fun _ _ => rfl, fun _ _ => ⟨rfl, rfl⟩, by simp, by simp, by simp⟩
  obtain ⟨ℓ, b1, b2, b3⟩ := a4 _ hφ _ [] hi0 (by simp [hτ])
  have hreach : ∀ a, Reach H m a → a ∈ s.table := by
    intro a ha
    induction ha with
    | root h => exact a3 _ h
    | step _ ho hb ih =>
      rcases a2.closed _ ih with h | h
      · cases h
      · exact h _ ho _ hb
  generalize hφe : (fun a => s.table.idxOf a) = φ at *
  refine ⟨s.out, ℓ.objs.map (Option.map (release (m.rename φ))), φ, ?_, ?_, ?_, ?_, ?_⟩
  · unfold write
    rw [a1]
    rfl
  · unfold parse
    have b1' : loadMap accepts { inp := s.out } = pure (m.rename φ, ℓ) := b1
    rw [b1']
    rfl
  · intro a b ha hb hab
    have h1 := table_idx hφ (hreach a ha)
    have h2 := table_idx hφ (hreach b hb)
    rw [hab, h2] at h1
    simpa using h1.symm
  · intro a o ha ho
    obtain ⟨o', h1, h2⟩ := hv.typed a ha
    rw [ho] at h1
    cases h1
    rw [List.getElem?_map, done_obj b3 (table_idx hφ (hreach a ha)) ho h2]
    simp only [Option.map_some]
    rw [release_owned hv φ ha ho]
  · intro i hi
    rw [List.length_map, b3.len] at hi
    exact ⟨s.table[i], a2.inv.valid _ (List.getElem_mem hi), hφ i _ (List.getElem?_eq_getElem hi)⟩

end

/-! ### an example: a lanelet and a regulatory element that refer to each other -/

/-- Example: points, a line, a lanelet and regulatory elements. -/
def exH : List Obj := [
  .pt 1 [] 10 20 30,
  .ls 2 [("type", "curbstone")] [0, 0],
  .ls 3 [] [0],
  .ll { id := 4, attrs := [("subtype", "road")], left := (false, 1), right := (true, 2), regs := [some 4], center := some (false, 2) },
  .re { id := 5, attrs := [("subtype", "right_of_way")], params := [("ref_line", [.ls (false, 1)]), ("yield", [.ll false (some 3), .ll true (some 3)])] }]

/-- Example: a map of these objects. -/
def exMap : Layers := { pts := [0], lss := [(false, 1), (true, 2)], polys := [], ars := [], lls := [(true, 3)], res := [4] }

/-- Example: one registered kind of regulatory element. -/
def exAccepts (name : String) (_ : ReD) : Bool := name == "right_of_way"

theorem exReach {a : Addr} (h : Reach exH exMap a) : a < 5 := by
  induction h with
  | root h =>
    simp only [exMap, Layers.pointers, List.map_cons, List.map_nil, List.append_nil, List.cons_append, List.nil_append, List.mem_cons, List.not_mem_nil, or_false] at h
    rcases h with rfl | rfl | rfl | rfl | rfl <;> decide
  | @step a b o _ ho hb ih =>
    match a, ih with
    | 0, _ | 1, _ | 2, _ | 3, _ | 4, _ =>
      simp only [exH, List.getElem?_cons_zero, List.getElem?_cons_succ, Option.some.injEq] at ho
      subst ho
      simp [Obj.pointers, Param.pointers] at hb
      try (rcases hb with rfl | rfl | rfl | rfl <;> decide)
      try (rcases hb with rfl | rfl <;> decide)
      try (subst hb; decide)

theorem exValid : Valid exAccepts exH exMap where
  typed := by
    intro a ha
    match a, exReach ha with
    | 0, _ => exact ⟨_, rfl, trivial⟩
    | 1, _ => exact ⟨_, rfl, by intro a ha; simp at ha; subst ha; exact ⟨_, _, _, _, _, rfl⟩⟩
    | 2, _ => exact ⟨_, rfl, by intro a ha; simp at ha; subst ha; exact ⟨_, _, _, _, _, rfl⟩⟩
    | 3, _ => exact ⟨_, rfl, ⟨_, _, _, rfl⟩, ⟨_, _, _, rfl⟩, by intro r hr; simp at hr; exact ⟨4, hr, _, rfl⟩, by intro c hc; cases hc; exact ⟨_, _, _, rfl⟩⟩
    | 4, _ =>
      refine ⟨_, rfl, ?_⟩
      intro x hx p hp
      simp only [List.mem_cons, List.not_mem_nil, or_false] at hx
      rcases hx with rfl | rfl
      · simp only [List.mem_cons, List.not_mem_nil, or_false] at hp
        subst hp
        exact ⟨_, _, _, rfl⟩
      · simp only [List.mem_cons, List.not_mem_nil, or_false] at hp
        rcases hp with rfl | rfl <;> exact ⟨3, rfl, _, rfl⟩
  pts := by intro a ha; simp [exMap] at ha; subst ha; exact ⟨_, _, _, _, _, rfl⟩
  lss := by intro a ha; simp [exMap] at ha; rcases ha with rfl | rfl <;> exact ⟨_, _, _, rfl⟩
  polys := by intro a ha; simp [exMap] at ha
  ars := by intro a ha; simp [exMap] at ha
  lls := by intro a ha; simp [exMap] at ha; subst ha; exact ⟨_, rfl⟩
  res := by intro a ha; simp [exMap] at ha; subst ha; exact ⟨_, rfl⟩
  ids := by decide
  unique := by
    intro r r' d d' hr hr' hd hd' _
    match r, r', exReach hr, exReach hr', hd, hd' with
    | 4, 4, _, _, _, _ => rfl
  known := by
    intro r d hr hd
    match r, exReach hr, hd with
    | 4, _, hd => cases hd; exact ⟨"right_of_way", by decide, by decide, fun _ => rfl⟩
  owned := by
    intro r d x p hr hd hx hp
    match r, exReach hr, hd with
    | 4, _, hd =>
      cases hd
      simp only [List.mem_cons, List.not_mem_nil, or_false] at hx
      rcases hx with rfl | rfl
      · simp only [List.mem_cons, List.not_mem_nil, or_false] at hp
        subst hp
        simp
      · simp only [List.mem_cons, List.not_mem_nil, or_false] at hp
        rcases hp with rfl | rfl <;> simp [exMap]

example : ∃ out H' φ, write exH exMap = pure out ∧ parse exAccepts out = pure (H', exMap.rename φ) ∧
    ∃ d r, H'[φ 3]? = some (some (.ll d)) ∧ d.regs = [some (φ 4)] ∧ H'[φ 4]? = some (some (.re r)) ∧
      r.params = [("ref_line", [.ls (false, φ 1)]), ("yield", [.ll false (some (φ 3)), .ll true (some (φ 3))])] := by
  obtain ⟨out, H', φ, h1, h2, -, h3, -⟩ := binary_roundtrip exValid
  exact ⟨out, H', φ, h1, h2, _, _, h3 3 _ (.root (by simp [exMap, Layers.pointers])) rfl, rfl, h3 4 _ (.root (by simp [exMap, Layers.pointers])) rfl, rfl⟩

/-! ### what is not restored -/

/-- two linestrings, a lanelet with the regulatory element at 3, and another regulatory element with the same id that is in the map -/
def sameIdH : List Obj := [.ls 1 [] [], .ls 2 [] [],
  .ll { id := 3, attrs := [], left := (false, 0), right := (false, 1), regs := [some 3], center := none },
  .re { id := 5, attrs := [("subtype", "a")], params := [] },
  .re { id := 5, attrs := [("subtype", "b")], params := [] }]

/-- Example: a map with two objects of the same id. -/
def sameIdMap : Layers := { pts := [], lss := [], polys := [], ars := [], lls := [(false, 2)], res := [4] }

/-- Of two regulatory elements with the same id only the one that is saved first is restored, and the other one is replaced by it: here the regulatory
element of the map has the subtype of the other one after loading. -/
theorem sameId_counterexample : ∃ out H' m', write sameIdH sameIdMap = pure out ∧ parse (fun _ _ => true) out = pure (H', m') ∧
    ∀ φ, m' = sameIdMap.rename φ → ∀ o, sameIdH[4]? = some o → H'[φ 4]? ≠ some (some (o.rename φ)) := by
  refine ⟨[.size 0, .size 0, .size 0, .size 0, .size 1, .flag false, .oid 0, .num 3, .attrs [], .flag false, .oid 1, .num 1, .attrs [],
    .size 0, .flag false, .oid 2, .num 2, .attrs [], .size 0, .size 1, .num 5, .oid 3, .num 5, .attrs [("subtype", "a")], .size 0, .flag false, .size 1, .num 5],
    [some (.ll { id := 3, attrs := [], left := (false, 1), right := (false, 2), regs := [some 3], center := none }), some (.ls 1 [] []), some (.ls 2 [] []),
      some (.re { id := 5, attrs := [("subtype", "a")], params := [] })], { pts := [], lss := [], polys := [], ars := [], lls := [(false, 0)], res := [3] }, ?_, ?_, ?_⟩
  · unfold write saveMap
    rw [← saveF_eq _ 3]
    rfl
  · unfold parse loadMap
    rw [← loadF_eq _ 3]
    rfl
  · intro φ hφ o ho
    have h4 : φ 4 = 3 := by
      have := congrArg Layers.res hφ
      simpa [Layers.rename, sameIdMap] using this.symm
    have : o = .re { id := 5, attrs := [("subtype", "b")], params := [] } := by simpa [sameIdH] using ho.symm
    subst this
    rw [h4]
    simp [Obj.rename, ReD.rename]

/-- a map with a regulatory element whose lanelet does not exist any more cannot be saved -/
theorem expired_counterexample : write [.re { id := 5, attrs := [("subtype", "a")], params := [("refers", [.ll false none])] }]
    { pts := [], lss := [], polys := [], ars := [], lls := [], res := [0] } = throw .expired := by
  unfold write saveMap
  rw [← saveF_eq _ 2]
  rfl

/-- a regulatory element with a subtype that no class is registered for is saved, but the file cannot be loaded -/
theorem unknown_subtype_counterexample : ∃ out, write [.re { id := 5, attrs := [("subtype", "mine")], params := [] }]
    { pts := [], lss := [], polys := [], ars := [], lls := [], res := [0] } = pure out ∧
      parse (fun name _ => name == "regulatory_element" || name == "right_of_way") out = throw .invalid := by
  refine ⟨[.size 0, .size 0, .size 0, .size 0, .size 0, .size 1, .num 5, .oid 0, .num 5, .attrs [("subtype", "mine")], .size 0], ?_, ?_⟩
  · unfold write saveMap
    rw [← saveF_eq _ 2]
    rfl
  · unfold parse loadMap
    rw [← loadF_eq _ 2]
    rfl

/-- a regulatory element without subtype has one after loading -/
theorem no_subtype_counterexample : ∃ out, write [.re { id := 5, attrs := [], params := [] }]
    { pts := [], lss := [], polys := [], ars := [], lls := [], res := [0] } = pure out ∧
      parse (fun name _ => name == "regulatory_element" || name == "right_of_way") out =
        pure ([some (.re { id := 5, attrs := [("subtype", "regulatory_element")], params := [] })], { pts := [], lss := [], polys := [], ars := [], lls := [], res := [0] }) := by
  refine ⟨[.size 0, .size 0, .size 0, .size 0, .size 0, .size 1, .num 5, .oid 0, .num 5, .attrs [], .size 0], ?_, ?_⟩
  · unfold write saveMap
    rw [← saveF_eq _ 2]
    rfl
  · unfold parse loadMap
    rw [← loadF_eq _ 2]
    rfl

/-- a lanelet that only a regulatory element refers to is saved, but after loading nothing owns it, and the parameter is expired -/
theorem unowned_counterexample : ∃ out H', write [.ls 1 [] [], .ll { id := 3, attrs := [], left := (false, 0), right := (false, 0), regs := [], center := none },
      .re { id := 5, attrs := [("subtype", "a")], params := [("refers", [.ll false (some 1)])] }]
    { pts := [], lss := [], polys := [], ars := [], lls := [], res := [2] } = pure out ∧
      parse (fun _ _ => true) out = pure (H', { pts := [], lss := [], polys := [], ars := [], lls := [], res := [0] }) ∧
      H'[0]? = some (some (.re { id := 5, attrs := [("subtype", "a")], params := [("refers", [.ll false none])] })) := by
  refine ⟨[.size 0, .size 0, .size 0, .size 0, .size 0, .size 1, .num 5, .oid 0, .num 5, .attrs [("subtype", "a")], .size 1, .str "refers", .size 1, .size 3, .flag false, .oid 1,
    .num 3, .attrs [], .flag false, .oid 2, .num 1, .attrs [], .size 0, .flag false, .oid 2, .size 0, .flag false],
    [some (.re { id := 5, attrs := [("subtype", "a")], params := [("refers", [.ll false none])] }),
      some (.ll { id := 3, attrs := [], left := (false, 2), right := (false, 2), regs := [], center := none }), some (.ls 1 [] [])], ?_, ?_, ?_⟩
  · unfold write saveMap
    rw [← saveF_eq _ 3]
    rfl
  · unfold parse loadMap
    rw [← loadF_eq _ 3]
    rfl
  · rfl

end Verif.Bin
