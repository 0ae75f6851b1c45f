import Verif.LMap.Lemmas

/-! The main induction about `LaneletMap::add`: it terminates and keeps the map closed. -/
namespace Verif.LMap

theorem Reach.head {c : Content} {a b o : Obj} (hl : b ∈ links c a) (hr : Reach c b o) : Reach c a o := by
  induction hr with
  | refl => exact .step .refl hl
  | step _ hx ih => exact .step ih hx

/-- What adding the elements `hs` does. -/
structure Post (c : Content) (hs : List Handle) (s s' : MapSt) : Prop where
  w : W s'
  le : Le s s'
  ex : ∀ h ∈ hs, Exists s' h.obj
  cl : ∀ Q, ClosedQ c Q s → ClosedQ c Q s'
  strong : Strong c s → Strong c s'
  dist : Distinct s → Distinct s'
  frame : ∀ r, r ≤ 1 → (∀ h ∈ hs, rank h.obj.kind ≤ r) → ∀ k, r < rank k → s'.layers k = s.layers k
  onlyIds : ∀ o, s'.ids o ≠ s.ids o → ∃ h ∈ hs, Reach c h.obj o
  onlyElems : ∀ k, ∀ e ∈ (s'.layers k).elements, e ∉ (s.layers k).elements → ∃ h ∈ hs, Reach c h.obj e.2.obj

theorem Post.nil (c : Content) {s : MapSt} (w : W s) : Post c [] s s where
  w := w
  le := .refl s
  ex := by simp
  cl := fun _ h => h
  strong := id
  dist := id
  frame := fun _ _ _ _ _ => rfl
  onlyIds := fun o h => absurd rfl h
  onlyElems := fun k e h1 h2 => absurd h1 h2

theorem Post.trans {c : Content} {xs ys : List Handle} {s s1 s2 : MapSt} (h1 : Post c xs s s1)
    (h2 : Post c ys s1 s2) : Post c (xs ++ ys) s s2 where
  w := h2.w
  le := h1.le.trans h2.le
  ex := by
    intro h hh
    rcases List.mem_append.mp hh with hh | hh
    · exact h2.le.exists (h1.ex h hh)
    · exact h2.ex h hh
  cl := fun Q h => h2.cl Q (h1.cl Q h)
  strong := fun h => h2.strong (h1.strong h)
  dist := fun h => h2.dist (h1.dist h)
  frame := by
    intro r hr hk k hlt
    rw [h2.frame r hr (fun h hh => hk h (List.mem_append_right _ hh)) k hlt,
      h1.frame r hr (fun h hh => hk h (List.mem_append_left _ hh)) k hlt]
  onlyIds := by
    intro o ho
    by_cases hx : s1.ids o = s.ids o
    · rw [← hx] at ho
      obtain ⟨h, hh, hr⟩ := h2.onlyIds o ho
      exact ⟨h, List.mem_append_right _ hh, hr⟩
    · obtain ⟨h, hh, hr⟩ := h1.onlyIds o hx
      exact ⟨h, List.mem_append_left _ hh, hr⟩
  onlyElems := by
    intro k e he hne
    by_cases hx : e ∈ (s1.layers k).elements
    · obtain ⟨h, hh, hr⟩ := h1.onlyElems k e hx hne
      exact ⟨h, List.mem_append_left _ hh, hr⟩
    · obtain ⟨h, hh, hr⟩ := h2.onlyElems k e he hx
      exact ⟨h, List.mem_append_right _ hh, hr⟩

/-- how many objects of `U` the map does not know -/
def cnt (U : List Obj) (s : MapSt) : Nat := U.countP fun o => !(s.layers o.kind).exists (s.ids o)

theorem countP_lt {α : Type} {p q : α → Bool} {l : List α} (hpq : ∀ a ∈ l, q a = true → p a = true)
    {a : α} (ha : a ∈ l) (h1 : p a = true) (h2 : q a = false) : l.countP q < l.countP p := by
  induction l with
  | nil => simp at ha
  | cons b l ih =>
    have hle : l.countP q ≤ l.countP p :=
      List.countP_mono_left fun x hx => hpq x (List.mem_cons_of_mem _ hx)
    rw [List.countP_cons, List.countP_cons]
    rcases List.mem_cons.mp ha with rfl | ha
    · rw [h1, h2]; simp; omega
    · have := ih (fun x hx => hpq x (List.mem_cons_of_mem _ hx)) ha
      have hb := hpq b (by simp)
      by_cases hq : q b = true
      · rw [hb hq, hq]; simp; omega
      · simp only [hq]; simp; omega

theorem cnt_le {U : List Obj} {s s' : MapSt} (h : Le s s') : cnt U s' ≤ cnt U s := by
  apply List.countP_mono_left
  intro o _ ho
  simp only [Bool.not_eq_true'] at ho ⊢
  cases hx : (s.layers o.kind).exists (s.ids o) with
  | false => rfl
  | true =>
    have : (s'.layers o.kind).exists (s'.ids o) = true := h.exists hx
    rw [this] at ho; cases ho

theorem cnt_lt {U : List Obj} {s s' : MapSt} (h : Le s s') {o : Obj} (ho : o ∈ U) (h1 : ¬ Exists s o)
    (h2 : Exists s' o) : cnt U s' < cnt U s := by
  apply countP_lt (a := o) _ ho
  · have : ¬ (s.layers o.kind).exists (s.ids o) = true := h1
    simpa using this
  · have : (s'.layers o.kind).exists (s'.ids o) = true := h2
    simp [this]
  · intro x _ hx
    simp only [Bool.not_eq_true'] at hx ⊢
    cases hy : (s.layers x.kind).exists (s.ids x) with
    | false => rfl
    | true =>
      have : (s'.layers x.kind).exists (s'.ids x) = true := h.exists hy
      rw [this] at hx; cases hx

/-- assigning ids to a list of objects -/
structure AssignPost (c : Content) (hs : List Handle) (s s' : MapSt) : Prop where
  w : W s'
  le : Le s s'
  layers : s'.layers = s.layers
  ids : ∀ h ∈ hs, s'.ids h.obj ≠ 0
  cl : ∀ Q, ClosedQ c Q s → ClosedQ c (fun x => Q x ∨ ∃ h ∈ hs, x = h.obj) s'
  strong : Strong c s → Strong c s'
  dist : Distinct s → Distinct s'
  only : ∀ o, s'.ids o ≠ s.ids o → ∃ h ∈ hs, o = h.obj

theorem ClosedQ.mono {c : Content} {Q Q' : Obj → Prop} {s : MapSt} (h : ClosedQ c Q s)
    (hq : ∀ o, Q o → Q' o) : ClosedQ c Q' s := by
  intro k e he o ho
  exact (h k e he o ho).imp id (hq o)

theorem assignAll_post (c : Content) (hs : List Handle) (s : MapSt) (w : W s) :
    AssignPost c hs s (assignAll hs s) := by
  induction hs generalizing s with
  | nil =>
    exact ⟨w, .refl s, rfl, by simp, fun Q h => h.mono fun _ => Or.inl, id, id, fun o h => absurd rfl h⟩
  | cons h hs ih =>
    have hstep : assignAll (h :: hs) s = assignAll hs (assignIdIfInvalid h.obj s) := rfl
    rw [hstep]
    by_cases h0 : s.ids h.obj = 0
    · have he : assignIdIfInvalid h.obj s = setFreshId h.obj s := by simp [assignIdIfInvalid, h0]
      rw [he]
      have hw := setFresh_w h0 w
      have hp := ih (setFreshId h.obj s) hw
      refine ⟨hp.w, (setFresh_le h0).trans hp.le, hp.layers, ?_, ?_, fun x => hp.strong (setFresh_strong h0 x),
        fun x => hp.dist (setFresh_distinct x), ?_⟩
      · intro x hx
        rcases List.mem_cons.mp hx with rfl | hx
        · have : (setFreshId x.obj s).ids x.obj ≠ 0 := by
            have := w.pos
            simp only [setFreshId]; simp; omega
          rw [hp.le.ids _ this]; exact this
        · exact hp.ids x hx
      · intro Q hQ
        refine (hp.cl _ (setFresh_closed h0 hQ)).mono ?_
        rintro o ((h1 | h1) | ⟨x, hx, h1⟩)
        · exact Or.inl h1
        · exact Or.inr ⟨h, by simp, h1⟩
        · exact Or.inr ⟨x, List.mem_cons_of_mem _ hx, h1⟩
      · intro o ho
        by_cases hx : (setFreshId h.obj s).ids o = s.ids o
        · rw [← hx] at ho
          obtain ⟨x, hx, h1⟩ := hp.only o ho
          exact ⟨x, List.mem_cons_of_mem _ hx, h1⟩
        · refine ⟨h, by simp, ?_⟩
          simp only [setFreshId] at hx
          split at hx
          · assumption
          · exact absurd rfl hx
    · have he : assignIdIfInvalid h.obj s = s := by simp [assignIdIfInvalid, h0]
      rw [he]
      have hp := ih s w
      refine ⟨hp.w, hp.le, hp.layers, ?_, ?_, hp.strong, hp.dist, ?_⟩
      · intro x hx
        rcases List.mem_cons.mp hx with rfl | hx
        · rw [hp.le.ids _ h0]; exact h0
        · exact hp.ids x hx
      · intro Q hQ
        refine (hp.cl Q hQ).mono ?_
        rintro o (h1 | ⟨x, hx, h1⟩)
        · exact Or.inl h1
        · exact Or.inr ⟨x, List.mem_cons_of_mem _ hx, h1⟩
      · intro o ho
        obtain ⟨x, hx, h1⟩ := hp.only o ho
        exact ⟨x, List.mem_cons_of_mem _ hx, h1⟩

/-- the statement of the induction -/
def Good (c : Content) (U : List Obj) (m : Nat) : Prop :=
  ∀ h s, h.obj ∈ U → W s → 3 * cnt U s + rank h.obj.kind < m → ∃ s', add c h s = some s' ∧ Post c [h] s s'

theorem addAll_good {c : Content} {U : List Obj} {m : Nat} (hg : Good c U m) (hs : List Handle) (s : MapSt)
    (w : W s) (hU : ∀ h ∈ hs, h.obj ∈ U) (hm : ∀ h ∈ hs, 3 * cnt U s + rank h.obj.kind < m) :
    ∃ s', addAll c hs s = some s' ∧ Post c hs s s' := by
  induction hs generalizing s with
  | nil => exact ⟨s, rfl, .nil c w⟩
  | cons h hs ih =>
    obtain ⟨s1, e1, p1⟩ := hg h s (hU h (by simp)) w (hm h (by simp))
    have hc := cnt_le (U := U) p1.le
    obtain ⟨s2, e2, p2⟩ := ih s1 p1.w (fun x hx => hU x (List.mem_cons_of_mem _ hx)) (by
      intro x hx
      have := hm x (List.mem_cons_of_mem _ hx)
      omega)
    exact ⟨s2, by rw [addAll_cons, e1]; exact e2, p1.trans p2⟩

theorem good_all (c : Content) (U : List Obj) (hU : ∀ o ∈ U, ∀ x ∈ links c o, x ∈ U) (m : Nat) :
    Good c U m := by
  induction m with
  | zero => intro h s _ _ hm; omega
  | succ m ih =>
    intro h s hh w hm
    rw [add_eq]
    by_cases hskip : (enter h.obj s).2 = true
    · rw [if_pos hskip]
      unfold enter at hskip ⊢
      split at hskip
      · simp at hskip
      · split at hskip
        · rename_i h0 hex
          rw [if_neg h0, if_pos hex]
          refine ⟨s, rfl, ?_⟩
          have := Post.nil c w
          exact { this with
            ex := by intro x hx; rw [List.mem_singleton] at hx; subst hx; exact hex
            frame := fun _ _ _ _ _ => rfl
            onlyIds := fun o h => absurd rfl h
            onlyElems := fun k e h1 h2 => absurd h1 h2 }
        · simp at hskip
    · rw [if_neg hskip]
      -- the object is not known yet
      have hnex : ¬ Exists s h.obj := by
        intro hex
        apply hskip
        have := (exists_iff s h.obj).mp hex
        simp only [enter, if_neg this.1]
        have hex' : (s.layers h.obj.kind).exists (s.ids h.obj) = true := hex
        rw [if_pos hex']
      -- state after the first lines
      have key : ∃ s0, (enter h.obj s).1 = s0 ∧ W s0 ∧ Le s s0 ∧ s0.layers = s.layers ∧ s0.ids h.obj ≠ 0 ∧
          s0.ids h.obj < s0.next ∧
          (∀ Q, ClosedQ c Q s → ClosedQ c (fun x => Q x ∨ x = h.obj) s0) ∧
          (Strong c s → Strong c s0 ∧ ∀ x, (s0.ids h.obj, x) ∉ (s0.layers h.obj.kind).elements) ∧
          (Distinct s → Distinct s0) ∧ (∀ o, s0.ids o ≠ s.ids o → o = h.obj) := by
        unfold enter at hskip ⊢
        by_cases h0 : s.ids h.obj = 0
        · rw [if_pos h0]
          have hid : (setFreshId h.obj s).ids h.obj = s.next := by simp [setFreshId]
          refine ⟨_, rfl, setFresh_w h0 w, setFresh_le h0, rfl, ?_, ?_, fun Q => setFresh_closed h0, ?_,
            setFresh_distinct, ?_⟩
          · rw [hid]; have := w.pos; omega
          · rw [hid]; simp only [setFreshId]; omega
          · intro hs
            refine ⟨setFresh_strong h0 hs, ?_⟩
            intro x hx
            rw [hid] at hx
            have := hs.below _ _ hx
            simp at this
          · intro o ho
            simp only [setFreshId] at ho
            split at ho
            · assumption
            · exact absurd rfl ho
        · rw [if_neg h0]
          have hx : (s.layers h.obj.kind).exists (s.ids h.obj) = false := by
            have : ¬ (s.layers h.obj.kind).exists (s.ids h.obj) = true := hnex
            simpa using this
          rw [hx]
          refine ⟨_, rfl, register_w _ w, register_le _ _, rfl, h0, register_lt _ _, ?_, ?_,
            register_distinct _, fun o ho => absurd rfl ho⟩
          · intro Q hQ
            exact ClosedQ.mono (register_closed _ hQ) fun _ => Or.inl
          · intro hs
            refine ⟨register_strong _ hs, ?_⟩
            intro x hxm
            apply hnex
            rw [exists_iff]
            exact ⟨h0, x, hxm⟩
      obtain ⟨s0, hs0, w0, le0, lay0, id0, lt0, cl0, st0, di0, only0⟩ := key
      simp only [hs0]
      have hc0 := cnt_le (U := U) le0
      have hlink : ∀ x ∈ links c h.obj, x ∈ U := hU h.obj hh
      -- elements added before
      obtain ⟨s1, e1, p1⟩ := addAll_good ih (pre1 c h) s0 w0 (fun x hx => hlink _ (pre1_links hx)) (by
        intro x hx; have := pre1_rank hx; omega)
      rw [e1]; simp only [Option.bind_some]
      have hc1 := cnt_le (U := U) p1.le
      obtain ⟨s2, e2, p2⟩ := addAll_good ih (pre2 c s1.ids h) s1 p1.w (fun x hx => hlink _ (pre2_links hx)) (by
        intro x hx; have := pre2_rank hx; omega)
      rw [e2]; simp only [Option.bind_some]
      have p12 := p1.trans p2
      -- ids
      have pa := assignAll_post c (post c h) s2 p2.w
      generalize assignAll (post c h) s2 = s3 at pa ⊢
      have le03 : Le s0 s3 := p12.le.trans pa.le
      have id3 : s3.ids h.obj = s0.ids h.obj := le03.ids _ id0
      have id3' : s3.ids h.obj ≠ 0 := by rw [id3]; exact id0
      -- the element itself
      have w4 : W (layerAdd c h s3) := layerAdd_w id3' pa.w
      have le4 := layerAdd_le c s3 h
      have ex4 : Exists (layerAdd c h s3) h.obj := layerAdd_exists id3'
      have les4 : Le s (layerAdd c h s3) := le0.trans (le03.trans le4)
      have hc4 : cnt U (layerAdd c h s3) < cnt U s := cnt_lt les4 hh hnex ex4
      obtain ⟨s5, e5, p5⟩ := addAll_good ih (post c h) (layerAdd c h s3) w4
        (fun x hx => hlink _ (post_links hx)) (by
          intro x _
          have : rank x.obj.kind ≤ 2 := by cases x.obj.kind <;> simp [rank]
          omega)
      refine ⟨s5, e5, ?_⟩
      have exh : Exists s5 h.obj := p5.le.exists ex4
      have hexpost : ∀ o, (∃ l ∈ post c h, o = l.obj) → Exists s5 o := by
        rintro o ⟨l, hl, rfl⟩; exact p5.ex l hl
      -- the centerline loop used the ids of `s1`
      have hpre2 : ∀ l, l ∈ pre2 c s3.ids h → Exists s3 l.obj ∨ (∃ x ∈ post c h, l.obj = x.obj) ∨ l.obj = h.obj := by
        intro l hl
        by_cases hch : s3.ids l.obj = s1.ids l.obj
        · left
          have : l ∈ pre2 c s1.ids h := by
            obtain ⟨⟨k, n⟩, inv⟩ := h
            cases k <;> simp only [pre2, List.not_mem_nil] at hl
            simp only [pre2]
            simp only [customCenter] at hl ⊢
            split at hl
            · simp at hl
            · rename_i l' hc
              split at hl
              · simp at hl
              · rename_i hne
                simp only [List.mem_singleton] at hl
                have : l.obj = ⟨.lineString, l'.1⟩ := by subst hl; cases inv <;> rfl
                rw [this] at hch
                rw [← hch, if_neg hne]
                simp [hl]
          exact pa.le.exists (p2.ex l this)
        · right
          -- the id was given while adding centerline elements (then it is in the map) or afterwards
          by_cases hch2 : s3.ids l.obj = s2.ids l.obj
          · rw [hch2] at hch
            obtain ⟨x, hx, hr⟩ := p2.onlyIds _ hch
            exfalso
            -- then the centerline had an id before
            obtain ⟨⟨k, n⟩, inv⟩ := h
            cases k <;> simp only [pre2, List.not_mem_nil] at hl hx
            simp only [customCenter] at hl hx
            split at hl
            · simp at hl
            · rename_i l' hc
              rw [hc] at hx
              simp only at hx
              split at hl
              · simp at hl
              · simp only [List.mem_singleton] at hl
                have hlo : l.obj = ⟨.lineString, l'.1⟩ := by subst hl; cases inv <;> rfl
                split at hx
                · simp at hx
                · rename_i hne
                  rw [hlo] at hch
                  exact hch (p2.le.ids _ hne)
          · obtain ⟨x, hx, h1⟩ := pa.only _ hch2
            exact Or.inl ⟨x, hx, h1⟩
      constructor
      · exact p5.w
      · exact les4.trans p5.le
      · intro x hx
        rw [List.mem_singleton] at hx; subst hx; exact exh
      · -- closedness
        intro Q hQ
        have c2 := p12.cl _ (cl0 Q hQ)
        have c3 := pa.cl _ c2
        have c4 : ClosedQ c (fun x => (Q x ∨ x = h.obj) ∨ ∃ l ∈ post c h, x = l.obj) (layerAdd c h s3) := by
          apply layerAdd_closed c3
          intro o ho
          rcases refs_cases c s3.ids h ho with ⟨l, hl, rfl⟩ | ⟨l, hl, rfl⟩ | ⟨l, hl, rfl⟩
          · exact Or.inl (pa.le.exists (p2.le.exists (p1.ex l hl)))
          · rcases hpre2 l hl with h1 | h1 | h1
            · exact Or.inl h1
            · exact Or.inr (Or.inr h1)
            · exact Or.inr (Or.inl (Or.inr h1))
          · exact Or.inr (Or.inr ⟨l, hl, rfl⟩)
        have c5 := p5.cl _ c4
        intro k e he o ho
        rcases c5 k e he o ho with h1 | (h1 | h1) | h1
        · exact Or.inl h1
        · exact Or.inr h1
        · left; rw [h1]; exact exh
        · exact Or.inl (hexpost o h1)
      · -- usage lookup and freshness
        intro hs
        obtain ⟨hs0', hnew0⟩ := st0 hs
        have hs3 := pa.strong (p12.strong hs0')
        have hlay : s3.layers h.obj.kind = s0.layers h.obj.kind := by
          rw [pa.layers]
          by_cases hr : rank h.obj.kind = 0
          · have e1' : pre1 c h = [] := by
              cases hp : pre1 c h with
              | nil => rfl
              | cons a l => have := pre1_rank (c := c) (h := h) (l := a) (by rw [hp]; simp); omega
            have e2' : pre2 c s1.ids h = [] := by
              cases hp : pre2 c s1.ids h with
              | nil => rfl
              | cons a l => have := pre2_rank (c := c) (ids := s1.ids) (h := h) (l := a) (by rw [hp]; simp); omega
            rw [e1', addAll_nil] at e1
            rw [e2', addAll_nil] at e2
            have := Option.some.inj e1; subst this
            have := Option.some.inj e2; subst this
            rfl
          · have hr2 : rank h.obj.kind ≤ 2 := by cases h.obj.kind <;> simp [rank]
            refine p12.frame (rank h.obj.kind - 1) (by omega) ?_ _ (by omega)
            intro x hx
            rcases List.mem_append.mp hx with hx | hx
            · have := pre1_rank hx; omega
            · have := pre2_rank hx; omega
        apply p5.strong
        apply layerAdd_strong hs3
        · intro x hx
          rw [id3, hlay] at hx
          exact hnew0 x hx
        · rw [id3]; have := le03.next; omega
        · intro x hx
          rcases owned_cases hx with h1 | h1 | h1
          · left
            exact ((exists_iff _ _).mp (pa.le.exists (p2.le.exists (p1.ex x h1)))).1
          · exact Or.inl (pa.ids x h1)
          · exact Or.inr h1
      · intro hd
        exact p5.dist (layerAdd_distinct (pa.dist (p12.dist (di0 hd))))
      · -- frame
        intro r hr hk k hlt
        have hrk : rank h.obj.kind ≤ r := hk h (by simp)
        have hp : post c h = [] := post_nil (by omega)
        have e5' := e5
        rw [hp, addAll_nil] at e5'
        have := Option.some.inj e5'
        rw [← this]
        have h34 : (layerAdd c h s3).layers k = s3.layers k := by
          simp only [layerAdd]
          rw [if_neg]
          rintro rfl; omega
        rw [h34, pa.layers, ← lay0]
        refine p12.frame r hr ?_ k hlt
        intro x hx
        rcases List.mem_append.mp hx with hx | hx
        · have := pre1_rank hx; omega
        · have := pre2_rank hx; omega
      · -- ids
        intro o ho
        refine ⟨h, by simp, ?_⟩
        have lift : ∀ l : Handle, l.obj ∈ links c h.obj → Reach c l.obj o → Reach c h.obj o := by
          exact fun l hl hr => Reach.head hl hr
        by_cases h1 : s0.ids o = s.ids o
        · by_cases h2 : s2.ids o = s0.ids o
          · by_cases h3 : s3.ids o = s2.ids o
            · have : s5.ids o ≠ (layerAdd c h s3).ids o := by
                show s5.ids o ≠ s3.ids o
                rw [h3, h2, h1]; exact ho
              obtain ⟨l, hl, hr⟩ := p5.onlyIds o this
              exact lift l (post_links hl) hr
            · obtain ⟨l, hl, hr⟩ := pa.only o h3
              rw [hr]; exact .step .refl (post_links hl)
          · obtain ⟨l, hl, hr⟩ := p12.onlyIds o h2
            rcases List.mem_append.mp hl with hl | hl
            · exact lift l (pre1_links hl) hr
            · exact lift l (pre2_links hl) hr
        · rw [only0 o h1]; exact .refl
      · -- elements
        intro k e he hne
        refine ⟨h, by simp, ?_⟩
        have lift : ∀ l : Handle, l.obj ∈ links c h.obj → Reach c l.obj e.2.obj → Reach c h.obj e.2.obj := by
          exact fun l hl hr => Reach.head hl hr
        by_cases h4 : e ∈ ((layerAdd c h s3).layers k).elements
        · rcases layerAdd_mem h4 with h3 | h3
          · rw [pa.layers] at h3
            rw [← lay0] at hne
            obtain ⟨l, hl, hr⟩ := p12.onlyElems k e h3 hne
            rcases List.mem_append.mp hl with hl | hl
            · exact lift l (pre1_links hl) hr
            · exact lift l (pre2_links hl) hr
          · rw [h3]; exact .refl
        · obtain ⟨l, hl, hr⟩ := p5.onlyElems k e he h4
          exact lift l (post_links hl) hr

/-- Adding an element of a finite object graph always succeeds. -/
theorem add_post (c : Content) (U : List Obj) (hU : ∀ o ∈ U, ∀ x ∈ links c o, x ∈ U) (h : Handle)
    (hh : h.obj ∈ U) (s : MapSt) (w : W s) : ∃ s', add c h s = some s' ∧ Post c [h] s s' :=
  good_all c U hU _ h s hh w (Nat.lt_succ_self _)

theorem addAll_post (c : Content) (U : List Obj) (hU : ∀ o ∈ U, ∀ x ∈ links c o, x ∈ U) (hs : List Handle)
    (hh : ∀ h ∈ hs, h.obj ∈ U) (s : MapSt) (w : W s) : ∃ s', addAll c hs s = some s' ∧ Post c hs s s' := by
  refine addAll_good (good_all c U hU (3 * cnt U s + 3)) hs s w hh ?_
  intro h _
  have : rank h.obj.kind ≤ 2 := by cases h.obj.kind <;> simp [rank]
  omega

end Verif.LMap
