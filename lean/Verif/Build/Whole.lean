import Verif.Build.Main

namespace Verif.Build
open Verif.Graph (RGraph EdgeInfo BaseEdge CostTests RelationType)
open Verif.Graph.RelationType
open Verif.Lanelet (LH World points leftBound rightBound follows leftOf rightOf invertL)
open List (Perm)
open scoped List

set_option linter.unusedSectionVars false
variable {P K : Type} [DecidableEq P]

/-- Specification: all passable lanelets and areas. -/
def allVertices (i : Input P K) : List Prim := (allLanelets i).map .inl ++ (passableAreas i).map .inr

/-- how the loop over the lanelets changes its state -/
structure LoopExt (i : Input P K) (l l' : Loop K) : Prop where
  ext : Ext i .lanes l.s.g l'.s.g
  index : l'.s.index = l.s.index
  both : l'.s.both = l.s.both
  left : ∀ e ∈ l.toLeft, e ∈ l'.toLeft
  right : ∀ e ∈ l.toRight, e ∈ l'.toRight
  leftOk : ColOk i true l.toLeft → ColOk i true l'.toLeft
  rightOk : ColOk i false l.toRight → ColOk i false l'.toRight

theorem LoopExt.refl (i : Input P K) (l : Loop K) : LoopExt i l l :=
  ⟨Ext.refl i _ _, rfl, rfl, fun _ h => h, fun _ h => h, id, id⟩

theorem LoopExt.trans {i : Input P K} {a b c : Loop K} (h : LoopExt i a b) (h' : LoopExt i b c) : LoopExt i a c :=
  ⟨h.ext.trans h'.ext, h'.index.trans h.index, h'.both.trans h.both, fun e he => h'.left e (h.left e he),
    fun e he => h'.right e (h.right e he), fun x => h'.leftOk (h.leftOk x), fun x => h'.rightOk (h.rightOk x)⟩

/-- what has been done for a lanelet -/
structure Done (i : Input P K) (both : List Int) (ll : LH) (l : Loop K) : Prop where
  succ : ∀ it ∈ allLanelets i, follows i.w ll it = true → i.rules.passLL ll it = true →
    ∀ x ∈ infos i (.inl ll) (.inl it) Successor, x ∈ edgesOf l.s.g (.inl ll) (.inl it)
  side : i.costs ≠ [] → ∀ isLeft, ∀ it ∈ allLanelets i, it ≠ ll → Beside i isLeft ll it →
    hasEdge l.s.g ll it = true ∨
      (i.rules.change ll it = true ∧ ∃ e ∈ (if isLeft then l.toLeft else l.toRight), e.src = ll)
  conflict : i.costs ≠ [] → ∀ r ∈ passable i, i.boxLL ll r = true →
    (r ≠ ll → i.overlapsLL ll r = true → hasEdge l.s.g ll r = true) ∧
    (r = ll → i.llId ll.data ∈ both → ∀ x ∈ infos i (.inl ll) (.inl (invertL ll)) Conflicting,
      invertL ll ∈ allLanelets i → x ∈ edgesOf l.s.g (.inl ll) (.inl (invertL ll)))

theorem laneletStep_spec (i : Input P K) (hi : InputOk i) (ok : CostsOk i) (l : Loop K) (hs : IndexOk i l.s)
    (hv : l.s.g.vertices = allVertices i) (ll : LH) (hll : ll ∈ allLanelets i) :
    ∃ l', laneletStep i l ll = some l' ∧ LoopExt i l l' ∧ Done i l.s.both ll l' := by
  obtain ⟨g1, a1, a2, a3⟩ := following_step i hi ok l.s hs hv ll hll
  have hv1 : g1.vertices = allVertices i := by rw [a2.1.vertices]; exact hv
  obtain ⟨g2, m2, b1, b2, b3⟩ := sideway_step i hi ok { l.s with g := g1 } hs hv1 l.toLeft ll hll true
  have hv2 : g2.vertices = allVertices i := by rw [b2.1.1.vertices]; exact hv1
  obtain ⟨g3, m3, c1, c2, c3⟩ := sideway_step i hi ok { l.s with g := g2 } hs hv2 l.toRight ll hll false
  have hv3 : g3.vertices = allVertices i := by rw [c2.1.1.vertices]; exact hv2
  obtain ⟨g4, d1, d2, d3⟩ := conflicting_step i hi ok { l.s with g := g3 } hv3 ll hll
  refine ⟨⟨{ l.s with g := g4 }, m2, m3⟩, ?_, ?_, ?_⟩
  · unfold laneletStep
    simp only [a1, b1, c1, d1, Option.bind_eq_bind, Option.bind_some]
    rfl
  · exact ⟨((a2.trans b2.1).trans c2.1).trans d2, rfl, rfl, b2.2.1, c2.2.1, b2.2.2, c2.2.2⟩
  · refine ⟨?_, ?_, d3⟩
    · intro it hit hf hp x hx
      exact ((b2.1.trans c2.1).trans d2).1.mem _ _ x (a3 it hit hf hp x hx)
    · intro hc isLeft it hit hne hb
      cases isLeft with
      | true =>
        rcases b3 hc it hit hne hb with h | h
        · exact .inl ((c2.1.trans d2).1.hasEdge _ _ h)
        · exact .inr h
      | false =>
        rcases c3 hc it hit hne hb with h | h
        · exact .inl (d2.1.hasEdge _ _ h)
        · exact .inr h

theorem Done.later {i : Input P K} {both : List Int} {ll : LH} {l l' : Loop K} (h : Done i both ll l)
    (hl : LoopExt i l l') : Done i both ll l' := by
  refine ⟨fun it a b c x d => hl.ext.1.mem _ _ x (h.succ it a b c x d), ?_, ?_⟩
  · intro hc isLeft it hit hne hb
    rcases h.side hc isLeft it hit hne hb with h1 | ⟨h1, e, he, h2⟩
    · exact .inl (hl.ext.1.hasEdge _ _ h1)
    · refine .inr ⟨h1, e, ?_, h2⟩
      cases isLeft with
      | true => exact hl.left e he
      | false => exact hl.right e he
  · intro hc r hr hb
    have := h.conflict hc r hr hb
    exact ⟨fun a b => hl.ext.1.hasEdge _ _ (this.1 a b), fun a b x hx c => hl.ext.1.mem _ _ x (this.2 a b x hx c)⟩

theorem laneletLoop_spec (i : Input P K) (hi : InputOk i) (ok : CostsOk i) (s : St K) (hs : IndexOk i s)
    (hv : s.g.vertices = allVertices i) :
    ∃ l, (allLanelets i).foldlM (laneletStep i) ⟨s, [], []⟩ = some l ∧ LoopExt i ⟨s, [], []⟩ l ∧
      ∀ ll ∈ allLanelets i, Done i s.both ll l :=
  foldlM_inv (laneletStep i) (LoopExt i)
    (fun l => IndexOk i l.s ∧ l.s.g.vertices = allVertices i ∧ l.s.both = s.both)
    (fun ll l => Done i s.both ll l) (LoopExt.refl i) (fun _ _ _ => LoopExt.trans)
    (fun l l' h hl => ⟨by
        have := h.1
        unfold IndexOk at this ⊢
        rw [hl.index]
        exact this, by rw [hl.ext.1.vertices]; exact h.2.1, hl.both.trans h.2.2⟩)
    (fun _ _ _ => Done.later) (allLanelets i)
    (fun ll hll l h => by
      obtain ⟨l', h1, h2, h3⟩ := laneletStep_spec i hi ok l h.1 h.2.1 ll hll
      rw [h.2.2] at h3
      exact ⟨l', h1, h2, h3⟩)
    ⟨s, [], []⟩ ⟨hs, hv, rfl⟩

/-! ### lane changes -/

/-- what the lane changes of one direction add to the graph -/
structure Changes (i : Input P K) (isLeft : Bool) (m : List Entry) (g g' : RGraph Prim K) : Prop where
  ext : Ext i .changes g g'
  next : ∀ ll, nextOf g' ll = nextOf g ll ∧ prevOf g' ll = prevOf g ll
  collected : ∀ e ∈ m, ∃ c, c.head? = some (e.src, e.target) ∧ Sequence (prevOf g) (nextOf g) c ∧
    (∀ p ∈ c, ∃ e ∈ m, p = (e.src, e.target)) ∧
    edgesOf g' (.inl e.src) (.inl e.target) = edgesOf g (.inl e.src) (.inl e.target) ++
      i.costs.zipIdx.map (laneChangeInfo i isLeft c)
  other : ∀ a b, (∀ e ∈ m, (e.src, e.target) ≠ (a, b)) → edgesOf g' (.inl a) (.inl b) = edgesOf g (.inl a) (.inl b)

theorem pending_eq_pairs (m : List Entry) (h : ∀ e ∈ m, e.visited = false) : pending m = pairs m := by
  unfold pending pairs
  rw [List.filter_eq_self.mpr]
  intro e he; simp [h e he]

theorem sequence_suffix (prev next : LH → Option (List LH)) (c ch : List (LH × LH)) (h : c <:+ ch)
    (hs : Sequence prev next ch) : Sequence prev next c := by
  obtain ⟨t, rfl⟩ := h
  induction t with
  | nil => exact hs
  | cons x t ih =>
    apply ih
    cases htc : t ++ c with
    | nil => trivial
    | cons y r => rw [List.cons_append, htc] at hs; exact hs.2

theorem plusChain_ext (i : Input P K) (isLeft : Bool) (ch : List (LH × LH))
    (h : ∀ p ∈ ch, p.1 ∈ allLanelets i ∧ p.2 ∈ allLanelets i ∧ p.1 ≠ p.2 ∧ Beside i isLeft p.1 p.2 ∧
      i.rules.change p.1 p.2 = true) : ∀ g, Ext i .changes g (plusChain i isLeft ch g) := by
  induction ch with
  | nil => intro g; exact Ext.refl i _ g
  | cons p ch ih =>
    intro g
    unfold plusChain
    refine Ext.trans ?_ (ih (fun q hq => h q (by simp [hq])) _)
    obtain ⟨h1, h2, h3, h4, h5⟩ := h p (by simp)
    refine ⟨.one (.change isLeft p.1 p.2 ch h1 h2 h3 h4 h5), fun hs => hs.plus_other _ _ _ (.inl ?_)⟩
    intro x hx
    obtain ⟨ci, -, rfl⟩ := List.mem_map.mp hx
    unfold laneChangeInfo
    cases isLeft <;> split <;> simp only [] <;> decide

theorem foldl_plusChain_ext (i : Input P K) (isLeft : Bool) (chs : List (List (LH × LH)))
    (h : ∀ p ∈ chs.flatten, p.1 ∈ allLanelets i ∧ p.2 ∈ allLanelets i ∧ p.1 ≠ p.2 ∧ Beside i isLeft p.1 p.2 ∧
      i.rules.change p.1 p.2 = true) :
    ∀ g, Ext i .changes g (chs.foldl (fun g ch => plusChain i isLeft ch g) g) := by
  induction chs with
  | nil => intro g; exact Ext.refl i _ g
  | cons c chs ih =>
    intro g
    rw [List.foldl_cons]
    exact (plusChain_ext i isLeft c (fun p hp => h p (by simp [hp])) g).trans
      (ih (fun p hp => h p (by rw [List.flatten_cons]; exact List.mem_append_right _ hp)) _)

theorem foldl_plusChain_next (i : Input P K) (isLeft : Bool) (chs : List (List (LH × LH))) (ll : LH) :
    ∀ g, nextOf (chs.foldl (fun g ch => plusChain i isLeft ch g) g) ll = nextOf g ll ∧
      prevOf (chs.foldl (fun g ch => plusChain i isLeft ch g) g) ll = prevOf g ll := by
  induction chs with
  | nil => intro g; exact ⟨rfl, rfl⟩
  | cons c chs ih =>
    intro g
    rw [List.foldl_cons]
    have h1 := ih (plusChain i isLeft c g)
    have h2 := nextOf_plusChain i isLeft c ll g
    exact ⟨h1.1.trans h2.1, h1.2.trans h2.2⟩

theorem suffixes_count (a b : LH) (chs : List (List (LH × LH))) :
    ((chs.flatMap suffixes).filter fun c => c.head? == some (a, b)).length = chs.flatten.count (a, b) := by
  have key : ∀ ch : List (LH × LH), ((suffixes ch).filter fun c => c.head? == some (a, b)).length = ch.count (a, b) := by
    intro ch
    induction ch with
    | nil => rfl
    | cons p ch ih =>
      rw [suffixes, List.filter_cons, List.count_cons]
      by_cases h : p = (a, b)
      · subst h; simp [ih]
      · have h1 : ((p :: ch).head? == some (a, b)) = false := by simp [h]
        have h2 : (p == (a, b)) = false := by simp [h]
        rw [h1, h2]
        simp [ih]
  induction chs with
  | nil => rfl
  | cons c chs ih =>
    rw [List.flatMap_cons, List.filter_append, List.length_append, ih, key, List.flatten_cons, List.count_append]

theorem addLaneChangeEdges_spec (i : Input P K) (hi : InputOk i) (ok : CostsOk i) (isLeft : Bool) (m : List Entry)
    (hm : ColOk i isLeft m) (g : RGraph Prim K) (hv : g.vertices = allVertices i) :
    ∃ g', addLaneChangeEdges i isLeft g m = some g' ∧ Changes i isLeft m g g' := by
  have hp := hi.shuffle m
  have hin : ∀ ll ∈ allLanelets i, (.inl ll : Prim) ∈ g.vertices := by
    intro ll hll; rw [hv]; simp [allVertices, hll]
  obtain ⟨chs, h1, h2, h3⟩ := laneChangeLoop_spec i ok isLeft _ g (i.shuffle m) 0 rfl
    ((hp.map _).nodup_iff.mpr hm.1) (by intro k e hk; omega) (by
      intro p hpm
      obtain ⟨e, he, rfl⟩ := List.mem_map.mp hpm
      have := hm.2 e (hp.mem_iff.mp he)
      exact ⟨hin _ this.2.1, hin _ this.2.2.1⟩)
  rw [pending_eq_pairs _ (fun e he => (hm.2 e (hp.mem_iff.mp he)).1)] at h1
  have h1' : pairs m ~ chs.flatten := ((hp.map _).symm).trans h1
  have hnd : chs.flatten.Nodup := by
    rw [← h1'.nodup_iff]
    have : ((pairs m).map (·.1)).Nodup := by
      have e : (pairs m).map (·.1) = m.map (·.src) := by simp [pairs, Function.comp_def]
      rw [e]; exact hm.1
    exact (List.pairwise_map.mp this).imp fun h e => h (congrArg _ e)
  have hmem : ∀ p ∈ chs.flatten, ∃ e ∈ m, p = (e.src, e.target) := by
    intro p hpc
    obtain ⟨e, he, rfl⟩ := List.mem_map.mp (h1'.mem_iff.mpr hpc)
    exact ⟨e, he, rfl⟩
  refine ⟨_, h3, ?_, fun ll => foldl_plusChain_next i isLeft chs ll g, ?_, ?_⟩
  · apply foldl_plusChain_ext
    intro p hpc
    obtain ⟨e, he, rfl⟩ := hmem p hpc
    exact (hm.2 e he).2
  · intro e he
    have hc : chs.flatten.count (e.src, e.target) = 1 :=
      Nat.le_antisymm (List.nodup_iff_count.mp hnd _)
        (List.count_pos_iff.mpr (h1'.mem_iff.mp (List.mem_map.mpr ⟨e, he, rfl⟩)))
    rw [← suffixes_count] at hc
    obtain ⟨c, hc⟩ := List.length_eq_one_iff.mp hc
    have hcm : c ∈ (chs.flatMap suffixes).filter fun c => c.head? == some (e.src, e.target) := by rw [hc]; simp
    obtain ⟨hc1, hc2⟩ := List.mem_filter.mp hcm
    obtain ⟨ch, hch, hcs⟩ := List.mem_flatMap.mp hc1
    have hsuf := suffixes_suffix ch c hcs
    refine ⟨c, by simpa using hc2, sequence_suffix _ _ c ch hsuf.1 (h2 ch hch), ?_, ?_⟩
    · intro p hpc
      exact hmem p (List.mem_flatten.mpr ⟨ch, hch, hsuf.1.subset hpc⟩)
    · have := hm.2 e he
      rw [edgesOf_foldl_plusChain i isLeft _ _ chs g (hin _ this.2.1) (hin _ this.2.2.1), hc]
      simp
  · intro a b hne
    by_cases hab : (.inl a : Prim) ∈ g.vertices ∧ (.inl b : Prim) ∈ g.vertices
    · rw [edgesOf_foldl_plusChain i isLeft _ _ chs g hab.1 hab.2]
      have h0 : ((chs.flatMap suffixes).filter fun c => c.head? == some (a, b)) = [] := by
        apply List.eq_nil_of_length_eq_zero
        rw [suffixes_count]
        apply List.count_eq_zero.mpr
        intro hmem'
        obtain ⟨e, he, h⟩ := hmem _ hmem'
        exact hne e he h.symm
      rw [h0]; simp
    · have hz : ∀ g'' : RGraph Prim K, g''.vertices = g.vertices → edgesOf g'' (.inl a) (.inl b) = [] := by
        intro g'' hg''
        unfold edgesOf
        have ha := getVertex_isSome g'' (.inl a)
        have hb := getVertex_isSome g'' (.inl b)
        rw [hg''] at ha hb
        cases h1 : g''.getVertex (.inl a) with
        | none => rfl
        | some u =>
          cases h2 : g''.getVertex (.inl b) with
          | none => rfl
          | some v => exact absurd ⟨ha.mp (by simp [h1]), hb.mp (by simp [h2])⟩ hab
      rw [hz _ (foldl_plusChain_vertices i isLeft chs g), hz g rfl]

/-! ### areas -/

theorem Grow.areas_lanelets {i : Input P K} {g g' : RGraph Prim K} (h : Grow i .areas g g') (a b : LH) :
    edgesOf g' (.inl a) (.inl b) = edgesOf g (.inl a) (.inl b) := by
  induction h with
  | refl => rfl
  | step a' b' xs _ r ih =>
    rw [edgesOf_plus, ih, if_neg, List.append_nil]
    rintro ⟨rfl, rfl, -⟩
    cases r

/-- what has been done for an area and a lanelet of the map -/
def DoneAL (i : Input P K) (ar : Nat) (c : LH) (g : RGraph Prim K) : Prop :=
  ∀ ll, ll = c ∨ ll = invertL c → (.inl ll : Prim) ∈ allVertices i →
    (i.rules.passAL ar ll = true → ∀ x ∈ infos i (.inr ar) (.inl ll) Area, x ∈ edgesOf g (.inr ar) (.inl ll)) ∧
    (i.rules.passLA ll ar = true → ∀ x ∈ infos i (.inl ll) (.inr ar) Area, x ∈ edgesOf g (.inl ll) (.inr ar))

/-- the same for conflicts -/
def DoneConflict (i : Input P K) (ar : Nat) (c : LH) (g : RGraph Prim K) : Prop :=
  (∀ ll, ll = c ∨ ll = invertL c → i.rules.passAL ar ll = false ∧ i.rules.passLA ll ar = false) →
    i.overlapsAL ar c = true → ∀ x ∈ infos i (.inl c) (.inr ar) Conflicting, x ∈ edgesOf g (.inl c) (.inr ar)

theorem DoneAL.later {i : Input P K} {ar : Nat} {c : LH} {g g' : RGraph Prim K} (h : DoneAL i ar c g)
    (hr : Ext i .areas g g') : DoneAL i ar c g' :=
  fun ll hll hm => ⟨fun hp x hx => hr.1.mem _ _ x ((h ll hll hm).1 hp x hx),
      fun hp x hx => hr.1.mem _ _ x ((h ll hll hm).2 hp x hx)⟩

theorem DoneConflict.later {i : Input P K} {ar : Nat} {c : LH} {g g' : RGraph Prim K} (h : DoneConflict i ar c g)
    (hr : Ext i .areas g g') : DoneConflict i ar c g' :=
  fun h1 h2 x hx => hr.1.mem _ _ x (h h1 h2 x hx)

theorem maybe_step (i : Input P K) (ok : CostsOk i) (g : RGraph Prim K) (hv : g.vertices = allVertices i) (a b : Prim)
    (rel : RelationType) (hl : rel ≠ Left) (hr : rel ≠ Right) (c : Bool) (r : c = true → Reason i .areas g a b (infos i a b rel))
    (hs : ∀ u v, a = .inl u → b ≠ .inl v) :
    ∃ g', assignIf i c g a b rel = some g' ∧ Ext i .areas g g' ∧
      (c = true → a ∈ allVertices i → b ∈ allVertices i → ∀ x ∈ infos i a b rel, x ∈ edgesOf g' a b) := by
  unfold assignIf
  cases c with
  | true =>
    simp only [if_true]
    refine ⟨_, assignCosts_eq i ok g a b rel hl hr, .one (r rfl) (.inr hs), ?_⟩
    intro _ h1 h2 x hx
    rw [edgesOf_plus, if_pos]
    · exact List.mem_append_right _ hx
    · rw [hv]; exact ⟨rfl, rfl, h1, h2⟩
  | false =>
    exact ⟨g, rfl, Ext.refl i _ g, by simp⟩

theorem areaLanelet_step (i : Input P K) (hi : InputOk i) (ok : CostsOk i) (g : RGraph Prim K)
    (hv : g.vertices = allVertices i) (ar : Nat) (har : ar ∈ passableAreas i) :
    ∃ g', addAreaLaneletEdges i g ar = some g' ∧ Ext i .areas g g' ∧
      ∀ c ∈ passable i, i.boxAL ar c = true → DoneAL i ar c g' ∧ DoneConflict i ar c g' := by
  have hva : (.inr ar : Prim) ∈ allVertices i := by simp [allVertices, har]
  obtain ⟨g', h1, h2, h3⟩ := foldlM_inv
    (fun (g : RGraph Prim K) c => do
      let g1 ← assignIf i (i.rules.passAL ar c) g (.inr ar) (.inl c) Area
      let g2 ← assignIf i (i.rules.passAL ar (invertL c)) g1 (.inr ar) (.inl (invertL c)) Area
      let g3 ← assignIf i (i.rules.passLA c ar) g2 (.inl c) (.inr ar) Area
      let g4 ← assignIf i (i.rules.passLA (invertL c) ar) g3 (.inl (invertL c)) (.inr ar) Area
      if i.rules.passAL ar c || i.rules.passAL ar (invertL c) || i.rules.passLA c ar || i.rules.passLA (invertL c) ar then
        some g4
      else assignIf i (i.overlapsAL ar c) g4 (.inl c) (.inr ar) Conflicting)
    (Ext i .areas) (fun g => g.vertices = allVertices i) (fun c g => DoneAL i ar c g ∧ DoneConflict i ar c g)
    (Ext.refl i _) (fun _ _ _ => Ext.trans) (fun g g' hg hr => by rw [hr.1.vertices]; exact hg)
    (fun c g g' ht hr => ⟨ht.1.later hr, ht.2.later hr⟩)
    (i.orderSearch ((passable i).filter (i.boxAL ar)))
    (fun c hcm g hg => by
      have hcp : c ∈ passable i := (List.mem_filter.mp ((hi.search _).mem_iff.mp hcm)).1
      have hci : c.inv = false := hi.notInverted c (List.mem_filter.mp hcp).1
      have hvc : (.inl c : Prim) ∈ allVertices i := by simp [allVertices, allLanelets, hcp]
      obtain ⟨g1, a1, a2, a3⟩ := maybe_step i ok g hg (.inr ar) (.inl c) Area (by decide) (by decide)
        (i.rules.passAL ar c) (.areaLanelet ar c) (by simp)
      have hg1 : g1.vertices = allVertices i := by rw [a2.1.vertices]; exact hg
      obtain ⟨g2, b1, b2, b3⟩ := maybe_step i ok g1 hg1 (.inr ar) (.inl (invertL c)) Area (by decide) (by decide)
        (i.rules.passAL ar (invertL c)) (.areaLanelet ar _) (by simp)
      have hg2 : g2.vertices = allVertices i := by rw [b2.1.vertices]; exact hg1
      obtain ⟨g3, c1, c2, c3⟩ := maybe_step i ok g2 hg2 (.inl c) (.inr ar) Area (by decide) (by decide)
        (i.rules.passLA c ar) (.laneletArea c ar) (by simp)
      have hg3 : g3.vertices = allVertices i := by rw [c2.1.vertices]; exact hg2
      obtain ⟨g4, d1, d2, d3⟩ := maybe_step i ok g3 hg3 (.inl (invertL c)) (.inr ar) Area (by decide) (by decide)
        (i.rules.passLA (invertL c) ar) (.laneletArea _ ar) (by simp)
      have hg4 : g4.vertices = allVertices i := by rw [d2.1.vertices]; exact hg3
      have hdone : DoneAL i ar c g4 := by
        rintro ll (rfl | rfl) hm
        · exact ⟨fun hp x hx => ((b2.trans c2).trans d2).1.mem _ _ x (a3 hp hva hm x hx),
            fun hp x hx => d2.1.mem _ _ x (c3 hp hm hva x hx)⟩
        · exact ⟨fun hp x hx => (c2.trans d2).1.mem _ _ x (b3 hp hva hm x hx), fun hp x hx => d3 hp hm hva x hx⟩
      simp only [a1, b1, c1, d1, Option.bind_eq_bind, Option.bind_some]
      by_cases hq : (i.rules.passAL ar c || i.rules.passAL ar (invertL c) || i.rules.passLA c ar ||
          i.rules.passLA (invertL c) ar) = true
      · rw [if_pos hq]
        refine ⟨g4, rfl, ((a2.trans b2).trans c2).trans d2, hdone, fun hno _ => ?_⟩
        have n1 := hno c (.inl rfl)
        have n2 := hno (invertL c) (.inr rfl)
        rw [n1.1, n1.2, n2.1, n2.2] at hq
        simp at hq
      · rw [if_neg hq]
        have hno : ∀ ll, ll = c ∨ ll = invertL c → i.rules.passAL ar ll = false ∧ i.rules.passLA ll ar = false := by
          simp only [Bool.or_eq_true, not_or, Bool.not_eq_true] at hq
          rintro ll (rfl | rfl)
          · exact ⟨hq.1.1.1, hq.1.2⟩
          · exact ⟨hq.1.1.2, hq.2⟩
        obtain ⟨g5, e1, e2, e3⟩ := maybe_step i ok g4 hg4 (.inl c) (.inr ar) Conflicting (by decide) (by decide)
          (i.overlapsAL ar c) (fun h => .conflictLaneletArea c ar h hci hno) (by simp)
        exact ⟨g5, e1, (((a2.trans b2).trans c2).trans d2).trans e2, hdone.later e2, fun _ ho x hx => e3 ho hvc hva x hx⟩)
    g hv
  exact ⟨g', h1, h2, fun c hc hb => h3 c ((hi.search _).mem_iff.mpr (List.mem_filter.mpr ⟨hc, hb⟩))⟩

theorem areaArea_step (i : Input P K) (hi : InputOk i) (ok : CostsOk i) (g : RGraph Prim K)
    (hv : g.vertices = allVertices i) (ar : Nat) (har : ar ∈ passableAreas i) :
    ∃ g', addAreaAreaEdges i g ar = some g' ∧ Ext i .areas g g' ∧
      ∀ c ∈ passableAreas i, i.boxAA ar c = true → c ≠ ar → i.rules.passAA ar c = true →
        ∀ x ∈ infos i (.inr ar) (.inr c) Area, x ∈ edgesOf g' (.inr ar) (.inr c) := by
  have hva : (.inr ar : Prim) ∈ allVertices i := by simp [allVertices, har]
  obtain ⟨g', h1, h2, h3⟩ := foldlM_inv
    (fun (g : RGraph Prim K) c =>
      if c = ar then some g
      else if i.rules.passAA ar c then assignCosts i g (.inr ar) (.inr c) Area
      else if i.overlapsAA ar c then assignCosts i g (.inr c) (.inr ar) Conflicting
      else some g)
    (Ext i .areas) (fun g => g.vertices = allVertices i)
    (fun c g => c ≠ ar → i.rules.passAA ar c = true → ∀ x ∈ infos i (.inr ar) (.inr c) Area, x ∈ edgesOf g (.inr ar) (.inr c))
    (Ext.refl i _) (fun _ _ _ => Ext.trans) (fun g g' hg hr => by rw [hr.1.vertices]; exact hg)
    (fun c g g' ht hr hne hp x hx => hr.1.mem _ _ x (ht hne hp x hx))
    (i.orderSearchA ((passableAreas i).filter (i.boxAA ar)))
    (fun c hc g hg => by
      have hcp : c ∈ passableAreas i := (List.mem_filter.mp ((hi.searchA _).mem_iff.mp hc)).1
      have hvc : (.inr c : Prim) ∈ allVertices i := by simp [allVertices, hcp]
      by_cases hca : c = ar
      · rw [if_pos hca]
        exact ⟨g, rfl, Ext.refl i _ g, fun h => absurd hca h⟩
      · rw [if_neg hca]
        by_cases hp : i.rules.passAA ar c = true
        · rw [if_pos hp]
          refine ⟨_, assignCosts_eq i ok g _ _ _ (by decide) (by decide),
            .one (.areaArea ar c (fun h => hca h.symm) hp) (.inl (by decide)), fun _ _ x hx => ?_⟩
          rw [edgesOf_plus, if_pos]
          · exact List.mem_append_right _ hx
          · rw [hg]; exact ⟨rfl, rfl, hva, hvc⟩
        · rw [if_neg hp]
          obtain ⟨g5, e1, e2, -⟩ := maybe_step i ok g hg (.inr c) (.inr ar) Conflicting (by decide) (by decide)
            (i.overlapsAA ar c) (fun h => .conflictAreas c ar hca h (by simpa using hp)) (by simp)
          exact ⟨g5, e1, e2, fun _ h => absurd h hp⟩)
    g hv
  exact ⟨g', h1, h2, fun c hc hb => h3 c ((hi.searchA _).mem_iff.mpr (List.mem_filter.mpr ⟨hc, hb⟩))⟩

theorem addAreaEdges_spec (i : Input P K) (hi : InputOk i) (ok : CostsOk i) (g : RGraph Prim K)
    (hv : g.vertices = allVertices i) :
    ∃ g', addAreaEdges i g = some g' ∧ Ext i .areas g g' ∧ ∀ ar ∈ passableAreas i,
      (∀ c ∈ passable i, i.boxAL ar c = true → DoneAL i ar c g' ∧ DoneConflict i ar c g') ∧
      ∀ c ∈ passableAreas i, i.boxAA ar c = true → c ≠ ar → i.rules.passAA ar c = true →
        ∀ x ∈ infos i (.inr ar) (.inr c) Area, x ∈ edgesOf g' (.inr ar) (.inr c) :=
  foldlM_inv (fun g ar => do addAreaAreaEdges i (← addAreaLaneletEdges i g ar) ar)
    (Ext i .areas) (fun g => g.vertices = allVertices i)
    (fun ar g' => (∀ c ∈ passable i, i.boxAL ar c = true → DoneAL i ar c g' ∧ DoneConflict i ar c g') ∧
      ∀ c ∈ passableAreas i, i.boxAA ar c = true → c ≠ ar → i.rules.passAA ar c = true →
        ∀ x ∈ infos i (.inr ar) (.inr c) Area, x ∈ edgesOf g' (.inr ar) (.inr c))
    (Ext.refl i _) (fun _ _ _ => Ext.trans) (fun g g' hg hr => by rw [hr.1.vertices]; exact hg)
    (fun ar g g' ht hr => ⟨fun c hc hb => ⟨(ht.1 c hc hb).1.later hr, (ht.1 c hc hb).2.later hr⟩,
      fun c hc hb hne hp x hx => hr.1.mem _ _ x (ht.2 c hc hb hne hp x hx)⟩)
    (passableAreas i)
    (fun ar har g hg => by
      obtain ⟨g1, a1, a2, a3⟩ := areaLanelet_step i hi ok g hg ar har
      obtain ⟨g2, b1, b2, b3⟩ := areaArea_step i hi ok g1 (by rw [a2.1.vertices]; exact hg) ar har
      refine ⟨g2, by simp only [a1, Option.bind_eq_bind, Option.bind_some]; exact b1, a2.trans b2, ?_, b3⟩
      intro c hc hb
      exact ⟨(a3 c hc hb).1.later b2, (a3 c hc hb).2.later b2⟩)
    g hv

/-! ### the whole construction -/

/-- the phases of the construction and what they establish -/
structure Built (i : Input P K) (s : St K) (l : Loop K) (gl gr g : RGraph Prim K) : Prop where
  start : s.g.vertices = allVertices i ∧ s.g.edges = [] ∧ s.g.numRoutingCosts = i.costs.length ∧
    s.both = (bidirectional i).map fun ll => i.llId ll.data
  lanes : LoopExt i ⟨s, [], []⟩ l
  done : ∀ ll ∈ allLanelets i, Done i s.both ll l
  left : Changes i true l.toLeft l.s.g gl
  right : Changes i false l.toRight gl gr
  areas : Ext i .areas gr g
  doneAreas : ∀ ar ∈ passableAreas i,
      (∀ c ∈ passable i, i.boxAL ar c = true → DoneAL i ar c g ∧ DoneConflict i ar c g) ∧
      ∀ c ∈ passableAreas i, i.boxAA ar c = true → c ≠ ar → i.rules.passAA ar c = true →
        ∀ x ∈ infos i (.inr ar) (.inr c) Area, x ∈ edgesOf g (.inr ar) (.inr c)

theorem build_phases (i : Input P K) (hi : InputOk i) (ok : CostsOk i) :
    ∃ s l gl gr g, build i = some g ∧ Built i s l gl gr g := by
  obtain ⟨s, s1, s2, s3, s4, s5, s6⟩ := initial_spec i hi
  obtain ⟨l, l1, l2, l3⟩ := laneletLoop_spec i hi ok s s2 s3
  have hl0 : ∀ b, ColOk i b [] := fun b => ⟨List.nodup_nil, by simp⟩
  have hvl : l.s.g.vertices = allVertices i := by rw [l2.ext.1.vertices]; exact s3
  obtain ⟨gl, a1, a2⟩ := addLaneChangeEdges_spec i hi ok true l.toLeft (l2.leftOk (hl0 _)) l.s.g hvl
  have hvgl : gl.vertices = allVertices i := by rw [a2.ext.1.vertices]; exact hvl
  obtain ⟨gr, b1, b2⟩ := addLaneChangeEdges_spec i hi ok false l.toRight (l2.rightOk (hl0 _)) gl hvgl
  obtain ⟨g, c1, c2, c3⟩ := addAreaEdges_spec i hi ok gr (by rw [b2.ext.1.vertices]; exact hvgl)
  refine ⟨s, l, gl, gr, g, ?_, ⟨s3, s4, s5, s6⟩, l2, l3, a2, b2, c2, c3⟩
  unfold build addLaneletEdges
  simp only [s1, l1, a1, b1, Option.bind_eq_bind, Option.bind_some]
  exact c1

theorem edgesOf_start (i : Input P K) (s : St K) (h : s.g.edges = []) (a b : Prim) : edgesOf s.g a b = [] := by
  unfold edgesOf
  rw [h]
  cases s.g.getVertex a <;> cases s.g.getVertex b <;> rfl

/-- every edge has a reason -/
theorem Built.reason {i : Input P K} {s : St K} {l : Loop K} {gl gr g : RGraph Prim K} (h : Built i s l gl gr g)
    (a b : Prim) (x : EdgeInfo K) (hx : x ∈ edgesOf g a b) : ∃ ph g' xs, Reason i ph g' a b xs ∧ x ∈ xs ∧ ∀ y ∈ xs, y ∈ edgesOf g a b := by
  rcases h.areas.1.reason a b x hx with hx | h'
  · rcases h.right.ext.1.reason a b x hx with hx | ⟨g', xs, h1, h2, h3⟩
    · rcases h.left.ext.1.reason a b x hx with hx | ⟨g', xs, h1, h2, h3⟩
      · rcases h.lanes.ext.1.reason a b x hx with hx | ⟨g', xs, h1, h2, h3⟩
        · rw [edgesOf_start i s h.start.2.1] at hx; simp at hx
        · exact ⟨_, g', xs, h1, h2, fun y hy => h.areas.1.mem _ _ y (h.right.ext.1.mem _ _ y (h.left.ext.1.mem _ _ y (h3 y hy)))⟩
      · exact ⟨_, g', xs, h1, h2, fun y hy => h.areas.1.mem _ _ y (h.right.ext.1.mem _ _ y (h3 y hy))⟩
    · exact ⟨_, g', xs, h1, h2, fun y hy => h.areas.1.mem _ _ y (h3 y hy)⟩
  · exact ⟨_, h'⟩

theorem Built.vertices {i : Input P K} {s : St K} {l : Loop K} {gl gr g : RGraph Prim K} (h : Built i s l gl gr g) :
    g.vertices = allVertices i := by
  rw [h.areas.1.vertices, h.right.ext.1.vertices, h.left.ext.1.vertices, h.lanes.ext.1.vertices]; exact h.start.1

theorem Built.mem_of_loop {i : Input P K} {s : St K} {l : Loop K} {gl gr g : RGraph Prim K} (h : Built i s l gl gr g)
    (a b : Prim) (x : EdgeInfo K) (hx : x ∈ edgesOf l.s.g a b) : x ∈ edgesOf g a b :=
  h.areas.1.mem _ _ x (h.right.ext.1.mem _ _ x (h.left.ext.1.mem _ _ x hx))

theorem edgesOf_vertices (g : RGraph Prim K) (a b : Prim) (x : EdgeInfo K) (h : x ∈ edgesOf g a b) :
    a ∈ g.vertices ∧ b ∈ g.vertices := by
  unfold edgesOf at h
  have ha := getVertex_isSome g a
  have hb := getVertex_isSome g b
  cases h1 : g.getVertex a with
  | none => rw [h1] at h; simp at h
  | some u =>
    cases h2 : g.getVertex b with
    | none => rw [h1, h2] at h; simp at h
    | some v => exact ⟨ha.mp (by simp [h1]), hb.mp (by simp [h2])⟩

end Verif.Build
