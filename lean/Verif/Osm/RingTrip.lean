import Verif.Osm.RingProps

/-!
C34: rings of linestrings that are written in order are assembled again.
-/
namespace Verif.Osm
open scoped List

/-! ### specification -/

/-- the linestring in its own direction -/
def Line.data (l : Line) : Line := { l with inv := false }

/-- the first linestring of the ring is used in reverse -/
def startsInverted (r : List Line) : Bool := r.head?.any (·.inv)

/-- the ring after assembly: starts at the second linestring if the first one is used in reverse -/
def normalRing (r : List Line) : List Line := if startsInverted r then r.tail ++ r.take 1 else r

/-- rings whose linestrings meet at distinct points -/
structure SimpleRings (rings : List (List Line)) : Prop where
  ring : ∀ r ∈ rings, IsRing r
  points : ∀ r ∈ rings, ∀ l ∈ r, l.pts ≠ []
  distinct : (rings.flatten.map Line.front).Nodup

/-- the ring is valid in its direction, and only in this direction -/
def OrientedRing (valid : List Line → Bool) (r : List Line) : Prop :=
  valid (normalRing r) = true ∧ (startsInverted r = true → valid (reverseRing (normalRing r)) = false)

/-! ### proofs -/

theorem data_front (l : Line) : l.data.front = if l.inv then l.back else l.front := by
  unfold Line.data Line.front Line.back Line.view
  cases l.inv <;> simp

theorem data_back (l : Line) : l.data.back = if l.inv then l.front else l.back := by
  unfold Line.data Line.front Line.back Line.view
  cases l.inv <;> simp

theorem data_invert (l : Line) : l.invert.data = l.data := rfl

theorem data_touch {l : Line} {p : Int} (h : l.data.back = some p ∨ l.data.front = some p) : l.front = some p ∨ l.back = some p := by
  rw [data_front, data_back] at h
  cases hi : l.inv <;> simp [hi] at h <;> tauto

theorem closeRing_done (valid : List Line → Bool) {s : RingState} {f l : Line} {p : Int} (hf : s.cur.head? = some f)
    (hl : s.cur.getLast? = some l) (h1 : f.front = some p) (h2 : l.back = some p) (hv : valid s.cur = true) :
    closeRing valid s = some { s with rings := s.rings ++ [s.cur], cur := [] } := by
  unfold closeRing
  simp [hf, hl, h1, h2, hv]

theorem closeRing_reversed (valid : List Line → Bool) {s : RingState} {f l : Line} {p : Int} (hf : s.cur.head? = some f)
    (hl : s.cur.getLast? = some l) (h1 : f.front = some p) (h2 : l.back = some p) (hv : valid s.cur = false)
    (hv' : valid (reverseRing s.cur) = true) :
    closeRing valid s = some { s with rings := s.rings ++ [reverseRing s.cur], cur := [] } := by
  unfold closeRing
  simp [hf, hl, h1, h2, hv, hv']

theorem closeRing_open (valid : List Line → Bool) {s : RingState} {f l : Line} {p q : Int} (hf : s.cur.head? = some f)
    (hl : s.cur.getLast? = some l) (h1 : f.front = some p) (h2 : l.back = some q) (hne : q ≠ p) :
    closeRing valid s = some s := by
  unfold closeRing
  simp [hf, hl, h1, h2, hne]

/-- the ring that closing a ring yields -/
def accepted (valid : List Line → Bool) (w : List Line) : List Line := if valid w then w else reverseRing w

theorem closeRing_accept (valid : List Line → Bool) {s : RingState} (hr : IsRing s.cur)
    (hv : valid s.cur = true ∨ valid (reverseRing s.cur) = true) :
    closeRing valid s = some { s with rings := s.rings ++ [accepted valid s.cur], cur := [] } := by
  obtain ⟨-, f, l, p, h1, h2, h3, h4⟩ := hr
  unfold accepted
  cases hc : valid s.cur with
  | true => simp only [if_true]; exact closeRing_done valid h1 h2 h3 h4 hc
  | false =>
    simp only [Bool.false_eq_true, if_false]
    exact closeRing_reversed valid h1 h2 h3 h4 hc (by simpa [hc] using hv)

theorem nodup_map_append {α β : Type} {f : α → β} {a b : List α} (h : ((a ++ b).map f).Nodup) :
    ∀ x ∈ a, ∀ y ∈ b, f x ≠ f y := by
  rw [List.map_append, List.nodup_append] at h
  intro x hx y hy
  exact h.2.2 _ (List.mem_map_of_mem hx) _ (List.mem_map_of_mem hy)

theorem inj_of_nodup_map {α β : Type} {f : α → β} {a : List α} (h : (a.map f).Nodup) {x y : α} (hx : x ∈ a) (hy : y ∈ a)
    (he : f x = f y) : x = y := by
  induction a with
  | nil => cases hx
  | cons z a ih =>
    rw [List.map_cons, List.nodup_cons] at h
    rcases List.mem_cons.mp hx with hxz | hxa <;> rcases List.mem_cons.mp hy with hyz | hya
    · rw [hxz, hyz]
    · exact absurd (List.mem_map.mpr ⟨y, hya, by rw [← he, hxz]⟩) h.1
    · exact absurd (List.mem_map.mpr ⟨x, hxa, by rw [he, hyz]⟩) h.1
    · exact ih h.2 hxa hya

/-- the rest `Q` of a ring is found in the order of the ring -/
theorem run_ring (valid : List Line → Bool) (O : List Line) (hO : ∀ y ∈ O, y.pts ≠ []) (w : List Line) (hr : IsRing w)
    (hp : ∀ l ∈ w, l.pts ≠ []) (hf : (w.map Line.front).Nodup) (hb : (w.map Line.back).Nodup)
    (hv : valid w = true ∨ valid (reverseRing w) = true)
    (hno : ∀ y ∈ O, ∀ l ∈ w, y.front ≠ l.front ∧ y.back ≠ l.front) (rings : List (List Line)) (errs : List RingError) :
    ∀ (Q P A : List Line), w = P ++ Q → P ≠ [] → Q ≠ [] → A ~ Q.map Line.data →
      ringLoop valid ⟨rings, P, A ++ O, errs⟩ = ringLoop valid ⟨rings ++ [accepted valid w], [], O, errs⟩ := by
  intro Q
  induction Q with
  | nil => intro P A _ _ h; exact absurd rfl h
  | cons q Q ih =>
    intro P A hw hP _ hA
    obtain ⟨P', p, rfl⟩ : ∃ P' p, P = P' ++ [p] := ⟨_, _, (List.dropLast_append_getLast hP).symm⟩
    have hpw : p ∈ w := by rw [hw]; simp
    have hqw : q ∈ w := by rw [hw]; simp
    -- the junction
    obtain ⟨j, hj1, hj2⟩ : ∃ j, p.back = some j ∧ q.front = some j := by
      have hc := hr.1
      unfold Connected at hc
      rw [hw, List.append_assoc, List.singleton_append] at hc
      have := (List.isChain_append.mp hc).2.1
      exact (List.isChain_cons_cons.mp this).1
    have hbp : ∀ x ∈ q :: Q, x.back ≠ p.back := by
      intro x hx
      have := nodup_map_append (a := P' ++ [p]) (b := q :: Q) (by rw [← hw]; exact hb) p (by simp) x hx
      exact fun h => this h.symm
    have hall : ∀ y ∈ A ++ O, y.pts ≠ [] := by
      intro y hy
      rcases List.mem_append.mp hy with hy | hy
      · obtain ⟨x, hx, rfl⟩ := List.mem_map.mp (hA.subset hy)
        exact hp x (by rw [hw]; simp only [List.mem_append]; exact .inr hx)
      · exact hO y hy
    have huniq : ∀ y ∈ A, y.back = some j ∨ y.front = some j → y = q.data := by
      intro y hy ht
      obtain ⟨x, hx, rfl⟩ := List.mem_map.mp (hA.subset hy)
      rcases data_touch ht with h | h
      · have hxw : x ∈ w := by rw [hw]; exact List.mem_append_right _ hx
        rw [inj_of_nodup_map hf hxw hqw (h.trans hj2.symm)]
      · exact absurd (h.trans hj1.symm) (hbp x hx)
    have hOno : ∀ y ∈ O, ¬ (y.back = some j ∨ y.front = some j) := by
      intro y hy ht
      obtain ⟨h1, h2⟩ := hno y hy q hqw
      rw [hj2] at h1 h2
      tauto
    have htouch : q.data.back = some j ∨ q.data.front = some j := by
      rw [data_front, data_back]
      cases q.inv <;> simp [hj2]
    -- the search
    obtain ⟨i, x, hi, hx, hxt⟩ : ∃ i x, findNext j (A ++ O) = some (some i) ∧ (A ++ O)[i]? = some x ∧
        (x.back = some j ∨ x.front = some j) := by
      rcases findNext_spec j (A ++ O) hall with ⟨-, h⟩ | h
      · have hq : q.data ∈ A ++ O := List.mem_append_left _ (hA.symm.subset (by simp))
        have := h _ hq
        tauto
      · exact h
    have hlt : i < A.length := by
      by_contra hc
      rw [List.getElem?_append_right (by omega)] at hx
      exact hOno x (List.mem_of_getElem? hx) hxt
    rw [List.getElem?_append_left hlt] at hx
    have hxq : x = q.data := huniq x (List.mem_of_getElem? hx) hxt
    subst hxq
    have hA' : A.eraseIdx i ~ Q.map Line.data := by
      have := (perm_eraseIdx A i _ hx).symm.trans hA
      exact List.Perm.cons_inv this
    have hxnew : (if q.data.back = some j then q.data.invert else q.data) = q := by
      cases hq : q.inv with
      | true =>
        have : q.data.back = some j := by rw [data_back, hq]; simp [hj2]
        rw [if_pos this]
        obtain ⟨id, pts, inv⟩ := q
        simp only at hq
        subst hq
        rfl
      | false =>
        have hd : q.data = q := by
          obtain ⟨id, pts, inv⟩ := q
          simp only at hq
          subst hq
          rfl
        rw [hd, if_neg]
        exact fun h => hbp q (by simp) (h.trans hj1.symm)
    have hback : ∃ b, q.data.back = some b := back_some (hp q hqw)
    obtain ⟨b, hbk⟩ := hback
    have hcond : (if b = j then q.data.invert else q.data) = q := by
      rw [hbk] at hxnew
      simpa using hxnew
    have hstep : ringLoop valid ⟨rings, P' ++ [p], A ++ O, errs⟩ =
        (closeRing valid ⟨rings, P' ++ [p] ++ [q], A.eraseIdx i ++ O, errs⟩).bind (ringLoop valid) := by
      have hne : ∃ l rest, A ++ O = l :: rest := by
        cases h : A ++ O with
        | nil =>
          rw [List.append_eq_nil_iff] at h
          rw [h.1] at hlt
          cases hlt
        | cons l rest => exact ⟨l, rest, rfl⟩
      obtain ⟨l, rest, he⟩ := hne
      rw [ringLoop]
      simp only [he]
      unfold ringStep
      have hemp : ((P' ++ [p]).isEmpty) = false := by simp
      simp only [hemp, Bool.false_eq_true, if_false, List.getLast?_append, List.getLast?_singleton, Option.some_or, bind,
        Option.bind_some, hj1]
      rw [← he, hi]
      simp only [Option.bind_some, List.getElem?_append_left hlt, hx, hbk, hcond]
      rw [List.eraseIdx_append_of_lt_length hlt]
    rw [hstep]
    cases Q with
    | nil =>
      have hw' : P' ++ [p] ++ [q] = w := hw.symm
      have hnil : A.eraseIdx i = [] := by simpa using hA'
      rw [hw', closeRing_accept valid hr hv, hnil]
      rfl
    | cons q' Q =>
      have hbq : ∃ c, q.back = some c := back_some (hp q hqw)
      obtain ⟨c, hc⟩ := hbq
      obtain ⟨-, f, l, e, g1, g2, g3, g4⟩ := hr
      have hhead : (P' ++ [p] ++ [q]).head? = some f := by
        rw [hw] at g1
        cases P' <;> simpa using g1
      have hlast : l ∈ q' :: Q := by
        rw [hw] at g2
        simp only [List.getLast?_append, List.getLast?_cons_cons] at g2
        cases hz : (q' :: Q).getLast? with
        | none => simp at hz
        | some z =>
          rw [hz] at g2
          simp only [Option.some_or, Option.some.injEq] at g2
          subst g2
          exact List.mem_of_getLast? hz
      have hne : c ≠ e := by
        rintro rfl
        have := nodup_map_append (a := P' ++ [p] ++ [q]) (b := q' :: Q) (f := Line.back)
          (by rw [hw] at hb; simpa using hb) q (by simp) l hlast
        exact this (hc.trans g4.symm)
      rw [closeRing_open valid hhead (by simp) g3 hc hne, Option.bind_some]
      exact ih (P' ++ [p] ++ [q]) (A.eraseIdx i) (by rw [hw]; simp) (by simp) (by simp) hA'

/-- the ring that starts with the given linestring in its own direction -/
theorem run_first (valid : List Line → Bool) (O : List Line) (hO : ∀ y ∈ O, y.pts ≠ []) (l : Line) (T A : List Line)
    (hr : IsRing (l.data :: T)) (hp : ∀ x ∈ l.data :: T, x.pts ≠ []) (hf : ((l.data :: T).map Line.front).Nodup)
    (hb : ((l.data :: T).map Line.back).Nodup)
    (hv : valid (l.data :: T) = true ∨ valid (reverseRing (l.data :: T)) = true)
    (hno : ∀ y ∈ O, ∀ x ∈ l.data :: T, y.front ≠ x.front ∧ y.back ≠ x.front) (rings : List (List Line)) (errs : List RingError)
    (hA : A ~ T.map Line.data) :
    ringLoop valid ⟨rings, [], l.data :: (A ++ O), errs⟩ =
      ringLoop valid ⟨rings ++ [accepted valid (l.data :: T)], [], O, errs⟩ := by
  rw [ringLoop]
  simp only
  unfold ringStep
  simp only [List.isEmpty_nil, if_true]
  cases T with
  | nil =>
    have hnil : A = [] := by simpa using hA
    subst hnil
    rw [closeRing_accept valid hr hv]
    rfl
  | cons q T =>
    obtain ⟨c, hc⟩ := back_some (hp l.data (by simp))
    have hr' := hr
    obtain ⟨-, f, z, e, g1, g2, g3, g4⟩ := hr
    have hlast : z ∈ q :: T := by
      rw [List.getLast?_cons_cons] at g2
      exact List.mem_of_getLast? g2
    have hne : c ≠ e := by
      rintro rfl
      have := nodup_map_append (a := [l.data]) (b := q :: T) (f := Line.back) (by simpa using hb) l.data (by simp) z hlast
      exact this (hc.trans g4.symm)
    rw [closeRing_open valid (f := f) (l := l.data) (by simpa using g1) (by simp) g3 hc hne, Option.bind_eq_bind, Option.bind_some]
    exact run_ring valid O hO (l.data :: q :: T) hr' hp hf hb hv hno rings errs (q :: T) [l.data] A rfl (by simp) (by simp) hA

theorem connected_backs : ∀ {l : Line} {T : List Line}, Connected (l :: T) →
    ∃ z, (l :: T).getLast? = some z ∧ (l :: T).map Line.back = T.map Line.front ++ [z.back]
  | l, [], _ => ⟨l, rfl, rfl⟩
  | l, q :: T, h => by
    obtain ⟨⟨j, h1, h2⟩, ht⟩ := List.isChain_cons_cons.mp h
    obtain ⟨z, hz, he⟩ := connected_backs (l := q) (T := T) ht
    refine ⟨z, by rw [List.getLast?_cons_cons]; exact hz, ?_⟩
    rw [List.map_cons, he, List.map_cons, h1, h2]
    rfl

theorem ring_backs {r : List Line} (h : IsRing r) : r.map Line.back ~ r.map Line.front := by
  obtain ⟨hc, f, l, p, h1, h2, h3, h4⟩ := h
  cases r with
  | nil => cases h1
  | cons x T =>
    obtain ⟨z, hz, he⟩ := connected_backs hc
    rw [hz] at h2
    obtain rfl := Option.some.inj h2
    simp only [List.head?_cons, Option.some.injEq] at h1
    subst h1
    rw [he, h4, List.map_cons, h3]
    exact List.perm_append_singleton _ _

theorem isRing_rotate {l : Line} {T : List Line} (h : IsRing (l :: T)) : IsRing (T ++ [l]) := by
  obtain ⟨hc, f, z, p, h1, h2, h3, h4⟩ := h
  simp only [List.head?_cons, Option.some.injEq] at h1
  subst h1
  cases T with
  | nil => exact ⟨hc, l, z, p, rfl, h2, h3, h4⟩
  | cons q T =>
    obtain ⟨⟨j, k1, k2⟩, ht⟩ := List.isChain_cons_cons.mp hc
    refine ⟨?_, q, l, j, rfl, by rw [List.getLast?_append]; rfl, k2, k1⟩
    unfold Connected
    rw [List.isChain_append]
    refine ⟨ht, List.isChain_singleton _, ?_⟩
    intro x hx y hy
    simp only [List.head?_cons, Option.mem_def, Option.some.injEq] at hy
    subst hy
    rw [List.getLast?_cons_cons] at h2
    rw [Option.mem_def, h2] at hx
    obtain rfl := Option.some.inj hx
    exact ⟨p, h4, h3⟩

theorem reverse_reverse (r : List Line) : reverseRing (reverseRing r) = r := by
  unfold reverseRing
  rw [← List.map_reverse, List.reverse_reverse, List.map_map]
  conv => rhs; rw [← List.map_id r]
  apply List.map_congr_left
  intro l _
  obtain ⟨id, pts, inv⟩ := l
  simp [Line.invert]

/-- C34: simple rings are assembled from their linestrings as they were, if they are valid in one direction only. The linestrings
are in the order of the rings; their directions are those of the file. -/
theorem assemble_again (valid : List Line → Bool) {rings : List (List Line)} (h : SimpleRings rings)
    (hv : ∀ r ∈ rings, OrientedRing valid r) :
    assembleBoundary valid (rings.flatten.map Line.data) = some (rings.map normalRing, []) := by
  have key : ∀ (rings done : List (List Line)), SimpleRings rings → (∀ r ∈ rings, OrientedRing valid r) →
      ringLoop valid ⟨done, [], rings.flatten.map Line.data, []⟩ = some ⟨done ++ rings.map normalRing, [], [], []⟩ := by
    intro rings
    induction rings with
    | nil =>
      intro done _ _
      rw [ringLoop]
      simp
    | cons r rings ih =>
      intro done h hv
      have htail : SimpleRings rings := by
        refine ⟨fun x hx => h.ring x (List.mem_cons_of_mem _ hx), fun x hx => h.points x (List.mem_cons_of_mem _ hx), ?_⟩
        have := h.distinct
        rw [List.flatten_cons, List.map_append] at this
        exact (List.nodup_append.mp this).2.1
      have hring := h.ring r (by simp)
      have hpts := h.points r (by simp)
      have hval := hv r (by simp)
      have hfr : (r.map Line.front).Nodup := by
        have := h.distinct
        rw [List.flatten_cons, List.map_append] at this
        exact (List.nodup_append.mp this).1
      have hbr : (r.map Line.back).Nodup := (ring_backs hring).nodup_iff.mpr hfr
      have hO : ∀ y ∈ rings.flatten.map Line.data, y.pts ≠ [] := by
        intro y hy
        obtain ⟨x, hx, rfl⟩ := List.mem_map.mp hy
        obtain ⟨q, hq, hx⟩ := List.mem_flatten.mp hx
        exact htail.points q hq x hx
      -- no end point of other rings
      have hends : ∀ q ∈ r :: rings, ∀ x ∈ q, ∃ x' ∈ q, x.back = x'.front := by
        intro q hq x hx
        have := (ring_backs (h.ring q hq)).subset (List.mem_map_of_mem hx)
        obtain ⟨x', h1, h2⟩ := List.mem_map.mp this
        exact ⟨x', h1, h2.symm⟩
      have hsep : ∀ x ∈ r, ∀ y ∈ rings.flatten, x.front ≠ y.front := by
        have := h.distinct
        rw [List.flatten_cons] at this
        exact nodup_map_append this
      have hno : ∀ y ∈ rings.flatten.map Line.data, ∀ x ∈ r,
          (y.front ≠ x.front ∧ y.back ≠ x.front) ∧ (y.front ≠ x.back ∧ y.back ≠ x.back) := by
        intro y hy x hx
        obtain ⟨z, hz, rfl⟩ := List.mem_map.mp hy
        obtain ⟨q, hq, hzq⟩ := List.mem_flatten.mp hz
        obtain ⟨z', hz', he⟩ := hends q (List.mem_cons_of_mem _ hq) z hzq
        obtain ⟨x', hx', hxe⟩ := hends r (by simp) x hx
        have hz'' : z' ∈ rings.flatten := List.mem_flatten.mpr ⟨q, hq, hz'⟩
        have a1 := hsep x hx z hz
        have a2 := hsep x hx z' hz''
        have a3 := hsep x' hx' z hz
        have a4 := hsep x' hx' z' hz''
        rw [data_front, data_back, hxe]
        cases z.inv <;> simp only [Bool.false_eq_true, if_false, if_true, he] <;>
          exact ⟨⟨fun h => (by simp_all), fun h => (by simp_all)⟩, ⟨fun h => (by simp_all), fun h => (by simp_all)⟩⟩
      cases r with
      | nil =>
        obtain ⟨-, f, l, p, h1, -⟩ := hring
        cases h1
      | cons l T =>
        rw [List.flatten_cons, List.map_append, List.map_cons, List.cons_append, List.map_cons]
        cases hi : l.inv with
        | false =>
          have hd : l.data = l := by
            obtain ⟨id, pts, inv⟩ := l
            simp only at hi
            subst hi
            rfl
          have hn : normalRing (l :: T) = l :: T := by simp [normalRing, startsInverted, hi]
          rw [run_first valid (rings.flatten.map Line.data) hO l T _ (by rw [hd]; exact hring) (by rw [hd]; exact hpts)
            (by rw [hd]; exact hfr) (by rw [hd]; exact hbr)
            (by rw [hd, ← hn]; exact .inl hval.1) (by rw [hd]; exact fun y hy x hx => (hno y hy x hx).1) done [] (List.Perm.refl _)]
          rw [ih _ htail fun x hx => hv x (List.mem_cons_of_mem _ hx), hd, hn]
          have : accepted valid (l :: T) = l :: T := by
            unfold accepted
            rw [if_pos (by rw [← hn]; exact hval.1)]
          simp [this]
        | true =>
          have hs : startsInverted (l :: T) = true := by simp [startsInverted, hi]
          have hn : normalRing (l :: T) = T ++ [l] := by simp [normalRing, hs]
          have hd : l.data = l.invert := by
            obtain ⟨id, pts, inv⟩ := l
            simp only at hi
            subst hi
            rfl
          have hw : reverseRing (T ++ [l]) = l.data :: (T.map Line.invert).reverse := by
            rw [hd]; simp [reverseRing]
          have hwr : IsRing (l.data :: (T.map Line.invert).reverse) := by
            rw [← hw]; exact isRing_reverse (isRing_rotate hring)
          have hmemw : ∀ x ∈ l.data :: (T.map Line.invert).reverse, ∃ y ∈ l :: T, x = y.invert := by
            intro x hx
            rcases List.mem_cons.mp hx with rfl | hx
            · exact ⟨l, by simp, hd⟩
            · obtain ⟨y, hy, rfl⟩ := List.mem_map.mp (List.mem_reverse.mp hx)
              exact ⟨y, List.mem_cons_of_mem _ hy, rfl⟩
          have hfw : ((l.data :: (T.map Line.invert).reverse).map Line.front) ~ (l :: T).map Line.back := by
            rw [List.map_cons, List.map_cons, hd, front_invert]
            refine List.Perm.cons _ ?_
            rw [List.map_reverse, List.map_map]
            refine (List.reverse_perm _).trans ?_
            have : Line.front ∘ Line.invert = Line.back := funext fun l => front_invert l
            rw [this]
          rw [run_first valid (rings.flatten.map Line.data) hO l (T.map Line.invert).reverse _ hwr ?_
            (hfw.nodup_iff.mpr hbr) ((ring_backs hwr).nodup_iff.mpr (hfw.nodup_iff.mpr hbr)) ?_ ?_ done [] ?_]
          · rw [ih _ htail fun x hx => hv x (List.mem_cons_of_mem _ hx)]
            have : accepted valid (l.data :: (T.map Line.invert).reverse) = normalRing (l :: T) := by
              unfold accepted
              rw [← hw]
              have hfalse := hval.2 hs
              rw [hn] at hfalse ⊢
              rw [if_neg (by simp [hfalse]), reverse_reverse]
            simp [this]
          · intro x hx
            obtain ⟨y, hy, rfl⟩ := hmemw x hx
            exact hpts y hy
          · right
            rw [← hw, reverse_reverse, ← hn]
            exact hval.1
          · intro y hy x hx
            obtain ⟨z, hz, rfl⟩ := hmemw x hx
            rw [front_invert]
            exact (hno y hy z hz).2
          · rw [List.map_reverse, List.map_map]
            have : Line.data ∘ Line.invert = Line.data := funext fun l => data_invert l
            rw [this]
            exact (List.reverse_perm _).symm
  unfold assembleBoundary
  rw [key rings [] h hv]
  simp

end Verif.Osm
