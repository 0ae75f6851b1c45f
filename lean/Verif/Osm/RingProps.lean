import Batteries.Data.List.Perm
import Mathlib.Data.List.Chain
import Verif.Osm.Ring

/-!
C36: assembling rings of linestrings.
-/
namespace Verif.Osm
open scoped List

/-- consecutive linestrings: each ends at the point where the next one starts -/
def Connected (r : List Line) : Prop := r.IsChain fun a b => ∃ p, a.back = some p ∧ b.front = some p

/-- a closed ring of linestrings -/
def IsRing (r : List Line) : Prop :=
  Connected r ∧ ∃ first last p, r.head? = some first ∧ r.getLast? = some last ∧ first.front = some p ∧ last.back = some p

/-- the linestring a handle refers to, regardless of the direction -/
def base (l : Line) : Int × List Int := (l.id, l.pts)

/-- the two end points of a linestring -/
def ends (l : Line) : List Int := l.front.toList ++ l.back.toList

/-- every point is the end of an even number of linestrings -/
def EvenEnds (ls : List Line) : Prop := ∀ p, (ls.flatMap ends).count p % 2 = 0

theorem front_invert (l : Line) : l.invert.front = l.back := by
  unfold Line.front Line.back Line.invert Line.view
  cases l.inv <;> simp

theorem back_invert (l : Line) : l.invert.back = l.front := by
  unfold Line.front Line.back Line.invert Line.view
  cases l.inv <;> simp

theorem base_invert (l : Line) : base l.invert = base l := rfl

theorem front_some {l : Line} (h : l.pts ≠ []) : ∃ p, l.front = some p := by
  have : l.view ≠ [] := by unfold Line.view; split <;> simpa using h
  exact ⟨_, List.head?_eq_some_head this⟩

theorem back_some {l : Line} (h : l.pts ≠ []) : ∃ p, l.back = some p := by
  have : l.view ≠ [] := by unfold Line.view; split <;> simpa using h
  exact ⟨_, List.getLast?_eq_some_getLast this⟩

theorem connected_reverse {r : List Line} (h : Connected r) : Connected (reverseRing r) := by
  unfold Connected reverseRing at *
  rw [List.isChain_reverse, List.isChain_map]
  refine h.imp ?_
  rintro a b ⟨p, h1, h2⟩
  refine ⟨p, ?_, ?_⟩
  · rw [back_invert]; exact h2
  · rw [front_invert]; exact h1

theorem isRing_reverse {r : List Line} (h : IsRing r) : IsRing (reverseRing r) := by
  obtain ⟨h0, first, last, p, h1, h2, h3, h4⟩ := h
  refine ⟨connected_reverse h0, last.invert, first.invert, p, ?_, ?_, ?_, ?_⟩
  · simp [reverseRing, h2]
  · simp [reverseRing, h1]
  · rw [front_invert]; exact h4
  · rw [back_invert]; exact h3

theorem base_reverse (r : List Line) : (reverseRing r).map base ~ r.map base := by
  unfold reverseRing
  rw [List.map_reverse, List.map_map]
  refine (List.reverse_perm _).trans ?_
  have : base ∘ Line.invert = base := funext fun l => base_invert l
  rw [this]

theorem findNext_spec (lastId : Int) : ∀ (ls : List Line), (∀ l ∈ ls, l.pts ≠ []) →
    (findNext lastId ls = some none ∧ ∀ l ∈ ls, l.back ≠ some lastId ∧ l.front ≠ some lastId) ∨
    ∃ i x, findNext lastId ls = some (some i) ∧ ls[i]? = some x ∧ (x.back = some lastId ∨ x.front = some lastId)
  | [], _ => .inl ⟨rfl, by simp⟩
  | x :: xs, h => by
    obtain ⟨b, hb⟩ := back_some (h x (List.mem_cons_self ..))
    obtain ⟨f, hf⟩ := front_some (h x (List.mem_cons_self ..))
    by_cases hc : b = lastId ∨ f = lastId
    · right
      refine ⟨0, x, ?_, rfl, ?_⟩
      · simp [findNext, hb, hf, hc]
      · rw [hb, hf]; rcases hc with rfl | rfl <;> simp
    · have ih := findNext_spec lastId xs fun l hl => h l (List.mem_cons_of_mem _ hl)
      rcases ih with ⟨h1, h2⟩ | ⟨i, y, h1, h2, h3⟩
      · left
        refine ⟨by simp [findNext, hb, hf, hc, h1], ?_⟩
        intro l hl
        rcases List.mem_cons.mp hl with rfl | hl
        · rw [hb, hf]; simpa [not_or] using hc
        · exact h2 l hl
      · right
        exact ⟨i + 1, y, by simp [findNext, hb, hf, hc, h1], by simpa using h2, h3⟩

/-- The state of the loop: finished rings are valid rings, the current one is a connected sequence, nothing is used twice;
`lost` are the linestrings that were given up with an error. -/
structure RInv (valid : List Line → Bool) (ls : List Line) (s : RingState) (lost : List Line) : Prop where
  rings : ∀ r ∈ s.rings, IsRing r ∧ valid r = true
  conn : Connected s.cur
  ptsRest : ∀ l ∈ s.rest, l.pts ≠ []
  ptsCur : ∀ l ∈ s.cur, l.pts ≠ []
  perm : (s.rings.flatten ++ (lost ++ (s.cur ++ s.rest))).map base ~ ls.map base
  errs : s.errs = [] ↔ lost = []

/-- the current ring is not closed -/
def ROpen (s : RingState) : Prop :=
  ∀ first last, s.cur.head? = some first → s.cur.getLast? = some last → first.front ≠ last.back

/-- the open ends: those of the current ring and of the remaining linestrings -/
def openEnds (s : RingState) : List Int :=
  (s.cur.head?.bind Line.front).toList ++ ((s.cur.getLast?.bind Line.back).toList ++ s.rest.flatMap ends)

/-- Helper of the proofs: every point is an open end an even number of times. -/
def REven (s : RingState) : Prop := ∀ p, (openEnds s).count p % 2 = 0

/-- Helper of the proofs: no ring was incomplete. -/
def NoInc (s : RingState) : Prop := ∀ i, RingError.incomplete i ∉ s.errs

/-- Helper of the proofs: decreases with every step. -/
def rmeasure (s : RingState) : Nat := 2 * s.rest.length + (if s.cur.isEmpty then 0 else 1)

theorem perm_eraseIdx {α : Type} : ∀ (l : List α) (i : Nat) (x : α), l[i]? = some x → l ~ x :: l.eraseIdx i
  | [], i, x, h => by simp at h
  | y :: l, 0, x, h => by
    obtain rfl : y = x := by simpa using h
    exact List.Perm.refl _
  | y :: l, i + 1, x, h => by
    have ih := perm_eraseIdx l i x (by simpa using h)
    exact (ih.cons y).trans (List.Perm.swap ..)

theorem closeRing_inv {valid : List Line → Bool} {ls : List Line} {s : RingState} {lost : List Line} (h : RInv valid ls s lost)
    (hc : s.cur ≠ []) :
    ∃ s' lost', closeRing valid s = some s' ∧ RInv valid ls s' lost' ∧ ROpen s' ∧ s'.rest = s.rest ∧
      (REven s → REven s') ∧ (NoInc s → NoInc s') := by
  obtain ⟨rings, cur, rest, errs⟩ := s
  simp only at hc
  have hl := List.getLast?_eq_some_getLast hc
  have hh := List.head?_eq_some_head hc
  obtain ⟨e, he⟩ := back_some (h.ptsCur _ (List.getLast_mem hc))
  obtain ⟨b, hb⟩ := front_some (h.ptsCur _ (List.head_mem hc))
  have hperm := h.perm
  simp only at hperm
  by_cases hcl : e = b
  · subst hcl
    have hring : IsRing cur := ⟨h.conn, _, _, e, hh, hl, hb, he⟩
    have heven : ∀ rings' errs', REven ⟨rings, cur, rest, errs⟩ → REven ⟨rings', [], rest, errs'⟩ := by
      intro rings' errs' hev p
      have := hev p
      simp only [openEnds, hh, hl, Option.bind_some, hb, he, Option.toList_some, List.count_append, List.head?_nil,
        List.getLast?_nil, Option.bind_none, Option.toList_none, List.count_nil] at this ⊢
      omega
    have hopen : ∀ rings' errs', ROpen ⟨rings', [], rest, errs'⟩ := by
      intro rings' errs' f l hf
      simp at hf
    by_cases hv : valid cur = true
    · refine ⟨⟨rings ++ [cur], [], rest, errs⟩, lost, ?_, ⟨?_, List.isChain_nil, h.ptsRest, by simp, ?_, h.errs⟩, hopen _ _, rfl,
        heven _ _, fun hn => hn⟩
      · simp [closeRing, hl, hh, he, hb, hv]
      · intro r hr
        rcases List.mem_append.mp hr with hr | hr
        · exact h.rings r hr
        · rw [List.mem_singleton.mp hr]; exact ⟨hring, hv⟩
      · refine List.Perm.trans (List.Perm.map _ ?_) hperm
        simp only [List.flatten_append, List.flatten_cons, List.flatten_nil, List.append_nil, List.nil_append]
        rw [List.append_assoc]
        refine List.Perm.append_left _ ?_
        rw [← List.append_assoc, ← List.append_assoc]
        exact List.Perm.append_right _ List.perm_append_comm
    · by_cases hv' : valid (reverseRing cur) = true
      · refine ⟨⟨rings ++ [reverseRing cur], [], rest, errs⟩, lost, ?_,
          ⟨?_, List.isChain_nil, h.ptsRest, by simp, ?_, h.errs⟩, hopen _ _, rfl, heven _ _, fun hn => hn⟩
        · simp [closeRing, hl, hh, he, hb, hv, hv']
        · intro r hr
          rcases List.mem_append.mp hr with hr | hr
          · exact h.rings r hr
          · rw [List.mem_singleton.mp hr]; exact ⟨isRing_reverse hring, hv'⟩
        · refine List.Perm.trans ?_ hperm
          simp only [List.flatten_append, List.flatten_cons, List.flatten_nil, List.append_nil, List.nil_append, List.map_append]
          rw [List.append_assoc]
          refine List.Perm.append_left _ ?_
          refine ((base_reverse cur).append_right _).trans ?_
          rw [← List.append_assoc, ← List.append_assoc]
          exact List.Perm.append_right _ List.perm_append_comm
      · refine ⟨⟨rings, [], rest, errs ++ [.invalid]⟩, lost ++ cur, ?_,
          ⟨h.rings, List.isChain_nil, h.ptsRest, by simp, ?_, by simp [hc]⟩, hopen _ _, rfl, heven _ _, ?_⟩
        · simp [closeRing, hl, hh, he, hb, hv, hv']
        · simpa using hperm
        · intro hn i hi
          simp only [List.mem_append, List.mem_singleton, reduceCtorEq, or_false] at hi
          exact hn i hi
  · refine ⟨_, lost, ?_, h, ?_, rfl, fun h => h, fun h => h⟩
    · simp [closeRing, hl, hh, he, hb, hcl]
    · intro f l hf hl'
      obtain rfl := Option.some.inj (hf.symm.trans hh)
      obtain rfl := Option.some.inj (hl'.symm.trans hl)
      rw [he, hb]
      exact fun hc => hcl (Option.some.inj hc).symm

theorem step_inv {valid : List Line → Bool} {ls : List Line} {s : RingState} {lost : List Line} {l : Line} {rest : List Line}
    (h : RInv valid ls s lost) (ho : ROpen s) (hr : s.rest = l :: rest) :
    ∃ s' lost', ringStep valid s l rest = some s' ∧ RInv valid ls s' lost' ∧ ROpen s' ∧ rmeasure s' < rmeasure s ∧
      (REven s → NoInc s → REven s' ∧ NoInc s') := by
  obtain ⟨rings, cur, rest0, errs⟩ := s
  simp only at hr
  subst hr
  have hperm := h.perm
  have hpr := h.ptsRest
  simp only at hperm hpr
  by_cases hc : cur = []
  · subst hc
    have h1 : RInv valid ls ⟨rings, [l], rest, errs⟩ lost := by
      refine ⟨h.rings, List.isChain_singleton _, fun x hx => h.ptsRest x (List.mem_cons_of_mem _ hx), ?_, ?_, h.errs⟩
      · intro x hx
        rw [List.mem_singleton.mp hx]
        exact h.ptsRest l (List.mem_cons_self ..)
      · simpa using hperm
    obtain ⟨s', lost', e1, e2, e3, e4, e5, e6⟩ := closeRing_inv h1 (by simp)
    refine ⟨s', lost', ?_, e2, e3, ?_, ?_⟩
    · simp only [ringStep, List.isEmpty_nil, if_true]
      exact e1
    · simp only [rmeasure, e4, List.length_cons, List.isEmpty_nil, if_true]
      split <;> omega
    · intro hev hn
      refine ⟨e5 ?_, e6 hn⟩
      intro p
      have := hev p
      simpa [openEnds, ends] using this
  · have hl := List.getLast?_eq_some_getLast hc
    have hh := List.head?_eq_some_head hc
    obtain ⟨e, he⟩ := back_some (h.ptsCur _ (List.getLast_mem hc))
    obtain ⟨b, hb⟩ := front_some (h.ptsCur _ (List.head_mem hc))
    have hne : e ≠ b := by
      intro hx
      apply ho _ _ hh hl
      rw [hb, he, hx]
    have hce : cur.isEmpty = false := by simpa using hc
    rcases findNext_spec e (l :: rest) hpr with ⟨f1, f2⟩ | ⟨i, x, f1, f2, f3⟩
    · refine ⟨⟨rings, [], l :: rest, errs ++ [.incomplete (cur.getLast hc).id]⟩, lost ++ cur, ?_,
        ⟨h.rings, List.isChain_nil, h.ptsRest, by simp, ?_, by simp [hc]⟩, ?_, ?_, ?_⟩
      · simp only [ringStep, hce, hl, he, f1, bind, Option.bind]
        rfl
      · simpa using hperm
      · intro f l hf
        simp at hf
      · simp [rmeasure, hce]
      · intro hev
        exfalso
        have := hev e
        simp only [openEnds, hh, hl, Option.bind_some, hb, he, Option.toList_some, List.count_append] at this
        have h0 : ((l :: rest).flatMap ends).count e = 0 := by
          rw [List.count_eq_zero]
          intro hm
          obtain ⟨y, hy, hye⟩ := List.mem_flatMap.mp hm
          have := f2 y hy
          simp only [ends, List.mem_append, Option.mem_toList] at hye
          rcases hye with hye | hye
          · exact this.2 hye
          · exact this.1 hye
        rw [h0] at this
        simp [List.count_cons, Ne.symm hne] at this
    · have hxm : x ∈ l :: rest := List.mem_of_getElem? f2
      have hxp := hpr x hxm
      obtain ⟨bx, hbx⟩ := back_some hxp
      obtain ⟨fx, hfx⟩ := front_some hxp
      have hi : i < (l :: rest).length := (List.getElem?_eq_some_iff.mp f2).1
      have hperm2 : (l :: rest) ~ x :: (l :: rest).eraseIdx i := by
        exact perm_eraseIdx _ _ _ f2
      obtain ⟨y, hy⟩ : ∃ y, (if bx = e then x.invert else x) = y := ⟨_, rfl⟩
      have hyf : y.front = some e := by
        rw [← hy]
        split
        · rename_i hbe; rw [front_invert, hbx, hbe]
        · rename_i hbe
          rcases f3 with f3 | f3
          · rw [hbx] at f3; exact absurd (Option.some.inj f3) hbe
          · exact f3
      have hyb : base y = base x := by rw [← hy]; split <;> rfl
      have hyp : y.pts ≠ [] := by rw [← hy]; split <;> exact hxp
      have hye : ∀ p, (ends y).count p = (ends x).count p := by
        intro p
        rw [← hy]
        split
        · simp only [ends, front_invert, back_invert, List.count_append]; omega
        · rfl
      have h1 : RInv valid ls ⟨rings, cur ++ [y], (l :: rest).eraseIdx i, errs⟩ lost := by
        refine ⟨h.rings, ?_, ?_, ?_, ?_, h.errs⟩
        · refine List.isChain_append.mpr ⟨h.conn, List.isChain_singleton _, ?_⟩
          intro a ha z hz
          obtain rfl : cur.getLast hc = a := by simpa [hl] using ha
          obtain rfl : y = z := by simpa using hz
          exact ⟨e, he, hyf⟩
        · intro z hz
          exact hpr z (List.mem_of_mem_eraseIdx hz)
        · intro z hz
          rcases List.mem_append.mp hz with hz | hz
          · exact h.ptsCur z hz
          · rw [List.mem_singleton.mp hz]; exact hyp
        · refine List.Perm.trans ?_ hperm
          simp only [List.map_append, List.append_assoc]
          refine List.Perm.append_left _ (List.Perm.append_left _ (List.Perm.append_left _ ?_))
          have := (hperm2.map base).symm
          simpa [hyb] using this
      obtain ⟨s', lost', e1, e2, e3, e4, e5, e6⟩ := closeRing_inv h1 (by simp)
      refine ⟨s', lost', ?_, e2, e3, ?_, ?_⟩
      · simp only [ringStep, hce, hl, he, f1, f2, hbx, bind, Option.bind, hy]
        exact e1
      · have := List.length_eraseIdx_of_lt hi
        simp only [rmeasure, e4, this, hce, List.length_cons]
        simp only [List.length_cons] at hi
        split <;> simp <;> omega
      · intro hev hn
        refine ⟨e5 ?_, e6 hn⟩
        intro p
        have hp := hev p
        have h2 := (hperm2.flatMap_right ends).count_eq p
        simp only [List.flatMap_cons, List.count_append] at h2
        simp only [openEnds, hh, hl, Option.bind_some, hb, he, Option.toList_some, List.count_append, List.flatMap_cons] at hp
        have hh2 : (cur ++ [y]).head? = some (cur.head hc) := by rw [List.head?_append, hh]; rfl
        have h3 := hye p
        have h3' : (ends y).count p = [e].count p + y.back.toList.count p := by
          unfold ends; rw [hyf, List.count_append]; rfl
        simp only [openEnds, hh2, List.getLast?_concat, Option.bind_some, hb, Option.toList_some, List.count_append]
        omega

theorem loop_inv (valid : List Line → Bool) (ls : List Line) : ∀ (n : Nat) (s : RingState) (lost : List Line), rmeasure s ≤ n →
    RInv valid ls s lost → ROpen s → ∃ s' lost', ringLoop valid s = some s' ∧ RInv valid ls s' lost' ∧ ROpen s' ∧ s'.rest = [] ∧
      (REven s → NoInc s → REven s' ∧ NoInc s') := by
  intro n
  induction n with
  | zero =>
    intro s lost hm h ho
    have : s.rest = [] := by
      rw [← List.length_eq_zero_iff]; unfold rmeasure at hm; omega
    exact ⟨s, lost, by rw [ringLoop]; simp [this], h, ho, this, fun a b => ⟨a, b⟩⟩
  | succ n ih =>
    intro s lost hm h ho
    cases hr : s.rest with
    | nil => exact ⟨s, lost, by rw [ringLoop]; simp [hr], h, ho, hr, fun a b => ⟨a, b⟩⟩
    | cons l rest =>
      obtain ⟨s1, lost1, e1, e2, e3, e4, e5⟩ := step_inv h ho hr
      obtain ⟨s2, lost2, g1, g2, g3, g4, g5⟩ := ih s1 lost1 (by omega) e2 e3
      refine ⟨s2, lost2, ?_, g2, g3, g4, fun a b => ?_⟩
      · rw [ringLoop]
        simp only [hr, e1, bind, Option.bind]
        exact g1
      · obtain ⟨a', b'⟩ := e5 a b
        exact g5 a' b'

/-- C36: for all lists of linestrings with points, every result is a list of valid rings; no linestring is used twice; if no
error is reported, all are used except possibly those of one last ring that could not be closed. -/
theorem assembleBoundary_spec_partial (valid : List Line → Bool) (ls : List Line) (hp : ∀ l ∈ ls, l.pts ≠ []) :
    ∃ rings errs unused, assembleBoundary valid ls = some (rings, errs) ∧
      (∀ r ∈ rings, IsRing r ∧ valid r = true) ∧
      rings.flatten.map base ++ unused.map base ~ ls.map base ∧
      (errs = [] → Connected unused ∧ ∀ first last, unused.head? = some first → unused.getLast? = some last →
        first.front ≠ last.back) := by
  have h0 : RInv valid ls ⟨[], [], ls, []⟩ [] := ⟨by simp, List.isChain_nil, hp, by simp, by simp, by simp⟩
  obtain ⟨s, lost, h1, h2, h3, h4, -⟩ := loop_inv valid ls _ _ _ (Nat.le_refl _) h0 (by intro f l hf; simp at hf)
  refine ⟨s.rings, s.errs, lost ++ s.cur, by simp [assembleBoundary, h1], h2.rings, ?_, ?_⟩
  · have := h2.perm
    rw [h4] at this
    simpa using this
  · intro he
    rw [h2.errs.mp he]
    exact ⟨h2.conn, h3⟩

/-- C36: if every point is the end of an even number of linestrings, the assembly never gets stuck, and without errors every
linestring is used. -/
theorem assembleBoundary_complete (valid : List Line → Bool) (ls : List Line) (hp : ∀ l ∈ ls, l.pts ≠ []) (hev : EvenEnds ls) :
    ∃ rings errs, assembleBoundary valid ls = some (rings, errs) ∧ (∀ r ∈ rings, IsRing r ∧ valid r = true) ∧
      (∀ i, RingError.incomplete i ∉ errs) ∧ (errs = [] → rings.flatten.map base ~ ls.map base) := by
  have h0 : RInv valid ls ⟨[], [], ls, []⟩ [] := ⟨by simp, List.isChain_nil, hp, by simp, by simp, by simp⟩
  obtain ⟨s, lost, h1, h2, h3, h4, h5⟩ := loop_inv valid ls _ _ _ (Nat.le_refl _) h0 (by intro f l hf; simp at hf)
  obtain ⟨h6, h7⟩ := h5 (by intro p; simpa [openEnds] using hev p) (by intro i; simp)
  refine ⟨s.rings, s.errs, by simp [assembleBoundary, h1], h2.rings, h7, ?_⟩
  intro he
  have hc : s.cur = [] := by
    by_contra hc
    have hl := List.getLast?_eq_some_getLast hc
    have hh := List.head?_eq_some_head hc
    obtain ⟨e, hee⟩ := back_some (h2.ptsCur _ (List.getLast_mem hc))
    obtain ⟨b, hb⟩ := front_some (h2.ptsCur _ (List.head_mem hc))
    have hne : b ≠ e := by
      intro hx
      apply h3 _ _ hh hl
      rw [hb, hee, hx]
    have := h6 e
    simp [openEnds, hh, hl, hb, hee, h4, List.count_cons, hne] at this
  have := h2.perm
  rw [h4, hc, h2.errs.mp he] at this
  simpa using this

/-- C36: the ends of linestrings that form rings are even, so this condition is also necessary. -/
theorem evenEnds_of_complete {rings : List (List Line)} {ls : List Line} (hr : ∀ r ∈ rings, IsRing r)
    (h : rings.flatten.map base ~ ls.map base) : EvenEnds ls := by
  have key : ∀ l l' : Line, base l = base l' → ∀ p, (ends l).count p = (ends l').count p := by
    intro l l' hb p
    obtain ⟨i, pts, inv⟩ := l
    obtain ⟨i', pts', inv'⟩ := l'
    obtain ⟨rfl, rfl⟩ := Prod.mk.inj hb
    cases inv <;> cases inv' <;> simp [ends, Line.front, Line.back, Line.view, List.count_append] <;> omega
  have hcnt : ∀ (as bs : List Line), as.map base = bs.map base → ∀ p, (as.flatMap ends).count p = (bs.flatMap ends).count p := by
    intro as
    induction as with
    | nil => intro bs hb p; cases bs with
      | nil => rfl
      | cons => simp at hb
    | cons a as ih =>
      intro bs hb p
      cases bs with
      | nil => simp at hb
      | cons b bs =>
        simp only [List.map_cons, List.cons.injEq] at hb
        simp only [List.flatMap_cons, List.count_append, key a b hb.1 p, ih bs hb.2 p]
  have hperm : ∀ p, (rings.flatten.flatMap ends).count p = (ls.flatMap ends).count p := by
    intro p
    -- choose for every base the handle of ls
    let e : Int × List Int → List Int := fun b => ends ⟨b.1, b.2, false⟩
    have he : ∀ l : Line, ∀ p, (e (base l)).count p = (ends l).count p := by
      intro l p; exact key ⟨l.id, l.pts, false⟩ l rfl p
    have h1 : ∀ as : List Line, (as.flatMap ends).count p = ((as.map base).flatMap e).count p := by
      intro as
      induction as with
      | nil => rfl
      | cons a as ih => simp only [List.flatMap_cons, List.map_cons, List.count_append, he, ih]
    rw [h1, h1]
    exact (h.flatMap_right e).count_eq p
  intro p
  rw [← hperm]
  have hchain : ∀ (r : List Line) (first last : Line), Connected r → r.head? = some first → r.getLast? = some last →
      ((r.flatMap ends).count p + first.front.toList.count p + last.back.toList.count p) % 2 = 0 := by
    intro r
    induction r with
    | nil => intro f l _ hf; simp at hf
    | cons a r ih =>
      intro f l hc hf hl
      obtain rfl : a = f := by simpa using hf
      cases r with
      | nil =>
        obtain rfl : a = l := by simpa using hl
        simp [ends, List.count_append]; omega
      | cons b r =>
        obtain ⟨⟨q, h1, h2⟩, h3⟩ := List.isChain_cons_cons.mp hc
        have := ih b l h3 rfl (by simpa using hl)
        rw [List.flatMap_cons, List.count_append]
        simp only [ends, List.count_append, h1, h2] at this ⊢
        omega
  have hring : ∀ r, IsRing r → ((r.flatMap ends).count p) % 2 = 0 := by
    rintro r ⟨hc, f, l, q, h1, h2, h3, h4⟩
    have := hchain r f l hc h1 h2
    rw [h3, h4] at this
    omega
  clear h hperm
  induction rings with
  | nil => simp
  | cons r rings ih =>
    rw [List.flatten_cons, List.flatMap_append, List.count_append]
    have h1 := hring r (hr r (List.mem_cons_self ..))
    have h2 := ih fun r hr' => hr r (List.mem_cons_of_mem _ hr')
    omega

/-! ### concrete cases -/

/-- three linestrings around a triangle, the second against the direction, and a hole of one linestring -/
def exLines : List Line := [⟨10, [1, 2], false⟩, ⟨11, [3, 7, 2], false⟩, ⟨12, [3, 1], false⟩, ⟨13, [4, 5, 6, 4], false⟩]

example : (∀ l ∈ exLines, l.pts ≠ []) ∧ assembleBoundary (fun _ => true) exLines =
    some ([[⟨10, [1, 2], false⟩, ⟨11, [3, 7, 2], true⟩, ⟨12, [3, 1], false⟩], [⟨13, [4, 5, 6, 4], false⟩]], []) := by
  refine ⟨by decide, ?_⟩
  unfold assembleBoundary exLines
  iterate 5 (rw [ringLoop]; simp [ringStep, closeRing, findNext, Line.back, Line.front, Line.view, Line.invert])

/-- C36 (fails): a last ring that cannot be closed is dropped without an error. -/
theorem unclosed_ring_counterexample :
    assembleBoundary (fun _ => true) [⟨13, [4, 5, 6, 4], false⟩, ⟨10, [1, 2], false⟩] = some ([[⟨13, [4, 5, 6, 4], false⟩]], []) := by
  unfold assembleBoundary
  iterate 3 (rw [ringLoop]; simp [ringStep, closeRing, findNext, Line.back, Line.front, Line.view, Line.invert])

end Verif.Osm
