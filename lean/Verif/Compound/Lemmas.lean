import Verif.Compound.Model

set_option linter.unusedSectionVars false

namespace Verif.Compound
variable {α : Type} [DecidableEq α]

/-- Iterator for the flat position `p`. -/
def itAt : List (List α) → Nat → It
  | [], _ => ⟨0, 0⟩
  | l :: ls, p =>
    if p < l.length then ⟨0, p⟩
    else ⟨(itAt ls (p - l.length)).outer + 1, (itAt ls (p - l.length)).inner⟩

theorem nextNonempty_shift (c : List (List α)) (k : Nat) :
    nextNonempty c k = nextNonempty c 0 + k := by
  induction c generalizing k with
  | nil => simp [nextNonempty]
  | cons l ls ih =>
    simp only [nextNonempty]
    split
    · rw [ih (k+1), ih (0+1)]; omega
    · omega

theorem begin_eq (c : List (List α)) : begin c = itAt c 0 := by
  induction c with
  | nil => rfl
  | cons l ls ih =>
    simp only [begin, firstNonempty, nextNonempty, itAt] at *
    cases l with
    | nil => simp [nextNonempty_shift ls 1, ← ih]
    | cons a l => simp

theorem endIt_eq (c : List (List α)) : endIt c = itAt c c.flatten.length := by
  induction c with
  | nil => rfl
  | cons l ls ih =>
    simp only [endIt, itAt] at *
    simp only [List.flatten_cons, List.length_append, List.length_cons]
    rw [if_neg (by omega), Nat.add_sub_cancel_left, ← ih]

theorem deref_itAt (c : List (List α)) (p : Nat) : deref c (itAt c p) = c.flatten[p]? := by
  induction c generalizing p with
  | nil => simp [deref, itAt]
  | cons l ls ih =>
    simp only [itAt]
    split
    · simp [deref, List.getElem?_append, *]
    · rename_i h
      have := ih (p - l.length)
      simp only [deref] at this ⊢
      simp [List.getElem?_append, h, this]

theorem itAt_lt {c : List (List α)} {p q : Nat} (h : p < q) (hq : q ≤ c.flatten.length) :
    (itAt c p).outer < (itAt c q).outer ∨
      ((itAt c p).outer = (itAt c q).outer ∧ (itAt c p).inner < (itAt c q).inner) := by
  induction c generalizing p q with
  | nil => simp at hq; omega
  | cons l ls ih =>
    simp only [itAt]
    simp only [List.flatten_cons, List.length_append] at hq
    by_cases h1 : q < l.length
    · rw [if_pos h1, if_pos (by omega)]; simp; omega
    · rw [if_neg h1]
      by_cases h2 : p < l.length
      · rw [if_pos h2]; simp
      · rw [if_neg h2]
        have := ih (p := p - l.length) (q := q - l.length) (by omega) (by omega)
        simp only; omega

theorem itAt_inj {c : List (List α)} {p q : Nat} (hp : p ≤ c.flatten.length)
    (hq : q ≤ c.flatten.length) (h : itAt c p = itAt c q) : p = q := by
  rcases Nat.lt_trichotomy p q with h1 | h1 | h1
  · have := itAt_lt h1 hq; rw [h] at this; omega
  · exact h1
  · have := itAt_lt h1 hp; rw [h] at this; omega

theorem itAt_outer_lt {c : List (List α)} {p : Nat} (hp : p < c.flatten.length) :
    ∃ l, c[(itAt c p).outer]? = some l ∧ (itAt c p).inner < l.length := by
  have := deref_itAt c p
  rw [List.getElem?_eq_getElem hp] at this
  simp only [deref] at this
  cases h : c[(itAt c p).outer]? with
  | none => simp [h] at this
  | some l =>
    simp [h] at this
    exact ⟨l, rfl, (List.getElem?_eq_some_iff.mp this).1⟩

theorem incrementOne_itAt {c : List (List α)} {p : Nat} (hp : p < c.flatten.length) :
    incrementOne c (itAt c p) = some (itAt c (p + 1)) := by
  induction c generalizing p with
  | nil => simp at hp
  | cons l ls ih =>
    simp only [itAt]
    simp only [List.flatten_cons, List.length_append] at hp
    by_cases h1 : p < l.length
    · rw [if_pos h1]
      simp only [incrementOne]
      simp only [List.getElem?_cons_zero, Option.bind_eq_bind, Option.bind_some, h1, if_true]
      split
      · rw [if_neg (by omega)]
        simp only [Nat.zero_add, List.drop_succ_cons, List.drop_zero]
        have hb := begin_eq ls
        have : p + 1 - l.length = 0 := by omega
        rw [this, ← hb]
        simp [begin, firstNonempty, nextNonempty_shift ls 1]
      · rw [if_pos (by omega)]
    · rw [if_neg h1, if_neg (by omega)]
      have := ih (p := p - l.length) (by omega)
      have e : p + 1 - l.length = p - l.length + 1 := by omega
      rw [e]
      generalize hx : itAt ls (p - l.length) = x at *
      generalize hy : itAt ls (p - l.length + 1) = y at *
      simp only [incrementOne, List.getElem?_cons_succ, List.drop_succ_cons] at this ⊢
      cases h : ls[x.outer]? with
      | none => simp [h] at this
      | some l' =>
        simp only [h, Option.bind_eq_bind, Option.bind_some] at this ⊢
        by_cases h3 : x.inner < l'.length
        · simp only [h3, if_true] at this ⊢
          by_cases h4 : l'.length = x.inner + 1
          · simp only [h4, if_true, Option.some.injEq] at this ⊢
            rw [← this, nextNonempty_shift _ (x.outer + 1), nextNonempty_shift _ (x.outer + 1 + 1)]
            simp only [It.mk.injEq, and_true]; omega
          · simp only [h4, if_false, Option.some.injEq] at this ⊢
            rw [← this]
        · simp [h3] at this

theorem firstNonempty_le (c : List (List α)) : firstNonempty c ≤ c.length := by
  induction c with
  | nil => simp [firstNonempty, nextNonempty]
  | cons l ls ih =>
    simp only [firstNonempty, nextNonempty] at *
    split
    · rw [nextNonempty_shift]; simp; omega
    · omega

theorem empty_before_first {c : List (List α)} {o : Nat} (h : o < firstNonempty c) :
    c[o]? = some [] := by
  induction c generalizing o with
  | nil => simp [firstNonempty, nextNonempty] at h
  | cons l ls ih =>
    simp only [firstNonempty, nextNonempty] at *
    split at h
    · rename_i hl
      cases o with
      | zero => cases l <;> simp_all
      | succ o => rw [nextNonempty_shift] at h; simp; exact ih (by omega)
    · omega

/-- `prevNonempty` from `o` finds the last non-empty container before `o` if there is one. -/
theorem prevNonempty_spec {c : List (List α)} {o t : Nat} {l : List α} (ht : t < o)
    (ho : o ≤ c.length) (hl : c[t]? = some l) (hne : l ≠ [])
    (hem : ∀ j, t < j → j < o → c[j]? = some []) :
    prevNonempty c (firstNonempty c) o = some t := by
  induction o with
  | zero => omega
  | succ o ih =>
    have hf : firstNonempty c ≤ t := by
      rcases Nat.lt_or_ge t (firstNonempty c) with h | h
      · have := empty_before_first h; rw [hl] at this; simp at this; exact absurd this hne
      · exact h
    simp only [prevNonempty]
    by_cases h1 : o = t
    · subst h1
      by_cases h2 : o = firstNonempty c
      · rw [if_pos h2]
      · rw [if_neg h2, hl]
        cases l with
        | nil => simp at hne
        | cons a l => simp
    · rw [if_neg (by omega), hem o (by omega) (by omega)]
      simp only [Option.bind_eq_bind, Option.bind_some, List.isEmpty_nil, if_true]
      exact ih (by omega) (by omega) (fun j h2 h3 => hem j h2 (by omega))

/-- between the outer indices of successive positions there are only empty containers -/
theorem itAt_gap {c : List (List α)} {p j : Nat} (hp : p < c.flatten.length)
    (h1 : (itAt c p).outer < j) (h2 : j < (itAt c (p + 1)).outer) : c[j]? = some [] := by
  have h := incrementOne_itAt hp
  obtain ⟨l, hl, hi⟩ := itAt_outer_lt hp
  generalize itAt c p = x at *
  generalize itAt c (p + 1) = y at *
  simp only [incrementOne, hl, Option.bind_eq_bind, Option.bind_some, hi, if_true] at h
  split at h
  · simp only [Option.some.injEq] at h
    subst h
    simp only at h2
    rw [nextNonempty_shift] at h2
    have := empty_before_first (c := c.drop (x.outer + 1)) (o := j - (x.outer + 1))
      (by simp only [firstNonempty]; omega)
    rw [List.getElem?_drop] at this
    rwa [show x.outer + 1 + (j - (x.outer + 1)) = j by omega] at this
  · simp only [Option.some.injEq] at h
    subst h
    simp only at h2; omega

theorem itAt_outer_le (c : List (List α)) (p : Nat) : (itAt c p).outer ≤ c.length := by
  induction c generalizing p with
  | nil => simp [itAt]
  | cons l ls ih => simp only [itAt]; split <;> simp; exact ih _

theorem decrementOne_itAt {c : List (List α)} {p : Nat} (hp : p < c.flatten.length) :
    decrementOne c (itAt c (p + 1)) = some (itAt c p) := by
  have hinc := incrementOne_itAt hp
  have hgap := fun j => itAt_gap (c := c) (p := p) (j := j) hp
  obtain ⟨l, hl, hi⟩ := itAt_outer_lt hp
  have hle := itAt_outer_le c (p + 1)
  generalize itAt c p = x at *
  generalize itAt c (p + 1) = y at *
  have hxl : x.outer < c.length := (List.getElem?_eq_some_iff.mp hl).1
  simp only [incrementOne, hl, Option.bind_eq_bind, Option.bind_some, hi, if_true] at hinc
  split at hinc
  · rename_i hlen
    simp only [Option.some.injEq] at hinc
    have hy0 : y.inner = 0 := by rw [← hinc]
    have hlt : x.outer < y.outer := by
      rw [← hinc]; simp only; rw [nextNonempty_shift]; omega
    simp only [decrementOne, hy0, or_true, if_true]
    rw [prevNonempty_spec hlt hle hl (by intro h; simp [h] at hi) (fun j h2 h3 => hgap j h2 h3)]
    simp only [Option.bind_eq_bind, Option.bind_some, hl]
    rw [if_neg (by omega)]
    have : l.length - 1 = x.inner := by omega
    rw [this]
  · rename_i hlen
    simp only [Option.some.injEq] at hinc
    subst hinc
    simp only [decrementOne]
    rw [if_neg (by omega)]
    simp

/-! ### runs on a flat list -/

/-- Removing repetitions (helper version, see `Props` for the specification). -/
def dd : List α → List α
  | [] => []
  | a :: l =>
    match dd l with
    | [] => [a]
    | b :: t => if a = b then b :: t else a :: b :: t

theorem dd_cons_cons (a b : α) (l : List α) :
    dd (a :: b :: l) = if a = b then dd (b :: l) else a :: dd (b :: l) := by
  have hb : ∃ t, dd (b :: l) = b :: t := by
    simp only [dd]
    split
    · exact ⟨[], rfl⟩
    · split
      · rename_i h; exact ⟨_, by rw [h]⟩
      · exact ⟨_, rfl⟩
  obtain ⟨t, ht⟩ := hb
  rw [dd, ht]

theorem dd_head (a : α) (l : List α) : ∃ t, dd (a :: l) = a :: t := by
  cases l with
  | nil => exact ⟨[], rfl⟩
  | cons b l =>
    rw [dd_cons_cons]
    split
    · subst_vars
      simp only [dd]
      split
      · exact ⟨[], rfl⟩
      · split
        · rename_i h; exact ⟨_, by rw [h]⟩
        · exact ⟨_, rfl⟩
    · exact ⟨_, rfl⟩

/-- boundary between two parts -/
def Bnd (pre suf : List α) : Prop := pre = [] ∨ suf = [] ∨ pre.getLast? ≠ suf.head?

theorem dd_append {pre suf : List α} (h : Bnd pre suf) : dd (pre ++ suf) = dd pre ++ dd suf := by
  induction pre with
  | nil => simp [dd]
  | cons a l ih =>
    cases l with
    | nil =>
      cases suf with
      | nil => simp [dd]
      | cons b s =>
        rcases h with h | h | h
        · simp at h
        · simp at h
        · simp at h
          show dd (a :: b :: s) = _
          rw [dd_cons_cons, if_neg h]; simp [dd]
    | cons b l =>
      have hb : Bnd (b :: l) suf := by
        rcases h with h | h | h
        · simp at h
        · exact Or.inr (Or.inl h)
        · right; right; simpa using h
      have := ih hb
      show dd (a :: b :: (l ++ suf)) = _
      rw [dd_cons_cons, dd_cons_cons]
      rw [show b :: (l ++ suf) = (b :: l) ++ suf from rfl, this]
      split <;> simp

theorem dd_run (a : α) (n : Nat) : dd (List.replicate (n + 1) a) = [a] := by
  induction n with
  | zero => rfl
  | succ n ih => rw [List.replicate_succ, dd, ih]; simp

theorem dd_length_pos {l : List α} (h : l ≠ []) : 0 < (dd l).length := by
  cases l with
  | nil => simp at h
  | cons a l => obtain ⟨t, ht⟩ := dd_head a l; rw [ht]; simp

/-- `p` is the first position of the `k`-th run of `L` (or the end). -/
def StartAt (L : List α) (k p : Nat) : Prop :=
  ∃ pre suf, L = pre ++ suf ∧ pre.length = p ∧ Bnd pre suf ∧ (dd pre).length = k

theorem startAt_zero (L : List α) : StartAt L 0 0 := ⟨[], L, by simp [Bnd, dd]⟩

theorem startAt_end (L : List α) : StartAt L (dd L).length L.length :=
  ⟨L, [], by simp [Bnd]⟩

theorem startAt_le {L : List α} {k p : Nat} (h : StartAt L k p) : p ≤ L.length := by
  obtain ⟨pre, suf, rfl, rfl, -, -⟩ := h; simp

theorem startAt_mono {L : List α} {j k p q : Nat} (h1 : StartAt L j p) (h2 : StartAt L k q)
    (hpq : p < q) : j < k := by
  obtain ⟨pre, suf, rfl, rfl, hb, rfl⟩ := h1
  obtain ⟨pre', suf', he, rfl, hb', rfl⟩ := h2
  have : pre' = pre ++ (pre'.drop pre.length) := by
    have h3 : (pre ++ suf).take pre.length = (pre' ++ suf').take pre.length := by rw [he]
    rw [List.take_append_of_le_length (by omega), List.take_append_of_le_length (by omega),
      List.take_length] at h3
    have h4 := List.take_append_drop pre.length pre'
    rw [← h3] at h4
    exact h4.symm
  generalize pre'.drop pre.length = m at this
  subst this
  have hm : m ≠ [] := by intro h; simp [h] at hpq
  have hs : suf = m ++ suf' := by simpa using he
  have : Bnd pre m := by
    rcases hb with h | h | h
    · exact Or.inl h
    · subst hs; simp at h; exact Or.inr (Or.inl h.1)
    · subst hs
      right; right
      cases m with
      | nil => simp at hm
      | cons x m => simpa using h
  rw [dd_append this, List.length_append]
  have := dd_length_pos hm
  omega

theorem startAt_unique {L : List α} {k p q : Nat} (h1 : StartAt L k p) (h2 : StartAt L k q) :
    p = q := by
  rcases Nat.lt_trichotomy p q with h | h | h
  · have := startAt_mono h1 h2 h; omega
  · exact h
  · have := startAt_mono h2 h1 h; omega

theorem startAt_inj {L : List α} {j k p : Nat} (h1 : StartAt L j p) (h2 : StartAt L k p) :
    j = k := by
  obtain ⟨pre, suf, rfl, rfl, hb, rfl⟩ := h1
  obtain ⟨pre', suf', he, hl, hb', rfl⟩ := h2
  rw [(List.append_inj he hl.symm).1]

theorem startAt_le_size {L : List α} {k p : Nat} (h : StartAt L k p) : k ≤ (dd L).length := by
  obtain ⟨pre, suf, rfl, rfl, hb, rfl⟩ := h
  rw [dd_append hb]; simp

theorem startAt_get {L : List α} {k p : Nat} (h : StartAt L k p) : L[p]? = (dd L)[k]? := by
  obtain ⟨pre, suf, rfl, rfl, hb, rfl⟩ := h
  rw [dd_append hb]
  simp only [List.getElem?_append_right (Nat.le_refl _), Nat.sub_self]
  cases suf with
  | nil => simp [dd]
  | cons a s => obtain ⟨t, ht⟩ := dd_head a s; rw [ht]; simp

theorem startAt_pos_of_pos {L : List α} {k p : Nat} (h : StartAt L k p) (hk : 0 < k) : 0 < p := by
  obtain ⟨pre, suf, rfl, rfl, hb, rfl⟩ := h
  cases pre with
  | nil => simp [dd] at hk
  | cons a l => simp

/-- split off the first run -/
theorem run_split (a : α) (l : List α) :
    ∃ n s, a :: l = List.replicate (n + 1) a ++ s ∧ (s = [] ∨ s.head? ≠ some a) := by
  induction l with
  | nil => exact ⟨0, [], by simp⟩
  | cons b l ih =>
    by_cases h : b = a
    · subst h
      obtain ⟨n, s, h1, h2⟩ := ih
      exact ⟨n + 1, s, by rw [h1, List.replicate_succ (n := n+1)]; rfl, h2⟩
    · exact ⟨0, b :: l, by simp, by simp [h]⟩

/-- The position after the run at `p`. -/
theorem startAt_next {L : List α} {k p : Nat} (h : StartAt L k p) (hk : k < (dd L).length) :
    ∃ n a, StartAt L (k + 1) (p + n + 1) ∧ (∀ i, i ≤ n → L[p + i]? = some a) ∧
      L[p + n + 1]? ≠ some a := by
  obtain ⟨pre, suf, rfl, rfl, hb, rfl⟩ := h
  rw [dd_append hb] at hk
  cases suf with
  | nil => simp [dd] at hk
  | cons a s =>
    obtain ⟨n, s', h1, h2⟩ := run_split a s
    rw [h1] at hb ⊢
    have hb2 : Bnd pre (List.replicate (n + 1) a) := by
      rcases hb with h | h | h
      · exact Or.inl h
      · simp at h
      · right; right; simpa [List.replicate_succ] using h
    refine ⟨n, a, ⟨pre ++ List.replicate (n + 1) a, s', by simp, by simp; omega, ?_, ?_⟩, ?_, ?_⟩
    · rcases h2 with h2 | h2
      · exact Or.inr (Or.inl h2)
      · right; right
        rw [List.getLast?_append, List.getLast?_replicate]
        simp only [Nat.add_one_ne_zero, if_false, Option.some_or]
        exact fun h => h2 h.symm
    · rw [dd_append hb2, dd_run]; simp
    · intro i hi
      rw [List.getElem?_append_right (by omega), List.getElem?_append_left (by simp; omega),
        List.getElem?_replicate]
      simp; omega
    · rw [List.getElem?_append_right (by omega), List.getElem?_append_right (by simp; omega)]
      simp only [List.length_replicate]
      rw [show pre.length + n + 1 - pre.length - (n + 1) = 0 by omega]
      rcases h2 with h2 | h2
      · simp [h2]
      · simpa [List.head?_eq_getElem?] using h2

/-! ### increment / decrement in terms of runs -/

theorem incrementLoop_run {c : List (List α)} {a : α} (n p : Nat)
    (hrun : ∀ i, i < n → c.flatten[p + 1 + i]? = some a)
    (hlast : c.flatten[p + n + 1]? ≠ some a) (hp : p + n < c.flatten.length) :
    incrementLoop c a (itAt c p) = some (itAt c (p + n + 1)) := by
  induction n generalizing p with
  | zero =>
    rw [incrementLoop]
    rw [incrementOne_itAt (by omega)]
    simp only [Option.bind_eq_bind, Option.bind_some]
    by_cases he : p + 1 = c.flatten.length
    · rw [if_pos (by rw [endIt_eq, he])]
    · rw [if_neg, deref_itAt]
      · rw [List.getElem?_eq_getElem (show p + 1 < c.flatten.length by omega)] at ⊢
        rw [List.getElem?_eq_getElem (show p + 0 + 1 < c.flatten.length by omega)] at hlast
        simp only [Option.bind_some]
        rw [if_neg (fun h => hlast (by rw [h]))]
      · intro h; rw [endIt_eq] at h; exact he (itAt_inj (by omega) (by omega) h)
  | succ n ih =>
    rw [incrementLoop]
    rw [incrementOne_itAt (by omega)]
    simp only [Option.bind_eq_bind, Option.bind_some]
    have h0 := hrun 0 (by omega)
    rw [if_neg, deref_itAt]
    · rw [show p + 1 = p + 1 + 0 by omega, h0]
      simp only [Option.bind_some, if_true]
      rw [show p + (n + 1) + 1 = (p + 1) + n + 1 by omega]
      apply ih
      · intro i hi
        have := hrun (i + 1) (by omega)
        rwa [show p + 1 + (i + 1) = p + 1 + 1 + i by omega] at this
      · rwa [show p + (n + 1) + 1 = (p + 1) + n + 1 by omega] at hlast
      · omega
    · intro h; rw [endIt_eq] at h
      have := itAt_inj (by omega) (by omega) h
      omega

/-- `++` goes from the start of run `k` to the start of run `k+1`. -/
theorem increment_startAt {c : List (List α)} {k p : Nat} (h : StartAt c.flatten k p)
    (hk : k < (dd c.flatten).length) :
    ∃ q, StartAt c.flatten (k + 1) q ∧ p < q ∧ increment c (itAt c p) = some (itAt c q) := by
  obtain ⟨n, a, h1, h2, h3⟩ := startAt_next h hk
  refine ⟨p + n + 1, h1, by omega, ?_⟩
  have h0 := h2 0 (by omega)
  have hn := h2 n (by omega)
  simp only [increment, deref_itAt]
  rw [show c.flatten[p]? = some a from h0]
  simp only [Option.bind_eq_bind, Option.bind_some]
  apply incrementLoop_run
  · intro i hi
    have := h2 (i + 1) (by omega)
    rwa [show p + (i + 1) = p + 1 + i by omega] at this
  · exact h3
  · exact (List.getElem?_eq_some_iff.mp hn).1

theorem decrementLoop_run {c : List (List α)} {a : α} (n p : Nat)
    (hrun : ∀ i, i ≤ n → c.flatten[p + i]? = some a)
    (hfirst : p = 0 ∨ ∃ q, p = q + 1 ∧ c.flatten[q]? ≠ some a)
    (hne : p + n ≠ 0) :
    decrementLoop c (itAt c (p + n)) = some (itAt c p) := by
  induction n with
  | zero =>
    have h0 := hrun 0 (Nat.le_refl _)
    have hlt := (List.getElem?_eq_some_iff.mp h0).1
    rcases hfirst with h | ⟨q, hq, hq2⟩
    · omega
    · subst hq
      rw [decrementLoop]
      simp only [Nat.add_zero] at *
      rw [decrementOne_itAt (by omega)]
      simp only [Option.bind_eq_bind, Option.bind_some, deref_itAt, h0]
      rw [List.getElem?_eq_getElem (by omega : q < c.flatten.length)] at hq2 ⊢
      simp only [Option.bind_some]
      rw [if_pos (fun h => hq2 (by rw [h]))]
  | succ n ih =>
    have h1 := hrun (n + 1) (Nat.le_refl _)
    have h0 := hrun n (by omega)
    have hlt := (List.getElem?_eq_some_iff.mp h1).1
    rw [decrementLoop]
    rw [show p + (n + 1) = (p + n) + 1 by omega] at *
    rw [decrementOne_itAt (by omega)]
    simp only [Option.bind_eq_bind, Option.bind_some, deref_itAt, h0, h1, ne_eq, not_true,
      if_false]
    by_cases hb : p + n = 0
    · have hp0 : p = 0 := by omega
      have hn0 : n = 0 := by omega
      subst hp0 hn0
      rw [if_neg]
      simp [begin_eq]
    · rw [if_pos]
      · exact ih (fun i hi => hrun i (by omega)) hb
      · rw [begin_eq]
        intro h
        exact hb (itAt_inj (by omega) (by omega) h)

/-- `--` goes from the start of run `k+1` to the start of run `k`. -/
theorem decrement_startAt {c : List (List α)} {k p q : Nat} (h : StartAt c.flatten k p)
    (h' : StartAt c.flatten (k + 1) q) : decrement c (itAt c q) = some (itAt c p) := by
  have hk : k < (dd c.flatten).length := by have := startAt_le_size h'; omega
  obtain ⟨n, a, h1, h2, h3⟩ := startAt_next h hk
  have hq := startAt_unique h' h1
  subst hq
  have hn := h2 n (Nat.le_refl _)
  have hlt := (List.getElem?_eq_some_iff.mp hn).1
  simp only [decrement]
  rw [decrementOne_itAt hlt]
  simp only [Option.bind_eq_bind, Option.bind_some]
  by_cases hb : p + n = 0
  · rw [if_pos]
    · rw [hb]; rw [show p = 0 by omega]
    · rw [begin_eq, hb]
  · rw [if_neg]
    · apply decrementLoop_run n p h2 _ hb
      obtain ⟨pre, suf, he, rfl, hbd, rfl⟩ := h
      rcases List.eq_nil_or_concat pre with hp | ⟨l, b, hp⟩
      · left; simp [hp]
      · right
        subst hp
        refine ⟨l.length, by simp, ?_⟩
        have h0 := h2 0 (Nat.zero_le _)
        rw [he] at h0 ⊢
        simp only [Nat.add_zero] at h0
        rw [List.getElem?_append_right (Nat.le_refl _), Nat.sub_self,
          ← List.head?_eq_getElem?] at h0
        rw [List.concat_eq_append, List.append_assoc, List.getElem?_append_right (Nat.le_refl _)]
        simp only [Nat.sub_self, List.cons_append, List.getElem?_cons_zero]
        rcases hbd with h | h | h
        · simp at h
        · simp [h] at h0
        · simpa [h0] using h
    · rw [begin_eq]
      intro h
      exact hb (itAt_inj (by omega) (by omega) h)


/-! ### iterators by run index -/

/-- The iterator at the start of run `k`. -/
def IsNth (c : List (List α)) (k : Nat) (it : It) : Prop :=
  ∃ p, StartAt c.flatten k p ∧ it = itAt c p

theorem isNth_begin (c : List (List α)) : IsNth c 0 (begin c) :=
  ⟨0, startAt_zero _, begin_eq c⟩

theorem isNth_end (c : List (List α)) : IsNth c (dd c.flatten).length (endIt c) :=
  ⟨_, startAt_end _, endIt_eq c⟩

theorem isNth_le {c : List (List α)} {k : Nat} {it : It} (h : IsNth c k it) :
    k ≤ (dd c.flatten).length := by
  obtain ⟨p, hp, -⟩ := h; exact startAt_le_size hp

theorem isNth_unique {c : List (List α)} {k : Nat} {it it' : It} (h : IsNth c k it)
    (h' : IsNth c k it') : it = it' := by
  obtain ⟨p, hp, rfl⟩ := h
  obtain ⟨q, hq, rfl⟩ := h'
  rw [startAt_unique hp hq]

theorem isNth_inj {c : List (List α)} {j k : Nat} {it : It} (h : IsNth c j it)
    (h' : IsNth c k it) : j = k := by
  obtain ⟨p, hp, rfl⟩ := h
  obtain ⟨q, hq, h⟩ := h'
  have := itAt_inj (startAt_le hp) (startAt_le hq) h
  subst this
  exact startAt_inj hp hq

theorem isNth_deref {c : List (List α)} {k : Nat} {it : It} (h : IsNth c k it) :
    deref c it = (dd c.flatten)[k]? := by
  obtain ⟨p, hp, rfl⟩ := h
  rw [deref_itAt, startAt_get hp]

theorem isNth_inc {c : List (List α)} {k : Nat} {it : It} (h : IsNth c k it)
    (hk : k < (dd c.flatten).length) : ∃ it', IsNth c (k + 1) it' ∧ increment c it = some it' := by
  obtain ⟨p, hp, rfl⟩ := h
  obtain ⟨q, hq, -, h⟩ := increment_startAt hp hk
  exact ⟨_, ⟨q, hq, rfl⟩, h⟩

theorem isNth_exists {c : List (List α)} {k : Nat} (hk : k ≤ (dd c.flatten).length) :
    ∃ it, IsNth c k it := by
  induction k with
  | zero => exact ⟨_, isNth_begin c⟩
  | succ k ih =>
    obtain ⟨it, h⟩ := ih (by omega)
    obtain ⟨it', h', -⟩ := isNth_inc h (by omega)
    exact ⟨it', h'⟩

theorem isNth_dec {c : List (List α)} {k : Nat} {it it' : It} (h : IsNth c k it)
    (h' : IsNth c (k + 1) it') : decrement c it' = some it := by
  obtain ⟨p, hp, rfl⟩ := h
  obtain ⟨q, hq, rfl⟩ := h'
  exact decrement_startAt hp hq

theorem isNth_incN {c : List (List α)} {k n : Nat} {it it' : It} (h : IsNth c k it)
    (h' : IsNth c (k + n) it') : incrementN c n it = some it' := by
  induction n generalizing k it with
  | zero => rw [isNth_unique h h']; rfl
  | succ n ih =>
    have := isNth_le h'
    obtain ⟨x, hx, hi⟩ := isNth_inc h (by omega)
    simp only [incrementN, hi, Option.bind_eq_bind, Option.bind_some]
    exact ih hx (by rwa [show k + 1 + n = k + (n + 1) by omega])

theorem isNth_decN {c : List (List α)} {k n : Nat} {it it' : It} (h : IsNth c k it)
    (h' : IsNth c (k + n) it') : decrementN c n it' = some it := by
  induction n generalizing it' with
  | zero => rw [isNth_unique h h']; rfl
  | succ n ih =>
    have := isNth_le h'
    obtain ⟨x, hx⟩ := isNth_exists (c := c) (k := k + n) (by omega)
    simp only [decrementN, isNth_dec hx h', Option.bind_eq_bind, Option.bind_some]
    exact ih hx

theorem isNth_advance {c : List (List α)} {j k : Nat} {it it' : It} (h : IsNth c j it)
    (h' : IsNth c k it') : advance c it ((k : Int) - j) = some it' := by
  simp only [advance]
  split
  · apply isNth_incN h
    rwa [show j + ((k : Int) - j).toNat = k by omega]
  · apply isNth_decN h'
    rwa [show k + (-((k : Int) - j)).toNat = j by omega]

theorem isNth_countTo {c : List (List α)} {j n : Nat} {it it' : It} (d : Int) (h : IsNth c j it)
    (h' : IsNth c (j + n) it') : countTo c it it' d = some (d + n) := by
  induction n generalizing j it d with
  | zero => rw [isNth_unique h h', countTo]; simp
  | succ n ih =>
    have := isNth_le h'
    obtain ⟨x, hx, hi⟩ := isNth_inc h (by omega)
    rw [countTo, if_neg]
    · simp only [hi, Option.bind_eq_bind, Option.bind_some]
      rw [ih (d + 1) hx (by rwa [show j + 1 + n = j + (n + 1) by omega])]
      congr 1; omega
    · rintro rfl
      have := isNth_inj h h'; omega

theorem isNth_distance {c : List (List α)} {j k : Nat} {it it' : It} (h : IsNth c j it)
    (h' : IsNth c k it') : distanceTo c it it' = some ((k : Int) - j) := by
  have hlt : (it'.outer > it.outer ∨ (it'.outer = it.outer ∧ it'.inner > it.inner)) ↔ j < k := by
    obtain ⟨p, hp, rfl⟩ := h
    obtain ⟨q, hq, rfl⟩ := h'
    have hpl := startAt_le hp
    have hql := startAt_le hq
    rcases Nat.lt_trichotomy p q with hpq | hpq | hpq
    · have := startAt_mono hp hq hpq
      have := itAt_lt hpq hql
      constructor <;> intro <;> omega
    · subst hpq
      have := startAt_inj hp hq
      constructor <;> intro <;> omega
    · have := startAt_mono hq hp hpq
      have := itAt_lt hpq hpl
      constructor <;> intro <;> omega
  simp only [distanceTo]
  split
  · rename_i hc
    have := hlt.mp hc
    have e := isNth_countTo 0 h (n := k - j) (by rwa [show j + (k - j) = k by omega])
    rw [e]; congr 1; omega
  · rename_i hc
    have : ¬ j < k := fun h => hc (hlt.mpr h)
    have e := isNth_countTo 0 h' (n := j - k) (by rwa [show k + (j - k) = j by omega])
    rw [e]; simp only [Option.bind_eq_bind, Option.bind_some]
    show some _ = some _
    congr 1; omega

/-! ### the reversible iterators of a compound linestring -/

/-- The `k`-th position as seen through the linestring. -/
def IsNthRF (s : CLS α) (k : Nat) (it : RFIt) : Prop :=
  it.forward = !s.inverted ∧ k ≤ (dd s.ls.flatten).length ∧
    IsNth s.ls (if s.inverted then (dd s.ls.flatten).length - k else k) it.base

/-- the view (helper version) -/
def vw (s : CLS α) : List α :=
  if s.inverted then (dd s.ls.flatten).reverse else dd s.ls.flatten

theorem vw_length (s : CLS α) : (vw s).length = (dd s.ls.flatten).length := by
  simp only [vw]; split <;> simp

theorem rf_begin (s : CLS α) : IsNthRF s 0 s.begin := by
  simp only [IsNthRF, CLS.begin]
  cases s.inverted <;> simp [isNth_begin, isNth_end]

theorem rf_end (s : CLS α) : IsNthRF s (vw s).length s.endIt := by
  rw [vw_length]
  simp only [IsNthRF, CLS.endIt]
  cases s.inverted <;> simp [isNth_begin, isNth_end]

theorem rf_exists {s : CLS α} {k : Nat} (hk : k ≤ (vw s).length) : ∃ it, IsNthRF s k it := by
  rw [vw_length] at hk
  obtain ⟨it, h⟩ := isNth_exists (c := s.ls)
    (k := if s.inverted then (dd s.ls.flatten).length - k else k) (by split <;> omega)
  exact ⟨⟨it, !s.inverted⟩, rfl, hk, h⟩

theorem rf_unique {s : CLS α} {k : Nat} {it it' : RFIt} (h : IsNthRF s k it)
    (h' : IsNthRF s k it') : it = it' := by
  obtain ⟨a, b, c⟩ := h
  obtain ⟨a', b', c'⟩ := h'
  have := isNth_unique c c'
  cases it; cases it'; simp_all

theorem rf_inj {s : CLS α} {j k : Nat} {it : RFIt} (h : IsNthRF s j it)
    (h' : IsNthRF s k it) : j = k := by
  obtain ⟨a, b, c⟩ := h
  obtain ⟨a', b', c'⟩ := h'
  have := isNth_inj c c'
  split at this <;> omega

theorem rf_inc {s : CLS α} {k : Nat} {it it' : RFIt} (h : IsNthRF s k it)
    (h' : IsNthRF s (k + 1) it') : it.increment s.ls = some it' := by
  obtain ⟨a, b, c⟩ := h
  obtain ⟨a', b', c'⟩ := h'
  obtain ⟨base, fwd⟩ := it
  obtain ⟨base', fwd'⟩ := it'
  simp only [RFIt.increment] at *
  cases hi : s.inverted with
  | false =>
    simp [hi] at *
    obtain ⟨x, hx, he⟩ := isNth_inc c (by omega)
    have := isNth_unique hx c'
    simp [a, a', he, this]
  | true =>
    simp [hi] at *
    rw [show (dd s.ls.flatten).length - k = (dd s.ls.flatten).length - (k + 1) + 1 by omega] at c
    have he := isNth_dec c' c
    simp [a, a', he]

theorem rf_dec {s : CLS α} {k : Nat} {it it' : RFIt} (h : IsNthRF s k it)
    (h' : IsNthRF s (k + 1) it') : it'.decrement s.ls = some it := by
  obtain ⟨a, b, c⟩ := h
  obtain ⟨a', b', c'⟩ := h'
  obtain ⟨base, fwd⟩ := it
  obtain ⟨base', fwd'⟩ := it'
  simp only [RFIt.decrement] at *
  cases hi : s.inverted with
  | true =>
    simp [hi] at *
    rw [show (dd s.ls.flatten).length - k = (dd s.ls.flatten).length - (k + 1) + 1 by omega] at c
    obtain ⟨x, hx, he⟩ := isNth_inc c' (by omega)
    have := isNth_unique hx c
    simp [a, a', he, this]
  | false =>
    simp [hi] at *
    have he := isNth_dec c c'
    simp [a, a', he]

theorem rf_advance {s : CLS α} {j k : Nat} {it it' : RFIt} (h : IsNthRF s j it)
    (h' : IsNthRF s k it') : it.advance s.ls ((k : Int) - j) = some it' := by
  obtain ⟨a, b, c⟩ := h
  obtain ⟨a', b', c'⟩ := h'
  have he := isNth_advance c c'
  obtain ⟨base, fwd⟩ := it
  obtain ⟨base', fwd'⟩ := it'
  simp only [RFIt.advance] at *
  cases hi : s.inverted with
  | false => simp [hi] at *; simp [a, a', he]
  | true =>
    simp [hi] at *
    have e : (((dd s.ls.flatten).length - k : Nat) : Int) - ((dd s.ls.flatten).length - j : Nat)
        = -((k : Int) - j) := by omega
    rw [e] at he
    simp [a, a', he, -Int.neg_sub]

theorem rf_distance {s : CLS α} {j k : Nat} {it it' : RFIt} (h : IsNthRF s j it)
    (h' : IsNthRF s k it') : it.distanceTo s.ls it' = some ((k : Int) - j) := by
  obtain ⟨a, b, c⟩ := h
  obtain ⟨a', b', c'⟩ := h'
  have he := isNth_distance c c'
  obtain ⟨base, fwd⟩ := it
  obtain ⟨base', fwd'⟩ := it'
  simp only [RFIt.distanceTo] at *
  cases hi : s.inverted with
  | false => simp [hi] at *; simp [a, he]
  | true =>
    simp [hi] at *
    simp [a, he]
    omega

theorem rf_deref {s : CLS α} {k : Nat} {it : RFIt} (h : IsNthRF s k it) (hk : k < (vw s).length) :
    it.deref s.ls = (vw s)[k]? := by
  rw [vw_length] at hk
  obtain ⟨a, b, c⟩ := h
  obtain ⟨base, fwd⟩ := it
  simp only [RFIt.deref]
  cases hi : s.inverted with
  | false =>
    simp [hi] at a c
    simp [a, vw, hi, isNth_deref c]
  | true =>
    simp [hi] at a c
    rw [show (dd s.ls.flatten).length - k = (dd s.ls.flatten).length - (k + 1) + 1 by omega] at c
    obtain ⟨x, hx⟩ := isNth_exists (c := s.ls) (k := (dd s.ls.flatten).length - (k + 1)) (by omega)
    simp only [a, Bool.false_eq_true, if_false, isNth_dec hx c, Option.bind_some, isNth_deref hx,
      vw, hi, if_true, Option.bind_eq_bind]
    rw [List.getElem?_reverse hk]
    congr 1; omega

theorem rf_collect {s : CLS α} (n : Nat) {k : Nat} {it : RFIt} (h : IsNthRF s k it)
    (hn : k + n = (vw s).length) : s.collect it s.endIt = some ((vw s).drop k) := by
  induction n generalizing k it with
  | zero =>
    have he := rf_end s
    rw [← hn] at he
    have := rf_unique h he
    rw [CLS.collect, if_pos this, List.drop_eq_nil_of_le (by omega)]
  | succ n ih =>
    rw [CLS.collect, if_neg]
    · obtain ⟨x, hx⟩ := rf_exists (s := s) (k := k + 1) (by omega)
      rw [rf_deref h (by omega), rf_inc h hx]
      simp only [Option.bind_eq_bind, Option.bind_some]
      rw [ih hx (by omega)]
      rw [List.getElem?_eq_getElem (by omega)]
      simp only [Option.bind_some]
      rw [List.drop_eq_getElem_cons (show k < (vw s).length by omega)]
      rfl
    · rintro rfl
      have := rf_inj h (rf_end s); omega

end Verif.Compound
