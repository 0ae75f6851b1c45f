import Verif.Ids.Model

/-!
# C01: ids handed out are globally unique
-/
namespace Verif.Ids

/-- What has to hold between an event and a later one. -/
def Before : Event → Event → Prop
  | .got _ a, .got _ b => a < b
  | .registered _ i, .got _ b => i < b
  | _, _ => True

/-- Specification: ids are handed out in strictly increasing order and are greater than all ids whose
registration had returned before. -/
def Good (h : List Event) : Prop := h.Pairwise Before

/-- Helper of the proofs: invariant of the steps. -/
private structure Inv (s : State) : Prop where
  good : Good s.hist
  got : ∀ t a, Event.got t a ∈ s.hist → a < s.counter
  reg : ∀ t a, Event.registered t a ∈ s.hist → a < s.counter
  cur : ∀ t id c, s.pc t = .regLoop id c → c ≤ s.counter

private theorem good_append {h : List Event} {e : Event} (hg : Good h)
    (hb : ∀ e' ∈ h, Before e' e) : Good (h ++ [e]) := by
  unfold Good at *
  rw [List.pairwise_append]
  exact ⟨hg, List.pairwise_singleton _ _, fun a ha b hb' => by
    simp only [List.mem_singleton] at hb'; subst hb'; exact hb a ha⟩

private theorem inv_step {s s' : State} (hi : Inv s) (hs : Step s s') : Inv s' := by
  cases hs with
  | getId t h =>
    constructor
    · apply good_append hi.good
      rintro (⟨u, a⟩ | ⟨u, a⟩) he
      · exact hi.got u a he
      · exact hi.reg u a he
    · intro u a he
      simp only [List.mem_append, List.mem_singleton] at he
      rcases he with he | he
      · have := hi.got u a he; simp only; omega
      · cases he; simp only; omega
    · intro u a he
      simp only [List.mem_append, List.mem_singleton, reduceCtorEq, or_false] at he
      have := hi.reg u a he; simp only; omega
    · intro u id c hp
      have := hi.cur u id c hp; simp only; omega
  | regCall t id h =>
    refine ⟨hi.good, hi.got, hi.reg, ?_⟩
    intro u id' c hp
    simp only [setPC] at hp
    split at hp
    · cases hp
    · exact hi.cur u id' c hp
  | regLoad t id h =>
    refine ⟨hi.good, hi.got, hi.reg, ?_⟩
    intro u id' c hp
    simp only [setPC] at hp
    split at hp
    · cases hp; exact Int.le_refl _
    · exact hi.cur u id' c hp
  | regExit t id current h hc =>
    have hcur := hi.cur t id current h
    refine ⟨?_, ?_, ?_, ?_⟩
    · apply good_append hi.good
      rintro (⟨u, a⟩ | ⟨u, a⟩) he <;> trivial
    · intro u a he
      simp only [List.mem_append, List.mem_singleton, reduceCtorEq, or_false] at he
      exact hi.got u a he
    · intro u a he
      simp only [List.mem_append, List.mem_singleton] at he
      rcases he with he | he
      · exact hi.reg u a he
      · cases he; simp only; omega
    · intro u id' c hp
      simp only [setPC] at hp
      split at hp
      · cases hp
      · exact hi.cur u id' c hp
  | regCasOk t id current h hc he' =>
    refine ⟨?_, ?_, ?_, ?_⟩
    · apply good_append hi.good
      rintro (⟨u, a⟩ | ⟨u, a⟩) he <;> trivial
    · intro u a he
      simp only [List.mem_append, List.mem_singleton, reduceCtorEq, or_false] at he
      have := hi.got u a he; simp only; omega
    · intro u a he
      simp only [List.mem_append, List.mem_singleton] at he
      rcases he with he | he
      · have := hi.reg u a he; simp only; omega
      · cases he; simp only; omega
    · intro u id' c hp
      simp only [setPC] at hp
      split at hp
      · cases hp
      · have := hi.cur u id' c hp; simp only; omega
  | regCasFail t id current h hc =>
    refine ⟨hi.good, hi.got, hi.reg, ?_⟩
    intro u id' c hp
    simp only [setPC] at hp
    split at hp
    · cases hp; exact Int.le_refl _
    · exact hi.cur u id' c hp

private theorem inv_steps {s s' : State} (hi : Inv s) (hs : Steps s s') : Inv s' := by
  induction hs with
  | refl => exact hi
  | tail _ h ih => exact inv_step ih h

/-- C01: in every history that any number of threads can produce by any interleaving, the ids handed
out by `getId` increase strictly and exceed every id registered before. -/
theorem ids_good (s : State) (h : Steps init s) : Good s.hist := by
  refine (inv_steps ⟨?_, ?_, ?_, ?_⟩ h).good <;> simp [init, Good]

/-- C01: no two `getId` calls return the same id. -/
theorem ids_unique (s : State) (h : Steps init s) (i j : Nat) (t u : Tid) (a : Int) (hij : i ≠ j)
    (h1 : s.hist[i]? = some (.got t a)) (h2 : s.hist[j]? = some (.got u a)) : False := by
  have hg := ids_good s h
  unfold Good at hg
  rw [List.pairwise_iff_getElem] at hg
  obtain ⟨hi, e1⟩ := List.getElem?_eq_some_iff.mp h1
  obtain ⟨hj, e2⟩ := List.getElem?_eq_some_iff.mp h2
  rcases Nat.lt_or_gt_of_ne hij with hlt | hlt
  · have := hg i j hi hj hlt
    rw [e1, e2] at this
    simp only [Before] at this; omega
  · have := hg j i hj hi hlt
    rw [e1, e2] at this
    simp only [Before] at this; omega

/-- C01: an id whose registration returned at an earlier moment is smaller than every id handed out
later, whatever other threads did in between. -/
theorem ids_after_register (s : State) (h : Steps init s) (i j : Nat) (t u : Tid) (a b : Int)
    (hij : i < j) (h1 : s.hist[i]? = some (.registered t a)) (h2 : s.hist[j]? = some (.got u b)) :
    a < b := by
  have hg := ids_good s h
  unfold Good at hg
  rw [List.pairwise_iff_getElem] at hg
  obtain ⟨hi, e1⟩ := List.getElem?_eq_some_iff.mp h1
  obtain ⟨hj, e2⟩ := List.getElem?_eq_some_iff.mp h2
  have := hg i j hi hj hij
  rw [e1, e2] at this
  exact this

/-- The counter never decreases (also used for ids obtained by running threads). -/
theorem counter_mono (s s' : State) (h : Step s s') : s.counter ≤ s'.counter := by
  cases h <;> simp only <;> omega

/-- Progress: from the loop head, `registerId` run without interference and without spurious failure of
the exchange returns after at most two atomic steps and leaves the counter above `id`. -/
theorem registerId_solo (s : State) (t : Tid) (id c : Int) (h : s.pc t = .regLoop id c)
    (hcur : c ≤ s.counter) :
    ∃ s', (Step s s' ∨ ∃ m, Step s m ∧ Step m s') ∧ s'.pc t = .idle ∧
      s'.counter = max s.counter (id + 1) := by
  by_cases hc : c < id + 1
  · by_cases he : s.counter = c
    · refine ⟨_, Or.inl (.regCasOk s t id c h hc he), ?_, ?_⟩
      · simp [setPC]
      · simp only; omega
    · have s1 := Step.regCasFail s t id c h hc
      by_cases hc2 : s.counter < id + 1
      · refine ⟨_, Or.inr ⟨_, s1, .regCasOk _ t id s.counter (by simp [setPC]) hc2 rfl⟩, ?_, ?_⟩
        · simp [setPC]
        · simp only; omega
      · refine ⟨_, Or.inr ⟨_, s1, .regExit _ t id s.counter (by simp [setPC]) hc2⟩, ?_, ?_⟩
        · simp [setPC]
        · simp only; omega
  · refine ⟨_, Or.inl (.regExit s t id c h hc), by simp [setPC], ?_⟩
    simp only; omega

/-- The sequential summary used elsewhere is what the steps of a single thread compute. -/
theorem registerId_seq (s : State) (t : Tid) (id : Int) (h : s.pc t = .idle) :
    ∃ s', Steps s s' ∧ s'.pc t = .idle ∧ s'.counter = registerIdSeq s.counter id := by
  have s1 := Step.regCall s t id h
  have s2 := Step.regLoad { s with pc := setPC s t (.regLoad id) } t id (by simp [setPC])
  by_cases hc : s.counter < id + 1
  · refine ⟨_, .tail (.tail (.tail (.refl s) s1) s2)
      (.regCasOk _ t id s.counter (by simp [setPC]) hc rfl), ?_, ?_⟩
    · simp [setPC]
    · simp [registerIdSeq, hc]
  · refine ⟨_, .tail (.tail (.tail (.refl s) s1) s2)
      (.regExit _ t id s.counter (by simp [setPC]) hc), ?_, ?_⟩
    · simp [setPC]
    · simp [registerIdSeq, hc]

/-- non-triviality: thread 1 registers 5000 while thread 2 fetches ids in between; the exchange of
thread 1 first fails, and thread 2 then gets 5001. -/
example : ∃ s, Steps init s ∧
    s.hist = [.got 2 1000, .registered 1 5000, .got 2 5001] := by
  let s1 := { init with pc := setPC init 1 (.regLoad 5000) }
  let s2 := { s1 with pc := setPC s1 1 (.regLoop 5000 s1.counter) }
  let s3 : State := { s2 with counter := s2.counter + 1, hist := s2.hist ++ [.got 2 s2.counter] }
  let s4 := { s3 with pc := setPC s3 1 (.regLoop 5000 s3.counter) }
  let s5 : State := { s4 with counter := 5000 + 1, pc := setPC s4 1 .idle,
                              hist := s4.hist ++ [.registered 1 5000] }
  refine ⟨_, .tail (.tail (.tail (.tail (.tail (.tail (.refl init)
    (.regCall init 1 5000 rfl)) (.regLoad s1 1 5000 rfl)) (.getId s2 2 rfl))
    (.regCasFail s3 1 5000 1000 rfl (by decide))) (.regCasOk s4 1 5000 1001 rfl (by decide) rfl))
    (.getId s5 2 rfl), rfl⟩

end Verif.Ids
