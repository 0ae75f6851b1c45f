/-!
Model of concurrent conversions of one attribute, lanelet2_core/src/Attribute.cpp 32-46 (`store`, `load`) and the
conversions 61-147 that use them: every thread runs one conversion (`want`) that succeeds on the string. The interesting
part is the life time of the cached objects: `load` takes shared ownership (`c`) but then dereferences `cache` itself and
returns a raw pointer, ownership ends when `load` returns.

A step of a thread is one of: the atomic load; dereferencing the pointer and checking the kind; using the raw pointer;
computing and storing. Objects are numbered; an object is alive while the attribute or a thread owns it. Simplification:
the formal data race of the second read of `cache` is not modelled, only its consequences for life times.
-/
namespace Verif.Attr.Threads

/-- Where a thread is in an as... function with the cache: Attribute.cpp 33-45 (store, load) called from 61-146. -/
inductive PC where
  | start
  | holding (c : Nat)
  | ready (p : Nat)
  | compute
  | done
  deriving DecidableEq

/-- The shared cache (Attribute.h 106), the objects it has pointed to and where the threads are. -/
structure World where
  cache : Option Nat
  kindOf : Nat → Nat
  next : Nat
  pc : Nat → PC

/-- Assignment to the position of one thread. -/
def World.setPc (w : World) (t : Nat) (p : PC) : World := { w with pc := fun t' => if t' = t then p else w.pc t' }

/-- reference count > 0 -/
def alive (n : Nat) (w : World) (p : Nat) : Bool :=
  w.cache == some p || (List.range n).any fun t => w.pc t == .holding p

/-- One step of thread `t` of `n`; `none` is undefined behaviour (null pointer, use after free). Attribute.cpp 33-45 -/
def step (n : Nat) (want : Nat → Nat) (w : World) (t : Nat) : Option World :=
  match w.pc t with
  | .start => match w.cache with          -- line 41-44
    | none => some (w.setPc t .compute)
    | some c => some (w.setPc t (.holding c))
  | .holding _ => match w.cache with       -- line 45
    | none => none
    | some p => some (w.setPc t (if w.kindOf p = want t then .ready p else .compute))
  | .ready p => if alive n w p then some (w.setPc t .done) else none     -- e.g. lines 84-86
  | .compute =>                            -- lines 34-35
    some { w.setPc t .done with
      cache := some w.next, kindOf := fun p => if p = w.next then want t else w.kindOf p, next := w.next + 1 }
  | .done => some w

/-- A schedule: which thread makes the next step (helper of the properties). -/
def run (n : Nat) (want : Nat → Nat) : World → List Nat → Option World
  | w, [] => some w
  | w, t :: ts => match step n want w t with
    | none => none
    | some w => run n want w ts

/-- What a user relies on: whatever the schedule, no undefined behaviour. Specification. -/
def Safe (n : Nat) (want : Nat → Nat) (w : World) : Prop :=
  ∀ schedule : List Nat, (∀ t ∈ schedule, t < n) → ∃ w', run n want w schedule = some w'

/-- all threads at the beginning, cache with an object of kind `k` or empty; Helper of the properties. -/
def initial (k : Option Nat) : World := ⟨k.map fun _ => 0, fun _ => k.getD 0, 1, fun _ => .start⟩

/-- C53, the part that holds: if the cache holds the wanted kind (the conversion was called before), any number of
threads can call this conversion at the same time. Missing: different conversions, or the first call. -/
theorem concurrent_conversions_partial (n : Nat) (k : Nat) : Safe n (fun _ => k) (initial (some k)) := by
  have key : ∀ (schedule : List Nat) (w : World), w.cache = some 0 → w.kindOf 0 = k →
      (∀ t, w.pc t = .start ∨ w.pc t = .holding 0 ∨ w.pc t = .ready 0 ∨ w.pc t = .done) →
      ∃ w', run n (fun _ => k) w schedule = some w' := by
    intro schedule
    induction schedule with
    | nil => intro w _ _ _; exact ⟨w, rfl⟩
    | cons t ts ih =>
      intro w hc hk hp
      have hset : ∀ p, (p = .start ∨ p = .holding 0 ∨ p = .ready 0 ∨ p = .done) →
          ∃ w', run n (fun _ => k) (w.setPc t p) ts = some w' := by
        intro p hpp
        apply ih
        · exact hc
        · exact hk
        · intro t'
          unfold World.setPc
          simp only
          split
          · exact hpp
          · exact hp t'
      rcases hp t with h | h | h | h
      · simp only [run, step, h, hc]; exact hset _ (by simp)
      · simp only [run, step, h, hc, hk, if_true]; exact hset _ (by simp)
      · simp only [run, step, h]
        rw [if_pos (by simp [alive, hc])]
        exact hset _ (by simp)
      · simp only [run, step, h]; exact ih w hc hk hp
  intro schedule _
  exact key schedule _ rfl rfl (fun _ => .inl rfl)

/-- One thread alone is safe whatever the cache holds. -/
theorem single_thread_safe (want : Nat → Nat) (k : Option Nat) : Safe 1 want (initial k) := by
  have key : ∀ (schedule : List Nat) (w : World), (∀ t ∈ schedule, t < 1) →
      (w.pc 0 = .start ∨ w.pc 0 = .compute ∨ w.pc 0 = .done ∨
        ∃ p, w.cache = some p ∧ (w.pc 0 = .holding p ∨ w.pc 0 = .ready p)) →
      ∃ w', run 1 want w schedule = some w' := by
    intro schedule
    induction schedule with
    | nil => intro w _ _; exact ⟨w, rfl⟩
    | cons t ts ih =>
      intro w hlt hp
      have ht : t = 0 := by have := hlt t (by simp); omega
      subst ht
      have hts : ∀ t ∈ ts, t < 1 := fun t h => hlt t (by simp [h])
      rcases hp with h | h | h | ⟨p, hc, h | h⟩
      · simp only [run, step, h]
        cases hc : w.cache with
        | none => exact ih _ hts (.inr (.inl (by simp [World.setPc])))
        | some c => exact ih _ hts (.inr (.inr (.inr ⟨c, by simp [World.setPc, hc], .inl (by simp [World.setPc])⟩)))
      · simp only [run, step, h]
        exact ih _ hts (.inr (.inr (.inl (by simp [World.setPc]))))
      · simp only [run, step, h]; exact ih w hts (.inr (.inr (.inl h)))
      · simp only [run, step, h, hc]
        by_cases e : w.kindOf p = want 0
        · rw [if_pos e]
          exact ih _ hts (.inr (.inr (.inr ⟨p, by simp [World.setPc, hc], .inr (by simp [World.setPc])⟩)))
        · rw [if_neg e]; exact ih _ hts (.inr (.inl (by simp [World.setPc])))
      · simp only [run, step, h]
        rw [if_pos (by simp [alive, hc])]
        exact ih _ hts (.inr (.inr (.inl (by simp [World.setPc]))))
  intro schedule h
  exact key schedule _ h (.inl rfl)

/-- Two threads with different conversions: the object that the first one is about to read is destroyed by the second
one. -/
theorem different_conversions_counterexample : ¬ Safe 2 (fun t => t) (initial (some 0)) := by
  intro h
  obtain ⟨w, hw⟩ := h [0, 0, 1, 1, 1, 0] (by decide)
  revert hw
  have : run 2 (fun t => t) (initial (some 0)) [0, 0, 1, 1, 1, 0] = none := by rfl
  rw [this]; intro h; cases h

/-- Even the same conversion is unsafe with three threads if the cache is empty in the beginning. -/
theorem first_call_counterexample : ¬ Safe 3 (fun _ => 0) (initial none) := by
  intro h
  obtain ⟨w, hw⟩ := h [0, 1, 0, 2, 2, 1, 2] (by decide)
  revert hw
  have : run 3 (fun _ => 0) (initial none) [0, 1, 0, 2, 2, 1, 2] = none := by rfl
  rw [this]; intro h; cases h

end Verif.Attr.Threads
