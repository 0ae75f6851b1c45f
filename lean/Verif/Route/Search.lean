import Verif.Route.Model
import Mathlib.Logic.Relation
import Mathlib.Data.List.Perm.Subperm

/-!
Helper lemmas: the breadth first search of the route builder visits exactly the reachable vertices, each once.
-/
namespace Verif.Route
open Relation (ReflTransGen)

theorem discover_spec (ts : List Nat) (q seen : List Nat) :
    ∃ new, discover ts q seen = (q ++ new, seen ++ new) ∧ (seen.Nodup → (seen ++ new).Nodup) ∧ ∀ t, t ∈ seen ++ new ↔ t ∈ seen ∨ t ∈ ts := by
  induction ts generalizing q seen with
  | nil => exact ⟨[], by simp [discover], by simp, by simp⟩
  | cons a ts ih =>
    unfold discover at ih ⊢
    rw [List.foldl_cons]
    by_cases ha : a ∈ seen
    · obtain ⟨new, h1, h2, h3⟩ := ih q seen
      refine ⟨new, by simpa [ha] using h1, h2, fun t => ?_⟩
      rw [h3, List.mem_cons]
      constructor
      · rintro (h | h)
        · exact .inl h
        · exact .inr (.inr h)
      · rintro (h | rfl | h)
        · exact .inl h
        · exact .inl ha
        · exact .inr h
    · obtain ⟨new, h1, h2, h3⟩ := ih (q ++ [a]) (seen ++ [a])
      refine ⟨a :: new, by simpa [ha] using h1, fun hn => ?_, fun t => ?_⟩
      · have : (seen ++ [a]).Nodup := by
          rw [List.nodup_append]
          refine ⟨hn, by simp, ?_⟩
          intro x hx y hy
          simp only [List.mem_singleton] at hy
          subst hy
          rintro rfl
          exact ha hx
        simpa using h2 this
      · have := h3 t
        rw [List.append_assoc, List.singleton_append] at this
        rw [this]
        simp only [List.mem_append, List.mem_cons, List.not_mem_nil, or_false]
        tauto

/-- what the search returns -/
theorem bfsLoop_spec (out : Nat → List Nat) (q seen l : List Nat) (h : bfsLoop out q seen = some l) :
    ∀ done, seen = done ++ q → seen.Nodup →
      ∃ new, l = q ++ new ∧ (done ++ l).Nodup ∧ (∀ u ∈ l, ∀ t ∈ out u, t ∈ done ++ l) ∧ ∀ x ∈ new, ∃ u ∈ q, ReflTransGen (fun a b => b ∈ out a) u x := by
  refine bfsLoop.partial_correctness out (fun q seen l => ∀ done, seen = done ++ q → seen.Nodup →
      ∃ new, l = q ++ new ∧ (done ++ l).Nodup ∧ (∀ u ∈ l, ∀ t ∈ out u, t ∈ done ++ l) ∧
        ∀ x ∈ new, ∃ u ∈ q, ReflTransGen (fun a b => b ∈ out a) u x) ?_ q seen l h
  intro rec ih q seen l h done hs hn
  cases q with
  | nil =>
    simp only [Option.some.injEq] at h
    subst h
    exact ⟨[], by simp, by simpa [hs] using hn, by simp, by simp⟩
  | cons u q =>
    simp only [bind, Option.bind_eq_some_iff, pure, Option.some.injEq] at h
    obtain ⟨l', h1, h2⟩ := h
    obtain ⟨fresh, d1, d2, d3⟩ := discover_spec (out u) q seen
    rw [d1] at h1
    have hn' := d2 hn
    obtain ⟨new, k1, k2, k3, k4⟩ := ih _ _ _ h1 (done ++ [u]) (by rw [hs]; simp) hn'
    subst h2
    refine ⟨fresh ++ new, by rw [k1]; simp, by simpa using k2, ?_, ?_⟩
    · intro x hx t ht
      rcases List.mem_cons.mp hx with rfl | hx
      · have := (d3 t).mpr (.inr ht)
        rw [hs] at this
        rw [k1]
        simp only [List.mem_append, List.mem_cons] at this ⊢
        tauto
      · have := k3 x hx t ht
        simpa using this
    · intro x hx
      rcases List.mem_append.mp hx with hx | hx
      · refine ⟨u, by simp, ?_⟩
        have := (d3 x).mp (List.mem_append_right _ hx)
        rcases this with h | h
        · exact absurd rfl (List.nodup_append.mp hn' |>.2.2 x h x hx)
        · exact .single h
      · obtain ⟨y, hy, hr⟩ := k4 x hx
        rcases List.mem_append.mp hy with hy | hy
        · exact ⟨y, by simp [hy], hr⟩
        · refine ⟨u, by simp, ?_⟩
          rcases (d3 y).mp (List.mem_append_right _ hy) with h | h
          · exact absurd rfl (List.nodup_append.mp hn' |>.2.2 y h y hy)
          · exact ReflTransGen.head h hr

theorem bfs_spec {out : Nat → List Nat} {s : Nat} {order : List Nat} (h : bfs out s = some order) :
    order.Nodup ∧ order.head? = some s ∧ ∀ v, v ∈ order ↔ ReflTransGen (fun a b => b ∈ out a) s v := by
  obtain ⟨new, h1, h2, h3, h4⟩ := bfsLoop_spec out [s] [s] order h [] rfl (by simp)
  refine ⟨by simpa using h2, by rw [h1]; rfl, fun v => ⟨?_, ?_⟩⟩
  · intro hv
    rw [h1] at hv
    rcases List.mem_append.mp hv with hv | hv
    · simp only [List.mem_singleton] at hv
      subst hv
      exact .refl
    · obtain ⟨u, hu, hr⟩ := h4 v hv
      simp only [List.mem_singleton] at hu
      subst hu
      exact hr
  · intro hr
    induction hr with
    | refl => rw [h1]; simp
    | tail _ hs ih => simpa using h3 _ ih _ hs

/-- the search ends if the edges stay in a finite set -/
theorem bfsLoop_terminates (out : Nat → List Nat) (n : Nat) (ho : ∀ u < n, ∀ t ∈ out u, t < n) :
    ∀ (k : Nat) (q seen : List Nat) (done : List Nat), seen = done ++ q → seen.Nodup → (∀ x ∈ seen, x < n) → n - done.length ≤ k →
      ∃ l, bfsLoop out q seen = some l := by
  intro k
  induction k with
  | zero =>
    intro q seen done hs hn hb hk
    cases q with
    | nil => exact ⟨[], by rw [bfsLoop]⟩
    | cons u q =>
      exfalso
      have hsub : seen ⊆ List.range n := fun x hx => List.mem_range.mpr (hb x hx)
      have := (List.subperm_of_subset hn hsub).length_le
      rw [List.length_range, hs] at this
      simp at this
      omega
  | succ k ih =>
    intro q seen done hs hn hb hk
    cases q with
    | nil => exact ⟨[], by rw [bfsLoop]⟩
    | cons u q =>
      obtain ⟨fresh, d1, d2, d3⟩ := discover_spec (out u) q seen
      obtain ⟨l, hl⟩ := ih (q ++ fresh) (seen ++ fresh) (done ++ [u]) (by rw [hs]; simp) (d2 hn) (by
        intro x hx
        rcases (d3 x).mp hx with h | h
        · exact hb x h
        · exact ho u (hb u (by rw [hs]; simp)) x h) (by simp; omega)
      refine ⟨u :: l, ?_⟩
      rw [bfsLoop]
      simp only [d1, hl, bind, Option.bind, pure]

theorem bfs_terminates {out : Nat → List Nat} {n s : Nat} (ho : ∀ u < n, ∀ t ∈ out u, t < n) (hs : s < n) : ∃ l, bfs out s = some l :=
  bfsLoop_terminates out n ho _ [s] [s] [] rfl (by simp) (by simpa using hs) (Nat.le_refl _)

end Verif.Route
