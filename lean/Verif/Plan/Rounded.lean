import Verif.Plan.Props
import Mathlib.Algebra.Order.Floor.Ring
import Mathlib.Algebra.Order.Field.Power
import Mathlib.Algebra.Order.Archimedean.Basic
import Mathlib.Data.Int.Log
import Mathlib.Data.Rat.Floor
import Mathlib.Algebra.Order.Field.Rat
import Mathlib.Tactic.Linarith
import Mathlib.Tactic.Ring
import Mathlib.Tactic.Positivity
import Mathlib.Tactic.FieldSimp
import Mathlib.Tactic.NormNum

/-!
C95: routing with the rounded arithmetic of the program. Costs are doubles (internal/Graph.h 37, ShortestPath.h 35-56, 116-127); the search adds them with
rounding. The search itself (Verif.Search) and the graph (Verif.Graph, Verif.Build) are the models of C21, C22 and C65, used here with rounded costs.
-/
set_option linter.unusedSectionVars false
namespace Verif.Plan
open Verif.Graph (RGraph CostTests HasEdge pathRelations pathView TestsOk)
open Verif.Search (Cost PickMin)
open Verif.Build

variable {F : Type} [Field F] [LinearOrder F] [IsStrictOrderedRing F]

/-! ### model -/

/-- Rounding to the numbers of a floating point format. `err`: the sum of two numbers of the format that are not negative is rounded with the relative
error `u`. Instances are `floating` for every size, among them `double64`. -/
structure Rounding (F : Type) [Field F] [LinearOrder F] [IsStrictOrderedRing F] where
  rnd : F → F
  u : F
  mono : Monotone rnd
  idem : ∀ x, rnd (rnd x) = rnd x
  zero : rnd 0 = 0
  u_nonneg : 0 ≤ u
  u_lt : u < 1
  err : ∀ x y, rnd x = x → rnd y = y → 0 ≤ x → 0 ≤ y → |rnd (x + y) - (x + y)| ≤ u * (x + y)

/-- A cost: a number of the format or infinity (`double` in internal/Graph.h 37). Simplified: the numbers are not limited from above, so sums do not
overflow. NaN and -infinity are left out, they are not costs of edges (Graph.h 190-195). -/
inductive RD (R : Rounding F) where
  | fin (x : F) (h : R.rnd x = x)
  | inf

/-- `+` of doubles, ShortestPath.h 126 (closed_plus) -/
def RD.add {R : Rounding F} : RD R → RD R → RD R
  | .fin x _, .fin y _ => .fin (R.rnd (x + y)) (R.idem _)
  | _, _ => .inf

/-- `<=` of doubles, ShortestPath.h 45-56, 125 -/
def RD.le {R : Rounding F} : RD R → RD R → Prop
  | .fin x _, .fin y _ => x ≤ y
  | _, .inf => True
  | .inf, .fin _ _ => False

/-- Rounded costs have all the laws that the search needs; ShortestPath.h 35-56 -/
instance rdCost {R : Rounding F} : Cost (RD R) where
  zero := .fin 0 R.zero
  add := RD.add
  le := RD.le
  decLe a b := by cases a <;> cases b <;> unfold RD.le <;> infer_instance
  le_refl a := by cases a <;> simp [RD.le]
  le_trans {a b c} h1 h2 := by
    cases a <;> cases b <;> cases c <;> simp_all [RD.le]
    exact h1.trans h2
  le_total a b := by
    cases a <;> cases b <;> simp [RD.le]
    exact le_total _ _
  add_mono {a b} w h := by
    cases a <;> cases b <;> cases w <;> simp_all [RD.le, RD.add]
    exact R.mono (by linarith)
  le_add a w h := by
    cases a with
    | inf => cases w <;> simp [RD.le, RD.add]
    | fin x hx =>
      cases w with
      | inf => simp [RD.le, RD.add]
      | fin y hy =>
        simp only [RD.le, RD.add] at h ⊢
        calc x = R.rnd x := hx.symm
          _ ≤ R.rnd (x + y) := R.mono (by linarith)

/-- std::isfinite and `< 0` of Graph.h 190-195 -/
def rdTests {R : Rounding F} : CostTests (RD R) where
  isFinite
    | .fin _ _ => true
    | .inf => false
  negative
    | .fin x _ => decide (x < 0)
    | .inf => false

theorem rdTests_ok {R : Rounding F} : TestsOk (rdTests : CostTests (RD R)) := by
  intro c h1 h2
  cases c with
  | fin x _ =>
    show (0 : F) ≤ x
    simpa [rdTests] using h2
  | inf => simp [rdTests] at h1

/-! ### specification -/

/-- Specification: a path and its exact cost: the sum of the costs of its steps without rounding. -/
def ExactPath {R : Rounding F} (step : Prim → Prim → RD R → Prop) : List Prim → F → Prop :=
  Path (fun a b y => ∃ h, step a b (.fin y h)) 0 (· + ·)

/-- Specification: `r` is the answer of a shortest path query up to rounding: nothing exactly if there is no path; otherwise a path whose exact cost is
larger than that of any other path by at most a factor that depends on the numbers of steps (for 1000 lanelets and doubles, the factor is below
1 + 10⁻¹²). Single steps are not rounded, so that a path with `n` lanelets has `n - 2` roundings. -/
def NearlyShortest {R : Rounding F} (step : Prim → Prim → RD R → Prop) (a b : Prim) (r : Except Unit (Option (Option (List Prim)))) : Prop :=
  (r = .ok (some none) ∧ ∀ ps x, ExactPath step ps x → ps.head? = some a → ps.getLast? ≠ some b) ∨
  (∃ ps x, r = .ok (some (some ps)) ∧ ExactPath step ps x ∧ ps.head? = some a ∧ ps.getLast? = some b ∧
    ∀ ps' x', ExactPath step ps' x' → ps'.head? = some a → ps'.getLast? = some b →
      (1 - R.u) ^ (ps.length - 2) * x ≤ (1 + R.u) ^ (ps'.length - 2) * x')

/-- Specification: `r` is the set of everything that is reachable from `a` within the limit, up to rounding: what is reachable for a cost that is
clearly below the limit is in it, what is in it is reachable for a cost that is not clearly above. -/
def NearlyReachable {R : Rounding F} (step : Prim → Prim → RD R → Prop) (a : Prim) (limit : F) (r : List Prim) : Prop :=
  r.Nodup ∧
  (∀ q ps x, ExactPath step ps x → ps.head? = some a → ps.getLast? = some q → (1 + R.u) ^ (ps.length - 2) * x ≤ limit → q ∈ r) ∧
  (∀ q ∈ r, ∃ ps x, ExactPath step ps x ∧ ps.head? = some a ∧ ps.getLast? = some q ∧ (1 - R.u) ^ (ps.length - 2) * x ≤ limit)

/-! ### proofs -/

section
variable {R : Rounding F} {step : Prim → Prim → RD R → Prop}

theorem path_length {K : Type} {step : Prim → Prim → K → Prop} {zero : K} {add : K → K → K} {ps : List Prim} {c : K}
    (h : Path step zero add ps c) : 1 ≤ ps.length := by
  cases h <;> simp

/-- One step of the bounds. -/
theorem round_step {n : Nat} {x y w : F} (hn : 1 ≤ n) (hx : 0 ≤ x) (hy : 0 ≤ y) (hw : 0 ≤ w) (hyr : R.rnd y = y) (hwr : R.rnd w = w)
    (h1 : n = 1 → x = 0 ∧ y = 0) (lo : (1 - R.u) ^ (n - 2) * x ≤ y) (hi : y ≤ (1 + R.u) ^ (n - 2) * x) :
    0 ≤ R.rnd (y + w) ∧ (1 - R.u) ^ (n + 1 - 2) * (x + w) ≤ R.rnd (y + w) ∧ R.rnd (y + w) ≤ (1 + R.u) ^ (n + 1 - 2) * (x + w) := by
  have hpos : 0 ≤ R.rnd (y + w) := by
    have := R.mono (show (0 : F) ≤ y + w by linarith)
    rwa [R.zero] at this
  refine ⟨hpos, ?_⟩
  rcases Nat.lt_or_ge n 2 with h | h
  · obtain rfl : n = 1 := by omega
    obtain ⟨rfl, rfl⟩ := h1 rfl
    simp [hwr]
  · obtain ⟨m, rfl⟩ : ∃ m, n = m + 2 := ⟨n - 2, by omega⟩
    have e1 : m + 2 - 2 = m := by omega
    have e2 : m + 2 + 1 - 2 = m + 1 := by omega
    rw [e1] at lo hi
    rw [e2]
    have he := abs_le.1 (R.err y w hyr hwr hy hw)
    have hu := R.u_nonneg
    have hu1 := R.u_lt
    have hl1 : (1 - R.u) ^ m ≤ 1 := pow_le_one₀ (by linarith) (by linarith)
    have hh1 : 1 ≤ (1 + R.u) ^ m := one_le_pow₀ (by linarith)
    constructor
    · calc (1 - R.u) ^ (m + 1) * (x + w) = (1 - R.u) * ((1 - R.u) ^ m * x + (1 - R.u) ^ m * w) := by ring
        _ ≤ (1 - R.u) * (y + w) := by
          apply mul_le_mul_of_nonneg_left _ (by linarith)
          have := mul_le_mul_of_nonneg_right hl1 hw
          linarith
        _ ≤ R.rnd (y + w) := by linarith [he.1]
    · calc R.rnd (y + w) ≤ (1 + R.u) * (y + w) := by linarith [he.2]
        _ ≤ (1 + R.u) * ((1 + R.u) ^ m * x + (1 + R.u) ^ m * w) := by
          apply mul_le_mul_of_nonneg_left _ (by linarith)
          have := mul_le_mul_of_nonneg_right hh1 hw
          linarith
        _ = (1 + R.u) ^ (m + 1) * (x + w) := by ring

/-- The bounds between a rounded and an exact cost. Helper of the proofs. -/
def Near (R : Rounding F) (n : Nat) (x : F) (c : RD R) : Prop :=
  ∃ y h, c = .fin y h ∧ 0 ≤ x ∧ 0 ≤ y ∧ (n = 1 → x = 0 ∧ y = 0) ∧ (1 - R.u) ^ (n - 2) * x ≤ y ∧ y ≤ (1 + R.u) ^ (n - 2) * x

theorem near_step {n : Nat} {x w : F} {c : RD R} (hn : 1 ≤ n) (hw : 0 ≤ w) (hwr : R.rnd w = w) (h : Near R n x c) :
    Near R (n + 1) (x + w) (Cost.add c (.fin w hwr)) := by
  obtain ⟨y, hy, rfl, h1, h2, h3, h4, h5⟩ := h
  obtain ⟨k1, k2, k3⟩ := round_step hn h1 h2 hw hy hwr h3 h4 h5
  exact ⟨_, R.idem _, rfl, by linarith, k1, by omega, k2, k3⟩

theorem exact_of_rounded (hs : ∀ a b c, step a b c → ∃ y h, c = .fin y h ∧ 0 ≤ y) {ps : List Prim} {c : RD R}
    (hp : Path step Cost.zero Cost.add ps c) : ∃ x, ExactPath step ps x ∧ Near R ps.length x c := by
  induction hp with
  | single p => exact ⟨0, .single p, 0, R.zero, rfl, le_refl _, le_refl _, fun _ => ⟨rfl, rfl⟩, by simp, by simp⟩
  | @snoc ps c w p q h hl hst ih =>
    obtain ⟨x, h1, h2⟩ := ih
    obtain ⟨y, hy, rfl, h0⟩ := hs _ _ _ hst
    refine ⟨x + y, .snoc h1 hl ⟨hy, hst⟩, ?_⟩
    rw [List.length_append]
    exact near_step (path_length h) h0 hy h2

theorem rounded_of_exact (hs : ∀ a b c, step a b c → ∃ y h, c = .fin y h ∧ 0 ≤ y) {ps : List Prim} {x : F}
    (hp : ExactPath step ps x) : ∃ c, Path step Cost.zero Cost.add ps c ∧ Near R ps.length x c := by
  induction hp with
  | single p => exact ⟨Cost.zero, .single p, 0, R.zero, rfl, le_refl _, le_refl _, fun _ => ⟨rfl, rfl⟩, by simp, by simp⟩
  | @snoc ps c w p q h hl hst ih =>
    obtain ⟨c', h1, h2⟩ := ih
    obtain ⟨hy, hst⟩ := hst
    obtain ⟨y, hy', e, h0⟩ := hs _ _ _ hst
    obtain rfl : w = y := by injection e
    refine ⟨_, .snoc h1 hl hst, ?_⟩
    rw [List.length_append]
    exact near_step (path_length h) h0 hy h2

theorem nearly_of_shortest (hs : ∀ a b c, step a b c → ∃ y h, c = .fin y h ∧ 0 ≤ y) {a b : Prim}
    {r : Except Unit (Option (Option (List Prim)))} (h : Shortest step a b r) : NearlyShortest step a b r := by
  rcases h with ⟨h1, h2⟩ | ⟨ps, c, h1, h2, h3, h4, h5⟩
  · refine .inl ⟨h1, fun ps x hp => ?_⟩
    obtain ⟨c, hc, -⟩ := rounded_of_exact hs hp
    exact h2 ps c hc
  · obtain ⟨x, k1, y, hy, rfl, -, -, -, k2, -⟩ := exact_of_rounded hs h2
    refine .inr ⟨ps, x, h1, k1, h3, h4, fun ps' x' hp hh hl => ?_⟩
    obtain ⟨c', hc, y', hy', rfl, -, -, -, -, k3⟩ := rounded_of_exact hs hp
    have hle : y ≤ y' := h5 ps' _ hc hh hl
    linarith

theorem nearly_of_reachable (hs : ∀ a b c, step a b c → ∃ y h, c = .fin y h ∧ 0 ≤ y) {a : Prim} {limit : F} (hl : R.rnd limit = limit)
    {r : List Prim} (hn : r.Nodup) (h : ∀ q, q ∈ r ↔ ∃ ps c, Path step Cost.zero Cost.add ps c ∧ ps.head? = some a ∧ ps.getLast? = some q ∧
      Cost.le c (.fin limit hl)) : NearlyReachable step a limit r := by
  refine ⟨hn, fun q ps x hp hh hq hx => (h q).2 ?_, fun q hq => ?_⟩
  · obtain ⟨c, hc, y, hy, rfl, -, -, -, -, k⟩ := rounded_of_exact hs hp
    exact ⟨ps, _, hc, hh, hq, show y ≤ limit by linarith⟩
  · obtain ⟨ps, c, h1, h2, h3, h4⟩ := (h q).1 hq
    obtain ⟨x, k1, y, hy, rfl, -, -, -, k2, -⟩ := exact_of_rounded hs h1
    have hle : y ≤ limit := h4
    exact ⟨ps, x, k1, h2, h3, by linarith⟩

end

section
variable {P : Type} [DecidableEq P] {R : Rounding F} (i : Input P (RD R)) (hi : InputOk i) (ok : CostsOk i) (ht : i.tests = rdTests)
  (g : RGraph Prim (RD R)) (hg : build i = some g) {pick : Nat → (Nat → RD R) → List Nat → Nat} (hpick : PickMin pick) (k : Nat)
  (m : CostModule (RD R)) (hk : i.costs[k]? = some m) (areas : Bool)
  (hbox : areas = true → ∀ a b, canDrive i a b = true → boxesMeet i a b = true)
include hi ok ht hg hpick hk hbox

theorem move_weight (a b : Prim) (c : RD R) (h : Move i m areas a b c) : ∃ y h, c = .fin y h ∧ 0 ≤ y := by
  have key : ∀ a b, i.tests.isFinite (m.succ a b) = true → ∃ y h, m.succ a b = .fin y h ∧ 0 ≤ y := by
    intro a b hf
    have hn := ok.succ m (List.mem_of_getElem? hk) a b
    rw [ht] at hf hn
    cases hm : m.succ a b with
    | inf => rw [hm] at hf; simp [rdTests] at hf
    | fin y hy => rw [hm] at hn; exact ⟨y, hy, rfl, by simpa [rdTests] using hn⟩
  cases h with
  | ahead la lb _ _ _ _ hf => exact key _ _ hf
  | area _ _ _ _ _ _ hf => exact key _ _ hf

theorem change_weight (κ : RD R) (hκ : ∀ x y, m.change x y = κ) (hfin : i.tests.isFinite κ = true) (a b : Prim) (c : RD R)
    (h : MoveOrChangeFor i m areas κ a b c) : ∃ y h, c = .fin y h ∧ 0 ≤ y := by
  rcases h with h | ⟨la, lb, -, -, -, rfl⟩
  · exact move_weight i hi ok ht g hg hpick k m hk areas hbox a b c h
  · have hn := ok.change m (List.mem_of_getElem? hk) [la] [lb]
    rw [hκ, ht] at hn
    rw [ht] at hfin
    cases c with
    | inf => simp [rdTests] at hfin
    | fin y hy => exact ⟨y, hy, rfl, by simpa [rdTests] using hn⟩

/-- **C95.** `shortestPath` with rounded costs, without lane changes: the cheapest way to drive that the traffic rules permit, up to the rounding errors
of the sums. -/
theorem shortestPath_rounded (a b : Prim) (ha : Usable i a) (hb : Usable i b) :
    NearlyShortest (Move i m areas) a b (g.shortestPath pick a b k false areas) :=
  nearly_of_shortest (move_weight i hi ok ht g hg hpick k m hk areas hbox)
    (shortestPath_map i hi ok (by rw [ht]; exact rdTests_ok) g hg hpick k m hk areas hbox a b ha hb)

/-- **C95.** The same with lane changes (for maps as in C65). -/
theorem shortestPath_rounded_changes (hclear : Clear i) (κ : RD R) (hκ : ∀ x y, m.change x y = κ) (hfin : i.tests.isFinite κ = true)
    (a b : Prim) (ha : Usable i a) (hb : Usable i b) :
    NearlyShortest (MoveOrChangeFor i m areas κ) a b (g.shortestPath pick a b k true areas) :=
  nearly_of_shortest (change_weight i hi ok ht g hg hpick k m hk areas hbox κ hκ hfin)
    (shortestPath_map_changes i hi ok (by rw [ht]; exact rdTests_ok) g hg hpick k m hk areas hbox hclear κ hκ hfin a b ha hb)

/-- **C95.** `reachableSet` with rounded costs. -/
theorem reachableSet_rounded (a : Prim) (ha : Usable i a) (limit : F) (hl : R.rnd limit = limit) :
    ∃ r, g.reachableSet pick false a (.fin limit hl) k (pathView false areas) = .ok (some r) ∧ NearlyReachable (Move i m areas) a limit r := by
  obtain ⟨⟨r, h1, h2, h3⟩, -⟩ := reachableSet_map i hi ok (by rw [ht]; exact rdTests_ok) g hg hpick k m hk areas hbox a ha (.fin limit hl)
  exact ⟨r, h1, nearly_of_reachable (move_weight i hi ok ht g hg hpick k m hk areas hbox) hl h2 h3⟩

/-- **C95.** The same with lane changes (for maps as in C65). -/
theorem reachableSet_rounded_changes (hclear : Clear i) (κ : RD R) (hκ : ∀ x y, m.change x y = κ) (hfin : i.tests.isFinite κ = true)
    (a : Prim) (ha : Usable i a) (limit : F) (hl : R.rnd limit = limit) :
    ∃ r, g.reachableSet pick false a (.fin limit hl) k (pathView true areas) = .ok (some r) ∧
      NearlyReachable (MoveOrChangeFor i m areas κ) a limit r := by
  obtain ⟨⟨r, h1, h2, h3⟩, -⟩ := reachableSet_map_changes i hi ok (by rw [ht]; exact rdTests_ok) g hg hpick k m hk areas hbox hclear κ hκ hfin a ha
    (.fin limit hl)
  exact ⟨r, h1, nearly_of_reachable (change_weight i hi ok ht g hg hpick k m hk areas hbox κ hκ hfin) hl h2 h3⟩

end

end Verif.Plan
