import Verif.Plan.Rounded

/-!
C95: the numbers of a binary floating point format and rounding to them, to nearest with ties to even as in IEEE 754 (trusted to be what the compiler
and the processor do). Exponents are limited from below (gradual underflow), not from above.
-/
set_option linter.unusedSectionVars false
namespace Verif.Plan
open Verif.Search (Cost PickMin)
open Verif.Build

variable {F : Type} [Field F] [LinearOrder F] [IsStrictOrderedRing F] [FloorRing F]

/-! ### model -/

/-- The nearest integer, the even one of two; the rounding of `double` (type of costs, internal/Graph.h 37) according to IEEE 754. -/
def nearestEven (x : F) : ℤ :=
  if 2 * Int.fract x < 1 then ⌊x⌋ else if 1 < 2 * Int.fract x then ⌊x⌋ + 1 else if ⌊x⌋ % 2 = 0 then ⌊x⌋ else ⌊x⌋ + 1

/-- The exponent of the last digit of a number with `p` binary digits next to `x`, at least `emin`; IEEE 754 for costs (internal/Graph.h 37). -/
def lastDigit (p : Nat) (emin : ℤ) (x : F) : ℤ := max (Int.log 2 x - (p - 1)) emin

/-- Rounding of numbers that are not negative; IEEE 754 for costs (internal/Graph.h 37). -/
def roundPos (p : Nat) (emin : ℤ) (x : F) : F := nearestEven (x / 2 ^ lastDigit p emin x) * 2 ^ lastDigit p emin x

/-- Rounding; IEEE 754 for costs (internal/Graph.h 37). -/
def roundTo (p : Nat) (emin : ℤ) (x : F) : F := if x < 0 then -roundPos p emin (-x) else roundPos p emin x

/-! ### proofs -/

theorem nearestEven_int (n : ℤ) : nearestEven (n : F) = n := by
  simp [nearestEven]

theorem nearestEven_bounds (x : F) : ⌊x⌋ ≤ nearestEven x ∧ nearestEven x ≤ ⌊x⌋ + 1 := by
  unfold nearestEven
  split
  · omega
  · split
    · omega
    · split <;> omega

theorem nearestEven_mono {x y : F} (h : x ≤ y) : nearestEven x ≤ nearestEven y := by
  have hf := Int.floor_mono h
  rcases hf.lt_or_eq with h1 | h1
  · have h2 := (nearestEven_bounds x).2
    have h3 := (nearestEven_bounds y).1
    omega
  · have hx : Int.fract x ≤ Int.fract y := by
      have a1 := Int.self_sub_floor x
      have a2 := Int.self_sub_floor y
      have : (⌊x⌋ : F) = ⌊y⌋ := by rw [h1]
      linarith
    unfold nearestEven
    rw [h1]
    split_ifs <;> first | omega | (exfalso; linarith)

theorem nearestEven_err (x : F) : |(nearestEven x : F) - x| ≤ 1 / 2 := by
  have a1 := Int.self_sub_floor x
  have a2 := Int.fract_nonneg x
  have a3 := Int.fract_lt_one x
  rw [abs_le]
  unfold nearestEven
  split_ifs <;> push_cast <;> constructor <;> linarith

theorem le_nearestEven {n : ℤ} {x : F} (h : (n : F) ≤ x) : n ≤ nearestEven x := by
  have := nearestEven_mono h
  rwa [nearestEven_int] at this

theorem nearestEven_le {n : ℤ} {x : F} (h : x ≤ (n : F)) : nearestEven x ≤ n := by
  have := nearestEven_mono h
  rwa [nearestEven_int] at this

section
variable {p : Nat} {emin : ℤ}

theorem two_zpow_pos (e : ℤ) : (0 : F) < 2 ^ e := zpow_pos (by norm_num) e

theorem two_zpow_nat {e : ℤ} (h : 0 ≤ e) : ∃ n : ℤ, (2 : F) ^ e = n := by
  obtain ⟨k, rfl⟩ := Int.eq_ofNat_of_zero_le h
  exact ⟨2 ^ k, by push_cast; rw [zpow_natCast]⟩

/-- Numbers that are multiples of a power of two that is not below the last digit are not rounded. -/
theorem roundPos_exact {x : F} {e k : ℤ} (hx : x = k * 2 ^ e) (he : lastDigit p emin x ≤ e) : roundPos p emin x = x := by
  obtain ⟨n, hn⟩ := two_zpow_nat (F := F) (e := e - lastDigit p emin x) (by omega)
  have hq : x / 2 ^ lastDigit p emin x = ((k * n : ℤ) : F) := by
    rw [div_eq_iff (two_zpow_pos _).ne']
    push_cast
    rw [← hn, mul_assoc, ← zpow_add₀ (by norm_num), sub_add_cancel, ← hx]
  rw [roundPos, hq, nearestEven_int, ← hq, div_mul_cancel₀ _ (two_zpow_pos _).ne']

theorem roundPos_le {x : F} {e : ℤ} (hx : x ≤ 2 ^ e) (he : lastDigit p emin x ≤ e) : roundPos p emin x ≤ 2 ^ e := by
  obtain ⟨n, hn⟩ := two_zpow_nat (F := F) (e := e - lastDigit p emin x) (by omega)
  have h2 : (2 : F) ^ e = n * 2 ^ lastDigit p emin x := by rw [← hn, ← zpow_add₀ (by norm_num), sub_add_cancel]
  have h1 : x / 2 ^ lastDigit p emin x ≤ (n : F) := by
    rw [div_le_iff₀ (two_zpow_pos _), ← h2]; exact hx
  rw [roundPos, h2]
  exact mul_le_mul_of_nonneg_right (by exact_mod_cast nearestEven_le h1) (two_zpow_pos _).le

theorem le_roundPos {x : F} {e : ℤ} (hx : 2 ^ e ≤ x) (he : lastDigit p emin x ≤ e) : 2 ^ e ≤ roundPos p emin x := by
  obtain ⟨n, hn⟩ := two_zpow_nat (F := F) (e := e - lastDigit p emin x) (by omega)
  have h2 : (2 : F) ^ e = n * 2 ^ lastDigit p emin x := by rw [← hn, ← zpow_add₀ (by norm_num), sub_add_cancel]
  have h1 : (n : F) ≤ x / 2 ^ lastDigit p emin x := by
    rw [le_div_iff₀ (two_zpow_pos _), ← h2]; exact hx
  rw [roundPos, h2]
  exact mul_le_mul_of_nonneg_right (by exact_mod_cast le_nearestEven h1) (two_zpow_pos _).le

theorem roundPos_zero : roundPos p emin (0 : F) = 0 := by
  simp [roundPos, show nearestEven (0 : F) = 0 by exact_mod_cast nearestEven_int (F := F) 0]

theorem roundPos_nonneg {x : F} (hx : 0 ≤ x) : 0 ≤ roundPos p emin x := by
  refine mul_nonneg ?_ (two_zpow_pos _).le
  have : (0 : ℤ) ≤ nearestEven (x / 2 ^ lastDigit p emin x) := le_nearestEven (by simpa using div_nonneg hx (two_zpow_pos _).le)
  exact_mod_cast this

theorem roundPos_mono (hp : 1 ≤ p) {x y : F} (h0 : 0 ≤ x) (h : x ≤ y) : roundPos p emin x ≤ roundPos p emin y := by
  rcases h0.lt_or_eq with h0 | rfl
  · have hlog : Int.log 2 x ≤ Int.log 2 y := Int.log_mono_right h0 h
    have hy0 : 0 < y := h0.trans_le h
    rcases eq_or_ne (lastDigit p emin x) (lastDigit p emin y) with he | he
    · rw [roundPos, roundPos, he]
      refine mul_le_mul_of_nonneg_right ?_ (two_zpow_pos _).le
      exact_mod_cast nearestEven_mono (div_le_div_of_nonneg_right h (two_zpow_pos _).le)
    · have hly : Int.log 2 x < Int.log 2 y ∧ lastDigit p emin y ≤ Int.log 2 y ∧ lastDigit p emin x ≤ Int.log 2 y := by
        unfold lastDigit at he ⊢
        omega
      have hx1 : x ≤ (2 : F) ^ Int.log 2 y := by
        have h1 := Int.lt_zpow_succ_log_self (R := F) (b := 2) (by norm_num) x
        have h2 : (2 : F) ^ (Int.log 2 x + 1) ≤ 2 ^ Int.log 2 y := zpow_le_zpow_right₀ (by norm_num) (by omega)
        push_cast at h1
        linarith
      have hy1 : (2 : F) ^ Int.log 2 y ≤ y := by
        have h1 := Int.zpow_log_le_self (R := F) (b := 2) (by norm_num) hy0
        push_cast at h1
        exact h1
      exact (roundPos_le hx1 hly.2.2).trans (le_roundPos hy1 hly.2.1)
  · rw [roundPos_zero]
    exact roundPos_nonneg h

theorem roundPos_idem (hp : 1 ≤ p) {x : F} (hx : 0 ≤ x) : roundPos p emin (roundPos p emin x) = roundPos p emin x := by
  rcases (roundPos_nonneg (p := p) (emin := emin) hx).lt_or_eq with hz | hz
  · have hx0 : 0 < x := by
      rcases hx.lt_or_eq with h | rfl
      · exact h
      · rw [roundPos_zero] at hz; exact absurd hz (lt_irrefl _)
    -- the rounded number is at most the power of two above
    have hb : roundPos p emin x ≤ 2 ^ (lastDigit p emin x + p) := by
      refine roundPos_le ?_ (by omega)
      have h1 := Int.lt_zpow_succ_log_self (R := F) (b := 2) (by norm_num) x
      push_cast at h1
      refine h1.le.trans (zpow_le_zpow_right₀ (by norm_num) ?_)
      unfold lastDigit
      omega
    rcases hb.lt_or_eq with hlt | heq
    · refine roundPos_exact (e := lastDigit p emin x) (k := nearestEven (x / 2 ^ lastDigit p emin x)) rfl ?_
      have hlog : Int.log 2 (roundPos p emin x) < lastDigit p emin x + p := by
        have := (Int.lt_zpow_iff_log_lt (R := F) (b := 2) (by norm_num) (x := lastDigit p emin x + p) hz).1 (by push_cast; exact hlt)
        exact this
      have : emin ≤ lastDigit p emin x := le_max_right _ _
      conv_lhs => unfold lastDigit
      omega
    · refine roundPos_exact (e := lastDigit p emin x + p) (k := 1) (by rw [← heq]; simp) ?_
      have hlog : Int.log 2 (roundPos p emin x) = lastDigit p emin x + p := by
        rw [heq]
        have := Int.log_zpow (R := F) (b := 2) (by norm_num) (lastDigit p emin x + p)
        push_cast at this
        exact this
      have : emin ≤ lastDigit p emin x := le_max_right _ _
      conv_lhs => unfold lastDigit
      omega
  · rw [← hz, roundPos_zero]

theorem roundTo_pos {x : F} (hx : 0 ≤ x) : roundTo p emin x = roundPos p emin x := if_neg (not_lt.2 hx)

theorem roundTo_neg {x : F} (hx : x < 0) : roundTo p emin x = -roundPos p emin (-x) := if_pos hx

theorem roundTo_mono (hp : 1 ≤ p) : Monotone (roundTo p emin : F → F) := by
  intro x y h
  rcases lt_or_ge x 0 with hx | hx
  · rw [roundTo_neg hx]
    rcases lt_or_ge y 0 with hy | hy
    · rw [roundTo_neg hy]
      have := roundPos_mono (emin := emin) hp (x := -y) (y := -x) (by linarith) (by linarith)
      linarith
    · rw [roundTo_pos hy]
      have h1 := roundPos_nonneg (p := p) (emin := emin) (x := -x) (by linarith)
      have h2 := roundPos_nonneg (p := p) (emin := emin) hy
      linarith
  · rw [roundTo_pos hx, roundTo_pos (hx.trans h)]
    exact roundPos_mono hp hx h

theorem roundTo_idem (hp : 1 ≤ p) (x : F) : roundTo p emin (roundTo p emin x) = roundTo p emin x := by
  rcases lt_or_ge x 0 with hx | hx
  · rw [roundTo_neg hx]
    have h1 := roundPos_nonneg (p := p) (emin := emin) (x := -x) (by linarith)
    have h2 := roundPos_idem (emin := emin) hp (x := -x) (by linarith)
    rcases h1.lt_or_eq with h | h
    · rw [roundTo_neg (by linarith), neg_neg, h2]
    · rw [← h, neg_zero, roundTo_pos (le_refl _), roundPos_zero]
  · rw [roundTo_pos hx, roundTo_pos (roundPos_nonneg hx), roundPos_idem hp hx]

theorem roundPos_err (hp : 1 ≤ p) {x y : F} (hx : 0 ≤ x) (hy : 0 ≤ y) (ex : roundPos p emin x = x) (ey : roundPos p emin y = y) :
    |roundPos p emin (x + y) - (x + y)| ≤ 2 ^ (-(p : ℤ)) * (x + y) := by
  rcases eq_or_ne (x + y) 0 with h0 | h0
  · rw [h0, roundPos_zero]; simp
  have hs : 0 < x + y := lt_of_le_of_ne (add_nonneg hx hy) h0.symm
  by_cases hl : Int.log 2 (x + y) - (p - 1) < emin
  · -- below the smallest normal number sums are exact
    have mult : ∀ z : F, roundPos p emin z = z → ∃ k : ℤ, z = k * 2 ^ emin := by
      intro z hz
      have he : emin ≤ lastDigit p emin z := le_max_right _ _
      obtain ⟨n, hn⟩ := two_zpow_nat (F := F) (e := lastDigit p emin z - emin) (by omega)
      refine ⟨nearestEven (z / 2 ^ lastDigit p emin z) * n, ?_⟩
      push_cast
      rw [← hn, mul_assoc, ← zpow_add₀ (by norm_num), sub_add_cancel]
      exact hz.symm
    obtain ⟨k, hk⟩ := mult x ex
    obtain ⟨l, hl'⟩ := mult y ey
    have : roundPos p emin (x + y) = x + y := by
      refine roundPos_exact (e := emin) (k := k + l) (by push_cast; rw [add_mul, ← hk, ← hl']) ?_
      unfold lastDigit
      omega
    rw [this, sub_self, abs_zero]
    exact mul_nonneg (two_zpow_pos _).le hs.le
  · have he : lastDigit p emin (x + y) = Int.log 2 (x + y) - (p - 1) := by unfold lastDigit; omega
    have h1 : (2 : F) ^ Int.log 2 (x + y) ≤ x + y := by
      have h1 := Int.zpow_log_le_self (R := F) (b := 2) (by norm_num) hs
      push_cast at h1
      exact h1
    have hd : roundPos p emin (x + y) - (x + y) =
        (nearestEven ((x + y) / 2 ^ lastDigit p emin (x + y)) - (x + y) / 2 ^ lastDigit p emin (x + y)) * 2 ^ lastDigit p emin (x + y) := by
      rw [sub_mul, div_mul_cancel₀ _ (two_zpow_pos _).ne']
      rfl
    rw [hd, abs_mul, abs_of_pos (two_zpow_pos (F := F) _)]
    calc _ ≤ 1 / 2 * (2 : F) ^ lastDigit p emin (x + y) :=
          mul_le_mul_of_nonneg_right (nearestEven_err _) (two_zpow_pos _).le
      _ = 2 ^ (-(p : ℤ)) * 2 ^ Int.log 2 (x + y) := by
          rw [he, ← zpow_add₀ (by norm_num), show Int.log 2 (x + y) - ((p : ℤ) - 1) = (-(p : ℤ) + Int.log 2 (x + y)) + 1 by ring,
            zpow_add_one₀ (by norm_num)]
          ring
      _ ≤ _ := mul_le_mul_of_nonneg_left h1 (two_zpow_pos _).le

end

/-- The nearest integer is the nearest integer. -/
theorem nearestEven_nearest (x : F) (n : ℤ) : |(nearestEven x : F) - x| ≤ |(n : F) - x| := by
  have h1 := nearestEven_err x
  rcases eq_or_ne n (nearestEven x) with rfl | hne
  · exact le_refl _
  · have h2 : (1 : F) ≤ |(n : F) - nearestEven x| := by
      have : (1 : ℤ) ≤ |n - nearestEven x| := Int.one_le_abs (sub_ne_zero.2 hne)
      exact_mod_cast this
    have h3 : |(n : F) - nearestEven x| ≤ |(n : F) - x| + |(nearestEven x : F) - x| := by
      have h4 := abs_sub_le (n : F) x (nearestEven x : F)
      rw [abs_sub_comm x] at h4
      exact h4
    linarith

theorem roundPos_nearest_multiple (p : Nat) (emin : ℤ) (x : F) {e k : ℤ} (he : lastDigit p emin x ≤ e) :
    |roundPos p emin x - x| ≤ |(k : F) * 2 ^ e - x| := by
  obtain ⟨n, hn⟩ := two_zpow_nat (F := F) (e := e - lastDigit p emin x) (by omega)
  have hk : (k : F) * 2 ^ e = ((k * n : ℤ) : F) * 2 ^ lastDigit p emin x := by
    push_cast
    rw [← hn, mul_assoc, ← zpow_add₀ (by norm_num), sub_add_cancel]
  have hx : x / 2 ^ lastDigit p emin x * 2 ^ lastDigit p emin x = x := div_mul_cancel₀ _ (two_zpow_pos _).ne'
  have e1 : roundPos p emin x - x = (nearestEven (x / 2 ^ lastDigit p emin x) - x / 2 ^ lastDigit p emin x) * 2 ^ lastDigit p emin x := by
    rw [sub_mul, hx]; rfl
  have e2 : (k : F) * 2 ^ e - x = (((k * n : ℤ) : F) - x / 2 ^ lastDigit p emin x) * 2 ^ lastDigit p emin x := by
    rw [sub_mul, hx, hk]
  rw [e1, e2, abs_mul, abs_mul]
  exact mul_le_mul_of_nonneg_right (nearestEven_nearest _ _) (abs_nonneg _)

theorem roundPos_nearest {p : Nat} {emin : ℤ} (hp : 1 ≤ p) {x y : F} (hx : 0 ≤ x) (ey : roundPos p emin y = y) :
    |roundPos p emin x - x| ≤ |y - x| := by
  rcases hx.lt_or_eq with hx0 | rfl
  · by_cases he : lastDigit p emin x ≤ lastDigit p emin y
    · have h := roundPos_nearest_multiple p emin x (k := nearestEven (y / 2 ^ lastDigit p emin y)) he
      have e : (nearestEven (y / 2 ^ lastDigit p emin y) : F) * 2 ^ lastDigit p emin y = y := ey
      rwa [e] at h
    · -- the other number is smaller than the power of two below
      have hl : Int.log 2 y < Int.log 2 x ∧ lastDigit p emin x ≤ Int.log 2 x := by
        unfold lastDigit at he ⊢; omega
      have h1 := Int.lt_zpow_succ_log_self (R := F) (b := 2) (by norm_num) y
      have h2 : (2 : F) ^ (Int.log 2 y + 1) ≤ 2 ^ Int.log 2 x := zpow_le_zpow_right₀ (by norm_num) (by omega)
      have h3 := Int.zpow_log_le_self (R := F) (b := 2) (by norm_num) hx0
      push_cast at h1 h3
      have h4 := roundPos_nearest_multiple p emin x (k := 1) hl.2
      rw [Int.cast_one, one_mul, abs_of_nonpos (by linarith : (2 : F) ^ Int.log 2 x - x ≤ 0)] at h4
      rw [abs_of_nonpos (by linarith : y - x ≤ 0)]
      linarith
  · rw [roundPos_zero]; simp

/-- **C95.** Rounding gives the nearest number of the format. -/
theorem roundTo_nearest {p : Nat} {emin : ℤ} (hp : 1 ≤ p) (x y : F) (hy : roundTo p emin y = y) : |roundTo p emin x - x| ≤ |y - x| := by
  have pos : ∀ x y : F, 0 ≤ x → roundTo p emin y = y → |roundPos p emin x - x| ≤ |y - x| := by
    intro x y hx hy
    rcases lt_or_ge y 0 with h | h
    · have h0 := roundPos_nearest (emin := emin) hp hx (roundPos_zero (F := F))
      rw [zero_sub, abs_neg, abs_of_nonneg hx] at h0
      rw [abs_of_neg (by linarith : y - x < 0)]
      linarith
    · rw [roundTo_pos h] at hy
      exact roundPos_nearest hp hx hy
  rcases lt_or_ge x 0 with hx | hx
  · have hy' : roundTo p emin (-y) = -y := by
      rcases lt_or_ge y 0 with h | h
      · rw [roundTo_neg h] at hy
        rw [roundTo_pos (by linarith)]
        linarith
      · rcases h.lt_or_eq with h | rfl
        · rw [roundTo_pos h.le] at hy
          rw [roundTo_neg (by linarith), neg_neg, hy]
        · rw [neg_zero]; exact hy
    have := pos (-x) (-y) (by linarith) hy'
    rw [roundTo_neg hx]
    rw [show -roundPos p emin (-x) - x = -(roundPos p emin (-x) - -x) by ring, abs_neg, show y - x = -(-y - -x) by ring, abs_neg]
    exact this
  · rw [roundTo_pos hx]
    exact pos x y hx hy

/-- Rounding to nearest (ties to even) with `p` binary digits and smallest exponent `emin` is monotone, keeps the numbers of the format, and adds numbers
that are not negative with relative error at most 2⁻ᵖ, also with gradual underflow; IEEE 754 for costs (internal/Graph.h 37). -/
def floating (p : Nat) (hp : 1 ≤ p) (emin : ℤ) : Rounding F where
  rnd := roundTo p emin
  u := 2 ^ (-(p : ℤ))
  mono := roundTo_mono hp
  idem := roundTo_idem hp
  zero := by rw [roundTo_pos (le_refl _), roundPos_zero]
  u_nonneg := (two_zpow_pos _).le
  u_lt := by
    have : (2 : F) ^ (-(p : ℤ)) < 2 ^ (0 : ℤ) := zpow_lt_zpow_right₀ (by norm_num) (by omega)
    simpa using this
  err x y hx hy h0 h1 := by
    rw [roundTo_pos h0] at hx
    rw [roundTo_pos h1] at hy
    rw [roundTo_pos (add_nonneg h0 h1)]
    exact roundPos_err hp h0 h1 hx hy

/-- The doubles: 53 digits, the smallest number is 2⁻¹⁰⁷⁴; `double` in internal/Graph.h 37 -/
def double64 : Rounding ℚ := floating 53 (by norm_num) (-1074)

-- 0.1 is rounded, and 0.1 + 0.2 of the program is not 0.3
example : double64.rnd (1 / 10) = 3602879701896397 / 36028797018963968 := by decide +kernel
example : double64.rnd (double64.rnd (1 / 10) + double64.rnd (2 / 10)) ≠ double64.rnd (3 / 10) := by decide +kernel
-- sums below the smallest normal number are exact, ties are rounded to even
example : double64.rnd (2 ^ (-1074 : ℤ) + 2 ^ (-1074 : ℤ)) = 2 ^ (-1073 : ℤ) := by decide +kernel
example : double64.rnd (1 + 2 ^ (-53 : ℤ)) = 1 ∧ double64.rnd (1 + 3 * 2 ^ (-53 : ℤ)) = 1 + 2 ^ (-51 : ℤ) := by decide +kernel

/-- The factor of C95 can not be left out: of two ways with the same ends the search prefers the one that is longer in exact arithmetic. The first has
the steps 1, 2⁻⁵³, 2⁻⁵³, 2⁻⁵³, the second a single one. -/
theorem exact_order_counterexample :
    let w : ℚ := 2 ^ (-53 : ℤ)
    let second : ℚ := 1 + 2 ^ (-52 : ℤ)
    double64.rnd w = w ∧ double64.rnd second = second ∧
      double64.rnd (double64.rnd (double64.rnd (1 + w) + w) + w) < second ∧ second < 1 + w + w + w := by
  decide +kernel

/-- Example: the map of `Verif.Build` with costs in doubles: 0.1 for every step, an infinite cost for the second module -/
def exDouble : Input Nat (RD double64) where
  w := exWorld
  ptId n := n
  llId n := n
  lanelets := [⟨0, false⟩, ⟨1, false⟩, ⟨2, false⟩, ⟨3, false⟩]
  areas := [0]
  rules := ⟨fun l => !l.inv || l.data == 2, fun _ => true, fun _ _ => true, fun l a => l.data == 2 && a == 0,
    fun _ _ => false, fun _ _ => false, fun a b => a.data == 0 && b.data == 1⟩
  costs := [⟨fun _ _ => .fin (double64.rnd (1 / 10)) (double64.idem _), fun _ _ => .fin (double64.rnd 2) (double64.idem _)⟩, ⟨fun _ _ => .inf, fun _ _ => .inf⟩]
  tests := rdTests
  one := .fin (double64.rnd 1) (double64.idem _)
  boxLL _ _ := true
  boxAL _ _ := true
  boxAA _ _ := true
  overlapsLL a b := (a.data == 1 && b.data == 3) || (a.data == 3 && b.data == 1)
  overlapsAL _ a := a.data == 3
  overlapsAA _ _ := false
  orderRange l := l.reverse
  orderSearch l := l.reverse
  orderSearchA l := l
  shuffle l := l.reverse

theorem exDouble_ok : InputOk exDouble ∧ CostsOk exDouble := by
  refine ⟨⟨by decide, by decide, by decide, by decide, fun l => List.reverse_perm l, fun l => List.reverse_perm l,
    fun l => List.Perm.refl l, fun l => List.reverse_perm l⟩, rfl, by decide +kernel, ?_, ?_⟩
  · intro c hc a b
    have : (decide (double64.rnd (1 / 10) < 0)) = false := by decide +kernel
    simp only [exDouble, List.mem_cons, List.not_mem_nil, or_false] at hc
    rcases hc with rfl | rfl
    · exact this
    · rfl
  · intro c hc a b
    have : (decide (double64.rnd 2 < 0)) = false := by decide +kernel
    simp only [exDouble, List.mem_cons, List.not_mem_nil, or_false] at hc
    rcases hc with rfl | rfl
    · exact this
    · rfl

/-- Example: a queue that returns the first minimal element -/
def leastFirst (_ : Nat) (cost : Nat → RD double64) (q : List Nat) : Nat :=
  q.foldl (fun a b => if Cost.le (cost a) (cost b) then a else b) (q.headD 0)

theorem leastFirst_min : PickMin leastFirst := by
  intro i cost q hq
  have key : ∀ (l : List Nat) (a : Nat), let r := l.foldl (fun a b => if Cost.le (cost a) (cost b) then a else b) a
      (r = a ∨ r ∈ l) ∧ Cost.le (cost r) (cost a) ∧ ∀ u ∈ l, Cost.le (cost r) (cost u) := by
    intro l
    induction l with
    | nil => intro a; exact ⟨.inl rfl, Cost.le_refl _, by simp⟩
    | cons b l ih =>
      intro a
      obtain ⟨h1, h2, h3⟩ := ih (if Cost.le (cost a) (cost b) then a else b)
      simp only [List.foldl_cons]
      by_cases h : Cost.le (cost a) (cost b)
      · rw [if_pos h] at h1 h2 h3 ⊢
        refine ⟨h1.imp id (List.mem_cons_of_mem _), h2, fun u hu => ?_⟩
        rcases List.mem_cons.1 hu with rfl | hu
        · exact Cost.le_trans h2 h
        · exact h3 u hu
      · rw [if_neg h] at h1 h2 h3 ⊢
        have hba : Cost.le (cost b) (cost a) := (Cost.le_total (cost a) (cost b)).resolve_left h
        refine ⟨.inr (h1.elim (fun e => by rw [e]; exact List.mem_cons_self ..) (List.mem_cons_of_mem _)), Cost.le_trans h2 hba, fun u hu => ?_⟩
        rcases List.mem_cons.1 hu with rfl | hu
        · exact h2
        · exact h3 u hu
  cases q with
  | nil => exact absurd rfl hq
  | cons a q =>
    obtain ⟨h1, h2, h3⟩ := key (a :: q) a
    exact ⟨h1.elim (fun e => by show List.foldl _ _ _ ∈ _; rw [List.headD_cons, e]; exact List.mem_cons_self ..) id, h3⟩

/-- Case: in this map lanelet 2 is found from lanelet 0, and the cost of the path is that of the only step. -/
example : ∃ g, build exDouble = some g ∧ ∃ ps x, g.shortestPath leastFirst (.inl ⟨0, false⟩) (.inl ⟨2, false⟩) 0 false false = .ok (some (some ps)) ∧
    ExactPath (Move exDouble (exDouble.costs.headD ⟨fun _ _ => .inf, fun _ _ => .inf⟩) false) ps x ∧
    (1 - double64.u) ^ (ps.length - 2) * x ≤ double64.rnd (1 / 10) := by
  obtain ⟨g, hg, -⟩ := build_vertices exDouble exDouble_ok.1 exDouble_ok.2
  have hp : ExactPath (Move exDouble (exDouble.costs.headD ⟨fun _ _ => .inf, fun _ _ => .inf⟩) false) ([.inl ⟨0, false⟩] ++ [.inl ⟨2, false⟩])
      (0 + double64.rnd (1 / 10)) :=
    .snoc (.single _) rfl ⟨double64.idem _, .ahead ⟨0, false⟩ ⟨2, false⟩ (by decide) (by decide) (by decide) (by decide) rfl⟩
  rcases shortestPath_rounded exDouble exDouble_ok.1 exDouble_ok.2 rfl g hg leastFirst_min 0 _ rfl false (fun h => by cases h)
    (.inl ⟨0, false⟩) (.inl ⟨2, false⟩) (by show InGraph _ _; decide) (by show InGraph _ _; decide) with ⟨-, h⟩ | ⟨ps, x, h1, h2, -, -, h5⟩
  · exact absurd rfl (h _ _ hp rfl)
  · have := h5 _ _ hp rfl rfl
    simp only [List.length_append, List.length_cons, List.length_nil, Nat.sub_self, pow_zero, one_mul, zero_add] at this
    exact ⟨g, hg, ps, x, h1, h2, this⟩

end Verif.Plan
