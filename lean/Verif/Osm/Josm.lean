import Mathlib.Algebra.Order.Ring.Rat
import Mathlib.Data.Nat.Digits.Lemmas
import Mathlib.Tactic.Linarith
import Mathlib.Tactic.Ring
import Mathlib.Tactic.FieldSimp
import Mathlib.Tactic.Positivity

/-!
C38: numbers in OSM files. Model of toJosmStyle, lanelet2_io/src/OsmFile.cpp 59-64.

A finite double is a sign and an exact magnitude (the sign matters for -0.0 and for values that are rounded to zero).
Not modelled: infinities and NaN (`boost::format` writes "inf" and "nan", which the code leaves unchanged), locales.
-/
namespace Verif.Osm.Josm

/-! ### model -/

/-- the character of a decimal digit; Specification. -/
def digitChar (d : Nat) : Char := Char.ofNat (48 + d)

/-- the digits of a number, most significant first, at least one; Specification. -/
def natDigits (m : Nat) : List Nat := if m = 0 then [0] else (Nat.digits 10 m).reverse

/-- the last `n` digits of a number; Specification. -/
def lastDigits : Nat → Nat → List Nat
  | 0, _ => []
  | n + 1, m => lastDigits n (m / 10) ++ [m % 10]

/-- `boost::format("%.<n>f")`: `round` rounds a magnitude to an integer; OsmFile.cpp 59-64 -/
def fixed (round : Rat → Nat) (n : Nat) (neg : Bool) (a : Rat) : List Char :=
  let m := round (a * 10 ^ n)
  (if neg then ['-'] else []) ++ (natDigits (m / 10 ^ n)).map digitChar ++ '.' :: (lastDigits n m).map digitChar

/-- `str.erase(str.find_last_not_of(c) + 1, npos)`; everything is erased if there are no other characters -/
def eraseLast (c : Char) (s : List Char) : List Char := (s.reverse.dropWhile (· = c)).reverse

/-- toJosmStyle, OsmFile.cpp 59-64: `n` is 2 if josm_format_elevation is set, otherwise 11 -/
def toJosmStyle (round : Rat → Nat) (n : Nat) (neg : Bool) (a : Rat) : List Char :=
  eraseLast '.' (eraseLast '0' (fixed round n neg a))

/-! ### specification -/

/-- the value of a list of digits; Specification. -/
def value (ds : List Nat) : Nat := ds.foldl (fun v d => 10 * v + d) 0

/-- `s` is a decimal number: an optional sign, digits, and optionally a point and more digits. `q` is its value. Specification. -/
structure Denotes (s : List Char) (neg : Bool) (int frac : List Nat) (q : Rat) : Prop where
  int_ne : int ≠ []
  digits : ∀ d ∈ int ++ frac, d < 10
  text : s = (if neg then ['-'] else []) ++ int.map digitChar ++ (if frac = [] then [] else '.' :: frac.map digitChar)
  value : q = (if neg then -1 else 1) * (value int + value frac / 10 ^ frac.length : Rat)

/-- rounding to the nearest integer, ties in any way; Specification. -/
def Nearest (round : Rat → Nat) : Prop := ∀ a : Rat, 0 ≤ a → |(round a : Rat) - a| ≤ 1 / 2

/-! ### proofs -/

theorem digitChar_inj : ∀ d e : Fin 10, digitChar d = digitChar e → d = e := by decide

theorem digitChar_zero {d : Nat} (h : d < 10) : digitChar d = '0' ↔ d = 0 := by
  have := digitChar_inj ⟨d, h⟩ 0
  constructor
  · intro e; exact congrArg Fin.val (this e)
  · rintro rfl; rfl

theorem digitChar_dot : ∀ d : Fin 10, digitChar d ≠ '.' := by decide

theorem value_append (a b : List Nat) : value (a ++ b) = value a * 10 ^ b.length + value b := by
  have key : ∀ (b : List Nat) (v : Nat), b.foldl (fun v d => 10 * v + d) v = v * 10 ^ b.length + b.foldl (fun v d => 10 * v + d) 0 := by
    intro b
    induction b with
    | nil => intro v; simp
    | cons d b ih =>
      intro v
      rw [List.foldl_cons, ih, List.foldl_cons, ih (10 * 0 + d), List.length_cons, pow_succ]
      ring
  unfold value
  rw [List.foldl_append, key]

theorem value_singleton (d : Nat) : value [d] = d := by simp [value]

theorem lastDigits_length (n : Nat) : ∀ m, (lastDigits n m).length = n := by
  induction n with
  | zero => intro m; rfl
  | succ n ih => intro m; simp [lastDigits, ih]

theorem lastDigits_lt (n : Nat) : ∀ m, ∀ d ∈ lastDigits n m, d < 10 := by
  induction n with
  | zero => intro m d h; cases h
  | succ n ih =>
    intro m d h
    rcases List.mem_append.mp h with h | h
    · exact ih _ d h
    · rw [List.mem_singleton.mp h]; exact Nat.mod_lt _ (by decide)

theorem lastDigits_value (n : Nat) : ∀ m, value (lastDigits n m) = m % 10 ^ n := by
  induction n with
  | zero => intro m; simp [lastDigits, value, Nat.mod_one]
  | succ n ih =>
    intro m
    rw [lastDigits, value_append, ih, value_singleton, List.length_singleton, pow_one, pow_succ', Nat.mod_mul]
    ring

theorem natDigits_ne (m : Nat) : natDigits m ≠ [] := by
  unfold natDigits
  split
  · simp
  · simp only [ne_eq, List.reverse_eq_nil_iff, Nat.digits_eq_nil_iff_eq_zero]; assumption

theorem natDigits_lt (m : Nat) : ∀ d ∈ natDigits m, d < 10 := by
  unfold natDigits
  split
  · simp
  · intro d hd
    exact Nat.digits_lt_base (by decide) (List.mem_reverse.mp hd)

theorem value_reverse_digits (l : List Nat) : value l.reverse = Nat.ofDigits 10 l := by
  induction l with
  | nil => rfl
  | cons d l ih =>
    rw [List.reverse_cons, value_append, ih, value_singleton, Nat.ofDigits_cons]
    simp only [List.length_singleton, pow_one]
    ring

theorem natDigits_value (m : Nat) : value (natDigits m) = m := by
  unfold natDigits
  split
  · rename_i h; subst h; rfl
  · rw [value_reverse_digits, Nat.ofDigits_digits]

theorem eraseLast_append (c : Char) (s : List Char) (k : Nat) (h : ∀ x, s.getLast? = some x → x ≠ c) :
    eraseLast c (s ++ List.replicate k c) = s := by
  unfold eraseLast
  rw [List.reverse_append, List.reverse_replicate]
  have : (List.replicate k c ++ s.reverse).dropWhile (· = c) = s.reverse := by
    induction k with
    | zero =>
      simp only [List.replicate_zero, List.nil_append]
      cases hs : s.reverse with
      | nil => rfl
      | cons x xs =>
        have hx : s.getLast? = some x := by
          have := congrArg List.reverse hs
          rw [List.reverse_reverse] at this
          rw [this]; simp
        rw [List.dropWhile_cons_of_neg (by simpa using h x hx)]
    | succ k ih => rw [List.replicate_succ, List.cons_append, List.dropWhile_cons_of_pos (by simp), ih]
  rw [this, List.reverse_reverse]

/-- digits without the zeros at the end -/
theorem split_zeros (l : List Nat) : ∃ l' k, l = l' ++ List.replicate k 0 ∧ ∀ d, l'.getLast? = some d → d ≠ 0 := by
  induction l using List.reverseRecOn with
  | nil => exact ⟨[], 0, rfl, by simp⟩
  | append_singleton l d ih =>
    by_cases hd : d = 0
    · subst hd
      obtain ⟨l', k, h1, h2⟩ := ih
      refine ⟨l', k + 1, ?_, h2⟩
      rw [h1, List.replicate_succ', List.append_assoc]
    · exact ⟨l ++ [d], 0, by simp, by intro e he; simp at he; omega⟩

theorem value_zeros (l : List Nat) (k : Nat) : value (l ++ List.replicate k 0) = value l * 10 ^ k := by
  rw [value_append, List.length_replicate]
  have : value (List.replicate k 0) = 0 := by
    induction k with
    | zero => rfl
    | succ k ih => rw [List.replicate_succ', value_append, ih]; simp [value]
  rw [this, Nat.add_zero]

/-- C38: what is written for a coordinate is a decimal number with the value of the coordinate, rounded to `n` decimals.
It is never empty, has a digit before the point, no zeros at the end of the decimals and no point without decimals. -/
theorem josm_value (round : Rat → Nat) (n : Nat) (neg : Bool) (a : Rat) :
    ∃ int frac, Denotes (toJosmStyle round n neg a) neg int frac ((if neg then -1 else 1) * (round (a * 10 ^ n) / 10 ^ n : Rat)) ∧
      frac.length ≤ n ∧ ∀ d, frac.getLast? = some d → d ≠ 0 := by
  obtain ⟨m, hm⟩ : ∃ m, round (a * 10 ^ n) = m := ⟨_, rfl⟩
  obtain ⟨frac, k, h1, h2⟩ := split_zeros (lastDigits n m)
  have hlen : frac.length + k = n := by
    have := congrArg List.length h1
    rw [lastDigits_length, List.length_append, List.length_replicate] at this
    exact this.symm
  have hfd : ∀ d ∈ frac, d < 10 := fun d hd => lastDigits_lt n m d (by rw [h1]; exact List.mem_append_left _ hd)
  refine ⟨natDigits (m / 10 ^ n), frac, ⟨natDigits_ne _, ?_, ?_, ?_⟩, by omega, h2⟩
  · intro d hd
    rcases List.mem_append.mp hd with hd | hd
    · exact natDigits_lt _ d hd
    · exact hfd d hd
  · have e0 : fixed round n neg a = ((if neg then ['-'] else []) ++ (natDigits (m / 10 ^ n)).map digitChar ++
        '.' :: frac.map digitChar) ++ List.replicate k '0' := by
      unfold fixed
      simp only [hm]
      rw [h1, List.map_append, List.map_replicate]
      simp [digitChar]
    have e1 : eraseLast '0' (fixed round n neg a) = (if neg then ['-'] else []) ++ (natDigits (m / 10 ^ n)).map digitChar ++
        '.' :: frac.map digitChar := by
      rw [e0]
      apply eraseLast_append
      intro x hx
      rw [List.getLast?_append, List.getLast?_cons] at hx
      cases hf : frac.getLast? with
      | none =>
        rw [List.getLast?_map, hf] at hx
        simp at hx
        rw [← hx]; decide
      | some d =>
        rw [List.getLast?_map, hf] at hx
        simp at hx
        have hd := h2 d hf
        have hl := hfd d (List.mem_of_getLast? hf)
        rw [← hx]
        exact fun e => hd ((digitChar_zero hl).mp e)
    unfold toJosmStyle
    rw [e1]
    by_cases hf : frac = []
    · subst hf
      simp only [List.map_nil, if_true, List.append_nil]
      have := eraseLast_append '.' ((if neg then ['-'] else []) ++ (natDigits (m / 10 ^ n)).map digitChar) 1 (by
        intro x hx
        have hne : (natDigits (m / 10 ^ n)).map digitChar ≠ [] := by simp [natDigits_ne]
        rw [List.getLast?_append_of_ne_nil _ hne, List.getLast?_map] at hx
        obtain ⟨d, hd, rfl⟩ := Option.map_eq_some_iff.mp hx
        exact digitChar_dot ⟨d, natDigits_lt _ d (List.mem_of_getLast? hd)⟩)
      exact this
    · rw [if_neg hf]
      have := eraseLast_append '.' ((if neg then ['-'] else []) ++ (natDigits (m / 10 ^ n)).map digitChar ++
        '.' :: frac.map digitChar) 0 (by
        intro x hx
        rw [List.getLast?_append, List.getLast?_cons] at hx
        obtain ⟨d, hd⟩ : ∃ d, frac.getLast? = some d := by
          cases hg : frac.getLast? with
          | none => exact absurd (List.getLast?_eq_none_iff.mp hg) hf
          | some d => exact ⟨d, rfl⟩
        rw [List.getLast?_map, hd] at hx
        simp at hx
        rw [← hx]
        exact digitChar_dot ⟨d, hfd d (List.mem_of_getLast? hd)⟩)
      rw [List.replicate_zero, List.append_nil] at this
      exact this
  · congr 1
    rw [hm, natDigits_value]
    have hv : value frac * 10 ^ k = m % 10 ^ n := by rw [← value_zeros, ← h1, lastDigits_value]
    have hv' : (value frac : Rat) * 10 ^ k = (m % 10 ^ n : Nat) := by rw [← hv]; push_cast; ring
    have hdm : ((m / 10 ^ n : Nat) : Rat) * 10 ^ n + (m % 10 ^ n : Nat) = m := by
      have := Nat.div_add_mod' m (10 ^ n)
      exact_mod_cast this
    have hp : (10 : Rat) ^ n = 10 ^ frac.length * 10 ^ k := by rw [← pow_add, hlen]
    have h10 : (10 : Rat) ^ frac.length ≠ 0 := by positivity
    have h10k : (10 : Rat) ^ k ≠ 0 := by positivity
    have h10n : (10 : Rat) ^ n ≠ 0 := by positivity
    rw [← hdm, ← hv', add_div, mul_div_assoc, div_self h10n, mul_one, hp, mul_div_mul_right _ _ h10k]

/-- C38: the number that is written differs from the coordinate by at most half of the last decimal: 5e-12 degrees, or half a
centimetre for heights with josm_format_elevation. -/
theorem josm_close {round : Rat → Nat} (hr : Nearest round) (n : Nat) (neg : Bool) {a : Rat} (ha : 0 ≤ a) :
    ∃ int frac q, Denotes (toJosmStyle round n neg a) neg int frac q ∧
      |q - (if neg then -a else a)| ≤ 1 / 2 / 10 ^ n := by
  obtain ⟨int, frac, h, -⟩ := josm_value round n neg a
  refine ⟨int, frac, _, h, ?_⟩
  have h10 : (0 : Rat) < 10 ^ n := by positivity
  have h1 := hr (a * 10 ^ n) (by positivity)
  have e : (if neg then (-1 : Rat) else 1) * (round (a * 10 ^ n) / 10 ^ n : Rat) - (if neg then -a else a) =
      (if neg then -1 else 1) * ((round (a * 10 ^ n) - a * 10 ^ n) / 10 ^ n) := by
    generalize round (a * 10 ^ n) = r
    cases neg <;> simp only [if_true, if_false, Bool.false_eq_true] <;> field_simp
    ring
  rw [e, abs_mul]
  have : |(if neg then (-1 : Rat) else 1)| = 1 := by cases neg <;> simp
  rw [this, one_mul, abs_div, abs_of_pos h10]
  exact div_le_div_of_nonneg_right h1 h10.le

/-- a text denotes at most one number -/
theorem denotes_unique {s : List Char} {neg neg' : Bool} {int int' frac frac' : List Nat} {q q' : Rat}
    (h : Denotes s neg int frac q) (h' : Denotes s neg' int' frac' q') : q = q' := by
  have inj : ∀ l l' : List Nat, (∀ d ∈ l, d < 10) → (∀ d ∈ l', d < 10) → l.map digitChar = l'.map digitChar → l = l' := by
    intro l
    induction l with
    | nil => intro l' _ _ e; cases l' with
      | nil => rfl
      | cons => cases e
    | cons d l ih =>
      intro l' h1 h2 e
      cases l' with
      | nil => cases e
      | cons d' l' =>
        simp only [List.map_cons, List.cons.injEq] at e
        have := digitChar_inj ⟨d, h1 d (by simp)⟩ ⟨d', h2 d' (by simp)⟩ e.1
        rw [ih l' (fun x hx => h1 x (by simp [hx])) (fun x hx => h2 x (by simp [hx])) e.2,
          show d = d' from congrArg Fin.val this]
  have head : ∀ {int : List Nat} {rest : List Char}, int ≠ [] → (∀ d ∈ int, d < 10) →
      (int.map digitChar ++ rest).head? ≠ some '-' := by
    intro int rest hne hlt
    cases int with
    | nil => exact absurd rfl hne
    | cons d int =>
      have : ∀ d : Fin 10, digitChar d ≠ '-' := by decide
      simpa using this ⟨d, hlt d (by simp)⟩
  have part : ∀ {int : List Nat}, (∀ d ∈ int, d < 10) → ∀ frac : List Nat,
      (int.map digitChar ++ (if frac = [] then [] else '.' :: frac.map digitChar)).takeWhile (· ≠ '.') = int.map digitChar := by
    intro int hlt frac
    rw [List.takeWhile_append_of_pos]
    · by_cases hf : frac = [] <;> simp [hf]
    · intro c hc
      obtain ⟨d, hd, rfl⟩ := List.mem_map.mp hc
      simpa using digitChar_dot ⟨d, hlt d hd⟩
  have d1 : ∀ d ∈ int, d < 10 := fun d hd => h.digits d (List.mem_append_left _ hd)
  have d2 : ∀ d ∈ frac, d < 10 := fun d hd => h.digits d (List.mem_append_right _ hd)
  have d1' : ∀ d ∈ int', d < 10 := fun d hd => h'.digits d (List.mem_append_left _ hd)
  have d2' : ∀ d ∈ frac', d < 10 := fun d hd => h'.digits d (List.mem_append_right _ hd)
  have e := h.text.symm.trans h'.text
  have hneg : neg = neg' := by
    cases neg <;> cases neg' <;> simp only [if_true, if_false, Bool.false_eq_true, List.nil_append, List.append_assoc] at e ⊢
    · exact absurd (congrArg List.head? e) (by simpa using head h.int_ne d1)
    · exact absurd (congrArg List.head? e.symm) (by simpa using head h'.int_ne d1')
  subst hneg
  rw [List.append_assoc, List.append_assoc] at e
  have e := List.append_cancel_left e
  have hi := congrArg (List.takeWhile (· ≠ '.')) e
  rw [part d1, part d1'] at hi
  rw [hi] at e
  have e := List.append_cancel_left e
  have hf : frac = frac' := by
    by_cases h1 : frac = [] <;> by_cases h2 : frac' = []
    · rw [h1, h2]
    · rw [if_pos h1, if_neg h2] at e; cases e
    · rw [if_neg h1, if_pos h2] at e; cases e
    · rw [if_neg h1, if_neg h2] at e
      exact inj _ _ d2 d2' (List.cons.inj e).2
  rw [h.value, h'.value, inj _ _ d1 d1' hi, hf]

/-! ### examples -/

/-- rounding half up; Example. -/
def halfUp (a : Rat) : Nat := (a + 1 / 2).floor.toNat

theorem halfUp_nearest : Nearest halfUp := by
  intro a ha
  unfold halfUp
  have h0 : 0 ≤ (a + 1 / 2).floor := Rat.le_floor_iff.mpr (by push_cast; linarith)
  have h1 : (((a + 1 / 2).floor.toNat : Nat) : Rat) = ((a + 1 / 2).floor : Rat) := by
    have : (((a + 1 / 2).floor.toNat : Nat) : Int) = (a + 1 / 2).floor := Int.toNat_of_nonneg h0
    exact_mod_cast congrArg (fun z : Int => (z : Rat)) this
  rw [h1, abs_le]
  have h2 := Rat.floor_le (a + 1 / 2)
  have h3 : a + 1 / 2 - 1 < ((a + 1 / 2).floor : Rat) := Rat.lt_floor
  constructor <;> linarith

example : toJosmStyle halfUp 11 false (49 + 1 / 2) = "49.5".toList := by decide +kernel
example : toJosmStyle halfUp 11 true 100 = "-100".toList := by decide +kernel
example : toJosmStyle halfUp 2 true (1 / 1000) = "-0".toList := by decide +kernel
example : toJosmStyle halfUp 2 false (31 / 10) = "3.1".toList := by decide +kernel

end Verif.Osm.Josm
