import Verif.Attr.Model

/-!
C10: what the conversions of an attribute return depends on its string only, never on the history of conversions.

Specification vocabulary: `strings` follows the value strings of the objects through a history, `meaning*` say what
the conversions of a string are, `expected` is the list of results that a history has to give.
-/
namespace Verif.Attr

variable {D Vel : Type} (C : Conv D Vel)

/-! ### Specification -/

/-- Specification: the texts that mean a bool. -/
def meaningBool (s : Str) : Option Bool :=
  match C.lexBool s with
  | some b => some b
  | none =>
    if s ∈ ["true".toList, "yes".toList] then some true
    else if s ∈ ["false".toList, "no".toList] then some false
    else none

/-- number with unit; km/h if there is no unit -/
def meaningVel (s : Str) : Option Vel :=
  match C.lexDouble s with
  | some d => some (C.toVel d .kmh)
  | none => do
    let (d, pos) ← C.stod s
    let u ← getUnit s pos
    return C.toVel d u

/-- Specification: the text of every attribute object. -/
abbrev Strings := Nat → Str
/-- Specification: assignment to one text. -/
def Strings.put (s : Strings) (o : Nat) (x : Str) : Strings := fun o' => if o' = o then x else s o'

/-- the strings after one operation: conversions do not change them -/
def stringStep (s : Strings) : Op D Vel → Strings
  | .newString o x => s.put o x
  | .newId o i => s.put o (C.showInt i)
  | .newBool o b => s.put o (C.showInt (if b then 1 else 0))
  | .newInt o i => s.put o (C.showInt i)
  | .newDouble o d => s.put o (C.showDouble d)
  | .newVel o v => s.put o (C.showDouble (C.inKmh v))
  | .setValue o x => s.put o x
  | .copy dst src => s.put dst (s src)
  | _ => s

/-- the result that belongs to the current strings -/
def expectedRes (s : Strings) : Op D Vel → Res D Vel
  | .asBool o => .bool (meaningBool C (s o))
  | .asDouble o => .double (C.lexDouble (s o))
  | .asId o => .id (C.lexId (s o))
  | .asInt o => .int (C.lexInt (s o))
  | .asVel o => .vel (meaningVel C (s o))
  | _ => .unit

/-- Specification: the results of a history if every conversion looks at the current text only. -/
def expected : Strings → List (Op D Vel) → List (Res D Vel)
  | _, [] => []
  | s, op :: ops => expectedRes C s op :: expected (stringStep C s op) ops

/-- The string that a constructor writes can be read again. Holds for every string, and for integers, ids and bools by
what to_string and lexical_cast are specified to do; for doubles and velocities only if six decimals suffice. -/
def Readable : Op D Vel → Prop
  | .newId _ i => C.lexId (C.showInt i) = some i
  | .newBool _ b => C.lexBool (C.showInt (if b then 1 else 0)) = some b
  | .newInt _ i => C.lexInt (C.showInt i) = some i
  | .newDouble _ d => C.lexDouble (C.showDouble d) = some d
  | .newVel _ v => meaningVel C (C.showDouble (C.inKmh v)) = some v
  | _ => True

/-! ### Proof -/

/-- Helper of the proofs: the cache holds the conversion of the text. -/
def Valid (a : Attr D Vel) : Prop :=
  match a.cache with
  | none => True
  | some (.bool b) => meaningBool C a.value = some b
  | some (.double d) => C.lexDouble a.value = some d
  | some (.id i) => C.lexId a.value = some i
  | some (.int i) => C.lexInt a.value = some i
  | some (.vel v) => meaningVel C a.value = some v

theorem asBool_spec {a : Attr D Vel} (h : Valid C a) :
    (asBool C a).1 = meaningBool C a.value ∧ (asBool C a).2.value = a.value ∧ Valid C (asBool C a).2 := by
  unfold asBool
  split
  · rename_i b hb
    refine ⟨?_, rfl, h⟩
    unfold Valid at h; rw [hb] at h; exact h.symm
  · split
    · rename_i b hb
      exact ⟨by simp [meaningBool, hb], rfl, h⟩
    · rename_i hb
      have hm : meaningBool C a.value = if a.value ∈ ["true".toList, "yes".toList] then some true
        else if a.value ∈ ["false".toList, "no".toList] then some false else none := by
        simp only [meaningBool, hb]
      split
      · rename_i e
        have : meaningBool C a.value = some true := by rw [hm, if_pos (by simpa using e)]
        exact ⟨this.symm, rfl, this⟩
      · rename_i e
        split
        · rename_i e'
          have : meaningBool C a.value = some false := by
            rw [hm, if_neg (by simpa using e), if_pos (by simpa using e')]
          exact ⟨this.symm, rfl, this⟩
        · rename_i e'
          have : meaningBool C a.value = none := by
            rw [hm, if_neg (by simpa using e), if_neg (by simpa using e')]
          exact ⟨this.symm, rfl, h⟩

theorem asDouble_spec {a : Attr D Vel} (h : Valid C a) :
    (asDouble C a).1 = C.lexDouble a.value ∧ (asDouble C a).2.value = a.value ∧ Valid C (asDouble C a).2 := by
  unfold asDouble
  split
  · rename_i b hb
    refine ⟨?_, rfl, h⟩
    unfold Valid at h; rw [hb] at h; exact h.symm
  · split
    · rename_i b hb; exact ⟨hb.symm, rfl, hb⟩
    · rename_i hb; exact ⟨hb.symm, rfl, h⟩

theorem asId_spec {a : Attr D Vel} (h : Valid C a) :
    (asId C a).1 = C.lexId a.value ∧ (asId C a).2.value = a.value ∧ Valid C (asId C a).2 := by
  unfold asId
  split
  · rename_i b hb
    refine ⟨?_, rfl, h⟩
    unfold Valid at h; rw [hb] at h; exact h.symm
  · split
    · rename_i b hb; exact ⟨hb.symm, rfl, hb⟩
    · rename_i hb; exact ⟨hb.symm, rfl, h⟩

theorem asInt_spec {a : Attr D Vel} (h : Valid C a) :
    (asInt C a).1 = C.lexInt a.value ∧ (asInt C a).2.value = a.value ∧ Valid C (asInt C a).2 := by
  unfold asInt
  split
  · rename_i b hb
    refine ⟨?_, rfl, h⟩
    unfold Valid at h; rw [hb] at h; exact h.symm
  · split
    · rename_i b hb; exact ⟨hb.symm, rfl, hb⟩
    · rename_i hb; exact ⟨hb.symm, rfl, h⟩

theorem asVel_spec {a : Attr D Vel} (h : Valid C a) :
    (asVel C a).1 = meaningVel C a.value ∧ (asVel C a).2.value = a.value ∧ Valid C (asVel C a).2 := by
  obtain ⟨h1, h2, h3⟩ := asDouble_spec C h
  unfold asVel
  split
  · rename_i b hb
    refine ⟨?_, rfl, h⟩
    unfold Valid at h; rw [hb] at h; exact h.symm
  · simp only
    rw [h1]
    cases hd : C.lexDouble a.value with
    | some d =>
      have : meaningVel C a.value = some (C.toVel d .kmh) := by simp [meaningVel, hd]
      refine ⟨this.symm, h2, ?_⟩
      unfold Valid
      show meaningVel C (asDouble C a).2.value = _
      rw [h2, this]
    | none =>
      cases hs : C.stod a.value with
      | none => exact ⟨by simp [meaningVel, hd, hs], h2, h3⟩
      | some e =>
        obtain ⟨d, pos⟩ := e
        cases hu : getUnit a.value pos with
        | none => exact ⟨by simp [meaningVel, hd, hs, hu], by simpa [hu] using h2, by simpa [hu] using h3⟩
        | some u =>
          have : meaningVel C a.value = some (C.toVel d u) := by simp [meaningVel, hd, hs, hu]
          refine ⟨by simp [this, hu], by simpa [hu] using h2, ?_⟩
          simp only [hu]
          unfold Valid
          show meaningVel C (asDouble C a).2.value = _
          rw [h2, this]

/-- the state agrees with the strings and the caches are valid -/
def Agrees (s : State D Vel) (t : Strings) : Prop := ∀ o, (s o).value = t o ∧ Valid C (s o)

theorem Agrees.put {s : State D Vel} {t : Strings} (h : Agrees C s t) (o : Nat) {a : Attr D Vel} {x : Str}
    (hx : a.value = x) (hv : Valid C a) : Agrees C (s.put o a) (t.put o x) := by
  intro o'
  unfold State.put Strings.put
  split
  · exact ⟨hx, hv⟩
  · exact h o'

theorem Agrees.keep {s : State D Vel} {t : Strings} (h : Agrees C s t) (o : Nat) {a : Attr D Vel}
    (hx : a.value = (s o).value) (hv : Valid C a) : Agrees C (s.put o a) t := by
  intro o'
  unfold State.put
  split
  · rename_i e; subst e; exact ⟨hx.trans (h o').1, hv⟩
  · exact h o'

theorem step_spec {s : State D Vel} {t : Strings} (h : Agrees C s t) (op : Op D Vel) (hop : Readable C op) :
    (step C s op).2 = expectedRes C t op ∧ Agrees C (step C s op).1 (stringStep C t op) := by
  cases op with
  | newString o x => exact ⟨rfl, h.put C o rfl trivial⟩
  | newId o i => exact ⟨rfl, h.put C o rfl hop⟩
  | newBool o b =>
    refine ⟨rfl, h.put C o rfl ?_⟩
    show meaningBool C (C.showInt _) = some b
    unfold meaningBool
    rw [show C.lexBool (C.showInt (if b then 1 else 0)) = some b from hop]
  | newInt o i => exact ⟨rfl, h.put C o rfl hop⟩
  | newDouble o d => exact ⟨rfl, h.put C o rfl hop⟩
  | newVel o v => exact ⟨rfl, h.put C o rfl hop⟩
  | setValue o x => exact ⟨rfl, h.put C o rfl trivial⟩
  | copy dst src => exact ⟨rfl, h.put C dst (h src).1 (h src).2⟩
  | asBool o =>
    obtain ⟨h1, h2, h3⟩ := asBool_spec C (h o).2
    exact ⟨by show Res.bool _ = Res.bool _; rw [h1, (h o).1], h.keep C o h2 h3⟩
  | asDouble o =>
    obtain ⟨h1, h2, h3⟩ := asDouble_spec C (h o).2
    exact ⟨by show Res.double _ = Res.double _; rw [h1, (h o).1], h.keep C o h2 h3⟩
  | asId o =>
    obtain ⟨h1, h2, h3⟩ := asId_spec C (h o).2
    exact ⟨by show Res.id _ = Res.id _; rw [h1, (h o).1], h.keep C o h2 h3⟩
  | asInt o =>
    obtain ⟨h1, h2, h3⟩ := asInt_spec C (h o).2
    exact ⟨by show Res.int _ = Res.int _; rw [h1, (h o).1], h.keep C o h2 h3⟩
  | asVel o =>
    obtain ⟨h1, h2, h3⟩ := asVel_spec C (h o).2
    exact ⟨by show Res.vel _ = Res.vel _; rw [h1, (h o).1], h.keep C o h2 h3⟩

theorem runAll_spec : ∀ (ops : List (Op D Vel)) (s : State D Vel) (t : Strings), Agrees C s t →
    (∀ op ∈ ops, Readable C op) → runAll C s ops = expected C t ops
  | [], _, _, _, _ => rfl
  | op :: ops, s, t, h, hr => by
    obtain ⟨h1, h2⟩ := step_spec C h op (hr op (by simp))
    rw [runAll, expected, h1, runAll_spec ops _ _ h2 fun o ho => hr o (by simp [ho])]

/-! ### C10 -/

/-- C10. In every history of constructing, setting, copying and converting attributes, every conversion returns what
the current string of the object means. `Readable` restricts only the constructors from values. -/
theorem conversions_depend_on_string (ops : List (Op D Vel)) (h : ∀ op ∈ ops, Readable C op) :
    runAll C init ops = expected C (fun _ => []) ops :=
  runAll_spec C ops init _ (fun _ => ⟨rfl, trivial⟩) h

/-- Attributes that are only ever set from strings need no hypothesis. -/
theorem conversions_depend_on_string' (ops : List (Op D Vel))
    (h : ∀ op ∈ ops, match op with
      | .newId .. | .newBool .. | .newInt .. | .newDouble .. | .newVel .. => False
      | _ => True) :
    runAll C init ops = expected C (fun _ => []) ops :=
  conversions_depend_on_string C ops fun op hop => by
    have := h op hop
    cases op <;> first | trivial | exact this.elim

/-- An attribute that was constructed from a double whose string is rounded: asDouble returns the exact value at first,
and the rounded one after asVelocity was called. -/
theorem double_history_counterexample (d d' : D) (hd : C.lexDouble (C.showDouble d) = some d') :
    runAll C init [.newDouble 0 d, .asDouble 0, .asVel 0, .asDouble 0] =
      [.unit, .double (some d), .vel (some (C.toVel d .kmh)), .double (some d')] := by
  simp [runAll, step, init, State.put, ofDouble, asDouble, asVel, hd]

/-! ### Units -/

/-- `s` contains `p` -/
def Contains (p s : Str) : Prop := ∃ a b, s = a ++ p ++ b

theorem hasSub_iff (p : Str) : ∀ s, hasSub p s = true ↔ Contains p s
  | [] => by
    unfold hasSub Contains
    rw [List.isEmpty_iff]
    constructor
    · rintro rfl; exact ⟨[], [], rfl⟩
    · rintro ⟨a, b, h⟩
      have h := h.symm
      simp only [List.append_assoc, List.append_eq_nil_iff] at h
      exact h.2.1
  | c :: cs => by
    unfold hasSub
    rw [Bool.or_eq_true, hasSub_iff p cs, List.isPrefixOf_iff_prefix]
    unfold Contains
    constructor
    · rintro (⟨b, h⟩ | ⟨a, b, h⟩)
      · exact ⟨[], b, by simp [h]⟩
      · exact ⟨c :: a, b, by simp [h]⟩
    · rintro ⟨a, b, h⟩
      cases a with
      | nil => exact .inl ⟨b, by simpa using h.symm⟩
      | cons x a =>
        simp only [List.cons_append, List.cons.injEq] at h
        exact .inr ⟨a, b, h.2⟩

theorem hasSub_skip {p : Str} (hp : ∀ q, p ≠ ' ' :: q) (h0 : p ≠ []) (n : Nat) (u : Str) :
    hasSub p (List.replicate n ' ' ++ u) = hasSub p u := by
  induction n with
  | zero => rfl
  | succ n ih =>
    rw [List.replicate_succ, List.cons_append, hasSub, ih]
    have : p.isPrefixOf (' ' :: (List.replicate n ' ' ++ u)) = false := by
      cases p with
      | nil => exact absurd rfl h0
      | cons c q =>
        have : c ≠ ' ' := fun e => hp q (by rw [e])
        simp [List.isPrefixOf, this]
    rw [this, Bool.false_or]

/-- The documented units, after any number of blanks behind the number (which ends at `pos`), and no unit at all. -/
theorem documented_units (num : Str) (n : Nat) :
    getUnit num num.length = some .kmh ∧
    (∀ u ∈ ["m/s".toList, "mps".toList], getUnit (num ++ (List.replicate n ' ' ++ u)) num.length = some .mps) ∧
    (∀ u ∈ ["km/h".toList, "kmh".toList], getUnit (num ++ (List.replicate n ' ' ++ u)) num.length = some .kmh) ∧
    (∀ u ∈ ["m/h".toList, "mph".toList], getUnit (num ++ (List.replicate n ' ' ++ u)) num.length = some .mph) := by
  have key : ∀ u : Str, u ≠ [] → getUnit (num ++ (List.replicate n ' ' ++ u)) num.length = getUnit u 0 := by
    intro u hu
    have hl : 0 < u.length := List.length_pos_iff.mpr hu
    unfold getUnit
    have hsk : ∀ p ∈ ["m/s".toList, "mps".toList, "km/h".toList, "kmh".toList, "m/h".toList, "mph".toList],
        hasSub p (List.replicate n ' ' ++ u) = hasSub p u := by
      intro p hp
      apply hasSub_skip
      · intro q e; subst e; simp at hp
      · intro e; subst e; simp at hp
    have hn : ¬ (num.length ≥ (num ++ (List.replicate n ' ' ++ u)).length) := by
      simp only [List.length_append, List.length_replicate]; omega
    have hn' : ¬ (0 ≥ u.length) := by omega
    rw [if_neg hn, if_neg hn']
    simp only [List.drop_left, List.drop_zero]
    rw [hsk "m/s".toList (by simp), hsk "mps".toList (by simp), hsk "km/h".toList (by simp),
      hsk "kmh".toList (by simp), hsk "m/h".toList (by simp), hsk "mph".toList (by simp)]
  refine ⟨by simp [getUnit], ?_, ?_, ?_⟩
  · intro u hu
    simp only [List.mem_cons, List.not_mem_nil, or_false] at hu
    rcases hu with rfl | rfl <;> rw [key _ (by simp)] <;> decide
  · intro u hu
    simp only [List.mem_cons, List.not_mem_nil, or_false] at hu
    rcases hu with rfl | rfl <;> rw [key _ (by simp)] <;> decide
  · intro u hu
    simp only [List.mem_cons, List.not_mem_nil, or_false] at hu
    rcases hu with rfl | rfl <;> rw [key _ (by simp)] <;> decide

/-- Other spellings are not rejected but read as another unit. -/
theorem misread_units_counterexample :
    getUnit "50 kmph".toList 2 = some .mph ∧ getUnit "3 km/s".toList 1 = some .mps := by decide

/-! ### Concrete conversions, to show that the hypotheses can be met -/

/-- Example: decimal digits as a number. -/
def digits (s : Str) : Option Int :=
  if s ≠ [] ∧ s.all Char.isDigit then some (s.foldl (fun n c => 10 * n + (c.toNat - 48)) 0) else none

/-- natural numbers in decimal; doubles are multiples of 1/10 that are printed without decimals -/
def sample : Conv Int (Int × Unit') where
  lexBool s := if s = "1".toList then some true else if s = "0".toList then some false else none
  lexDouble s := (digits s).map (· * 10)
  lexId s := digits s
  lexInt s := digits s
  stod s := let p := s.takeWhile Char.isDigit; (digits p).map fun i => (i * 10, p.length)
  toVel d u := (d, u)
  inKmh v := v.1
  showDouble d := Nat.toDigits 10 (d / 10).toNat
  showInt i := Nat.toDigits 10 i.toNat

example : runAll sample init [.newInt 0 5, .asVel 0, .asInt 0, .setValue 0 "20 mps".toList, .asVel 0, .asInt 0,
      .copy 1 0, .setValue 0 "yes".toList, .asBool 0, .asVel 1, .asVel 0] =
    [.unit, .vel (some (50, .kmh)), .int (some 5), .unit, .vel (some (200, .mps)), .int none, .unit, .unit,
      .bool (some true), .vel (some (200, .mps)), .vel none] := by decide +kernel

example : ∀ op ∈ ([.newInt 0 5, .asVel 0, .newBool 1 true, .newDouble 2 40] : List (Op Int (Int × Unit'))),
    Readable sample op := by
  intro op h
  simp only [List.mem_cons, List.not_mem_nil, or_false] at h
  rcases h with rfl | rfl | rfl | rfl
  · show sample.lexInt _ = some _; decide +kernel
  · trivial
  · show sample.lexBool _ = _; decide +kernel
  · show sample.lexDouble _ = _; decide +kernel

/-- 1.5 is printed as "1": the hypothesis of `double_history_counterexample` -/
example : sample.lexDouble (sample.showDouble 15) = some 10 := by decide +kernel

end Verif.Attr
