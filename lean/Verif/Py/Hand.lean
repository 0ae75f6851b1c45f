import Verif.Py.Convert
import Verif.Match.Props

/-!
Model of the functions of the Python module lanelet2.matching that convert their arguments by hand, python_api/matching.cpp: the filter of
matches and the hull of an object, and of the conversion of the configuration dictionary, python_api/io.cpp.
-/
namespace Verif.Py.Hand
open Verif.Py.Convert

/-- removeNonRuleCompliantMatchesImpl, matching.cpp 82-89, for matches of class `c`: the list as a vector of that class, filtered, and as a
list of instances of the class again. A match is its data, `lanelet` the lanelet in it. -/
def filterAs (items : Cls → Nat → Option (List Obj)) (lanelet : Nat → Lanelet.LH) (canPass : Lanelet.LH → Bool) (c : Cls) (l : List Obj) :
    Option Obj :=
  (l.mapM fun o => (extract items (.cls c) o : Option Nat)).map fun v =>
    toPy (.vec (.cls c)) (Match.removeNonRuleCompliantMatches lanelet canPass v : List Nat)

/-- ruleCheckWrapper, matching.cpp 91-104: first as probabilistic matches, then as plain ones; `none` is the runtime_error -/
def ruleCheck (items : Cls → Nat → Option (List Obj)) (lanelet : Nat → Lanelet.LH) (canPass : Lanelet.LH → Bool) (l : List Obj) : Option Obj :=
  match filterAs items lanelet canPass .constLaneletMatchProbabilistic l with
  | some r => some r
  | none => filterAs items lanelet canPass .constLaneletMatch l

/-- hullFromList, matching.cpp 62-65: the points of a list; `none` is a TypeError. Only a list is taken (boost::python::list). -/
def hullFromList (items : Cls → Nat → Option (List Obj)) : Obj → Option (List Nat)
  | .list l => l.mapM fun o => (extract items (.cls .basicPoint2d) o : Option Nat)
  | _ => none

/-- The function that was given as setter of `absoluteHull`, matching.cpp 136-138 with 62: it has one parameter, the list. Python calls a
setter with the object and the value. -/
def hullSetter : Fn := ⟨[.vec (.cls .basicPoint2d)], 1⟩

/-- A Python dictionary as its items in order; the keys and values are strings or something else (`none`) -/
abbrev PyDict := List (Option String × Option String)

/-- DictToConfigurationConverter::construct, io.cpp 16-31: inserts key by key
into a map, which keeps the first value of a key; `none` is a TypeError from the extraction of a string -/
def dictLoop (acc : List (String × String)) : PyDict → Option (List (String × String))
  | [] => some acc
  | (some k, some v) :: rest => dictLoop (if acc.any (·.1 == k) then acc else acc ++ [(k, v)]) rest
  | _ :: _ => none

/-- the conversion of a dictionary, io.cpp 16-31 -/
def fromDict (d : PyDict) : Option (List (String × String)) := dictLoop [] d

/-! ### Proofs -/

/-- Helper of the proofs. -/
theorem mapM_inst (items : Cls → Nat → Option (List Obj)) (c : Cls) :
    ∀ (l : List Obj) (v : List Nat), (l.mapM fun o => (extract items (.cls c) o : Option Nat)) = some v ↔
      ∃ ds : List Cls, ds.length = v.length ∧ (∀ d ∈ ds, d = c ∨ c ∈ d.bases) ∧ l = List.zipWith Obj.inst ds v := by
  intro l
  induction l with
  | nil =>
    intro v
    constructor
    · intro h
      simp only [List.mapM_nil] at h
      cases h
      exact ⟨[], rfl, by simp, rfl⟩
    · rintro ⟨ds, hl, -, he⟩
      cases ds with
      | nil =>
        cases v with
        | nil => rfl
        | cons _ _ => cases hl
      | cons d ds =>
        cases v with
        | nil => cases hl
        | cons _ _ => cases he
  | cons o l ih =>
    intro v
    rw [List.mapM_cons]
    constructor
    · intro h
      cases ho : (extract items (.cls c) o : Option Nat) with
      | none => rw [ho] at h; cases h
      | some n =>
        rw [ho] at h
        cases hm : (l.mapM fun o => (extract items (.cls c) o : Option Nat)) with
        | none => rw [hm] at h; cases h
        | some w =>
          rw [hm] at h
          cases h
          obtain ⟨ds, hl, hd, he⟩ := (ih w).1 hm
          have hx := (extract_iff items (.cls c) o n).1 ho
          cases hx with
          | @cls _ d _ hh =>
            exact ⟨d :: ds, congrArg (· + 1) hl, by simpa using ⟨hh, hd⟩, by rw [he]; rfl⟩
    · rintro ⟨ds, hl, hd, he⟩
      cases ds with
      | nil => cases he
      | cons d ds =>
        cases v with
        | nil => cases hl
        | cons n v =>
          rw [List.zipWith_cons_cons] at he
          cases he
          have hm := (ih v).2 ⟨ds, by simpa using hl, fun d' h' => hd d' (by simp [h']), rfl⟩
          have hx : (extract items (.cls c) (.inst d n) : Option Nat) = some n :=
            (extract_iff items (.cls c) _ n).2 (.cls n (hd d (by simp)))
          rw [hx, hm]
          rfl

/-- C91. A list of probabilistic matches is filtered to those the rules allow, in order, and they stay probabilistic. -/
theorem ruleCheck_probabilistic (items : Cls → Nat → Option (List Obj)) (lanelet : Nat → Lanelet.LH) (canPass : Lanelet.LH → Bool)
    (v : List Nat) :
    ruleCheck items lanelet canPass (v.map (.inst .constLaneletMatchProbabilistic)) =
      some (.list ((v.filter fun n => canPass (lanelet n)).map (.inst .constLaneletMatchProbabilistic))) := by
  have h := (mapM_inst items .constLaneletMatchProbabilistic (v.map (.inst .constLaneletMatchProbabilistic)) v).2
    ⟨v.map fun _ => .constLaneletMatchProbabilistic, by simp, by simp, by
      induction v with
      | nil => rfl
      | cons a v ih => simp [ih]⟩
  unfold ruleCheck filterAs
  rw [h]
  simp only [Option.map_some, toPy, Match.removeNonRuleCompliantMatches, Bool.not_not]
  rfl

/-- C91. A list of matches that has a plain one in it is filtered in the same way, and all that is returned are plain matches: the
probabilities of the others are lost. -/
theorem ruleCheck_plain (items : Cls → Nat → Option (List Obj)) (lanelet : Nat → Lanelet.LH) (canPass : Lanelet.LH → Bool)
    (ds : List Cls) (v : List Nat) (hl : ds.length = v.length)
    (hd : ∀ d ∈ ds, d = .constLaneletMatch ∨ d = .constLaneletMatchProbabilistic) (hp : .constLaneletMatch ∈ ds) :
    ruleCheck items lanelet canPass (List.zipWith .inst ds v) =
      some (.list ((v.filter fun n => canPass (lanelet n)).map (.inst .constLaneletMatch))) := by
  have h2 := (mapM_inst items .constLaneletMatch (List.zipWith .inst ds v) v).2 ⟨ds, hl, by
    intro d h
    rcases hd d h with rfl | rfl
    · exact Or.inl rfl
    · exact Or.inr (by simp [Cls.bases]), rfl⟩
  have h1 : (List.zipWith Obj.inst ds v).mapM (fun o => (extract items (.cls .constLaneletMatchProbabilistic) o : Option Nat)) = none := by
    cases hm : (List.zipWith Obj.inst ds v).mapM (fun o => (extract items (.cls .constLaneletMatchProbabilistic) o : Option Nat)) with
    | none => rfl
    | some w =>
      exfalso
      obtain ⟨es, hl', he, hz⟩ := (mapM_inst items _ _ w).1 hm
      have : ∀ (ds es : List Cls) (v w : List Nat), ds.length = v.length → es.length = w.length →
          List.zipWith Obj.inst ds v = List.zipWith Obj.inst es w → ds = es := by
        intro ds
        induction ds with
        | nil =>
          intro es v w h1 h2 h
          cases es with
          | nil => rfl
          | cons e es =>
            cases w with
            | nil => cases h2
            | cons b w => cases h
        | cons d ds ih =>
          intro es v w h1 h2 h
          cases v with
          | nil => cases h1
          | cons a v =>
            cases es with
            | nil => cases h
            | cons e es =>
              cases w with
              | nil => cases h2
              | cons b w =>
                rw [List.zipWith_cons_cons, List.zipWith_cons_cons] at h
                injection h with h3 h4
                injection h3 with h5 h6
                rw [h5, ih es v w (by simpa using h1) (by simpa using h2) h4]
      have hde := this ds es v w hl hl' hz
      rw [hde] at hp
      rcases he _ hp with h | h
      · cases h
      · simp [Cls.bases] at h
  unfold ruleCheck filterAs
  rw [h1, h2]
  simp only [Option.map_some, toPy, Match.removeNonRuleCompliantMatches, Bool.not_not]
  rfl

/-- C91. Anything else in the list is an error. -/
theorem ruleCheck_other (items : Cls → Nat → Option (List Obj)) (lanelet : Nat → Lanelet.LH) (canPass : Lanelet.LH → Bool) (l : List Obj)
    (o : Obj) (ho : o ∈ l) (h : ∀ d n, o = .inst d n → d ≠ .constLaneletMatch ∧ d ≠ .constLaneletMatchProbabilistic) :
    ruleCheck items lanelet canPass l = none := by
  have key : ∀ c, c = .constLaneletMatch ∨ c = .constLaneletMatchProbabilistic →
      (l.mapM fun o => (extract items (.cls c) o : Option Nat)) = none := by
    intro c hc
    cases hm : (l.mapM fun o => (extract items (.cls c) o : Option Nat)) with
    | none => rfl
    | some v =>
      exfalso
      obtain ⟨i, hi⟩ := List.getElem?_of_mem ho
      obtain ⟨hlt, he⟩ := List.getElem?_eq_some_iff.1 hi
      obtain ⟨hl, hx⟩ := (mapM_some _ l v).1 hm
      have hx' := hx i hlt
      rw [he] at hx'
      have hd := (extract_iff items (.cls c) o _).1 hx'
      cases hd with
      | @cls _ d n hh =>
        obtain ⟨h1, h2⟩ := h d _ rfl
        rcases hc with rfl | rfl <;> cases d <;> simp_all [Cls.bases]
  unfold ruleCheck filterAs
  rw [key _ (Or.inr rfl), key _ (Or.inl rfl)]
  rfl

/-- C91. The hull of an object consists of the points of the list that its constructor gets, in order. -/
theorem hull_spec (items : Cls → Nat → Option (List Obj)) (v : List Nat) :
    hullFromList items (.list (v.map (.inst .basicPoint2d))) = some v := by
  exact (mapM_inst items .basicPoint2d _ v).2 ⟨v.map fun _ => .basicPoint2d, by simp, by simp, by
    induction v with
    | nil => rfl
    | cons a v ih => simp [ih]⟩

/-- Counterexample to C91. The hull of an object cannot be set from Python: the setter that was registered takes one argument, but Python
passes the object and the value, so every assignment to `absoluteHull` raises an error. -/
theorem hull_setter_counterexample (items : Cls → Nat → Option (List Obj)) (self value : Obj) :
    call items [hullSetter] [self, value] = .noMatch := by
  rw [call_noMatch]
  intro f hf
  simp only [List.mem_singleton] at hf
  subst hf
  rfl

/-- Helper of the proofs. -/
theorem dictLoop_spec : ∀ (d : List (String × String)) (acc : List (String × String)), d.Pairwise (fun a b => a.1 ≠ b.1) →
    (∀ x ∈ acc, ∀ y ∈ d, x.1 ≠ y.1) → dictLoop acc (d.map fun p => (some p.1, some p.2)) = some (acc ++ d) := by
  intro d
  induction d with
  | nil => intro acc _ _; simp [dictLoop]
  | cons p d ih =>
    intro acc hp hx
    rw [List.pairwise_cons] at hp
    rw [List.map_cons, dictLoop]
    have hno : acc.any (·.1 == p.1) = false := by
      rw [List.any_eq_false]
      intro x h
      have := hx x h p (by simp)
      simpa using this
    rw [hno, if_neg (by simp)]
    rw [ih (acc ++ [(p.1, p.2)]) hp.2]
    · simp
    · intro x h y hy
      rw [List.mem_append, List.mem_singleton] at h
      rcases h with h | rfl
      · exact hx x h y (by simp [hy])
      · exact hp.1 y hy

/-- C91. A dictionary of strings, which has every key once, arrives entry by entry. -/
theorem dict_spec (d : List (String × String)) (h : d.Pairwise (fun a b => a.1 ≠ b.1)) :
    fromDict (d.map fun p => (some p.1, some p.2)) = some d := by
  have := dictLoop_spec d [] h (by simp)
  simpa [fromDict] using this

/-- C91. A key or value that is no string is an error. -/
theorem dict_error : ∀ (d : PyDict) (acc : List (String × String)), (∃ p ∈ d, p.1 = none ∨ p.2 = none) → dictLoop acc d = none := by
  intro d
  induction d with
  | nil => rintro acc ⟨p, hp, -⟩; cases hp
  | cons q d ih =>
    rintro acc ⟨p, hp, h⟩
    obtain ⟨k, v⟩ := q
    cases k with
    | none => rfl
    | some k =>
      cases v with
      | none => rfl
      | some v =>
        rw [dictLoop]
        apply ih
        rcases List.mem_cons.1 hp with rfl | hp
        · rcases h with h | h <;> cases h
        · exact ⟨p, hp, h⟩

/-! ### Examples -/

-- two probabilistic matches and a plain one, the lanelet of the second may not be driven on
example : ruleCheck exItems (fun n => ⟨n, false⟩) (fun l => l.data != 2)
    [.inst .constLaneletMatchProbabilistic 1, .inst .constLaneletMatchProbabilistic 2, .inst .constLaneletMatch 3] =
    some (.list [.inst .constLaneletMatch 1, .inst .constLaneletMatch 3]) := rfl
example : fromDict [(some "a", some "1"), (some "b", some "2")] = some [("a", "1"), ("b", "2")] := rfl

end Verif.Py.Hand
