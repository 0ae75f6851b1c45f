/-!
Model of `Attribute`: lanelet2_core/include/lanelet2_core/Attribute.h 31-107 and lanelet2_core/src/Attribute.cpp 10-152.

The conversions of the standard library and boost (lexical_cast, stod, to_string) and the arithmetic of doubles are
parameters (`Conv`). The regular expressions of `getUnit` are modelled. The cache is the pointee of the shared pointer;
since no pointee is ever modified, sharing it between copies is the same as copying it.
-/
namespace Verif.Attr

/-- std::string, Attribute.h 105. -/
abbrev Str := List Char

/-- boost::variant<bool, double, Id, int, Velocity>, Attribute.h 37 -/
inductive Cache (D Vel : Type) where
  | bool (b : Bool)
  | double (d : D)
  | id (i : Int)
  | int (i : Int)
  | vel (v : Vel)

/-- Attribute.h 105-106 -/
structure Attr (D Vel : Type) where
  value : Str
  cache : Option (Cache D Vel)

/-- units that getUnit can return; Attribute.cpp 12-31 -/
inductive Unit' where
  | mps | kmh | mph
  deriving DecidableEq

/-- Conversions of the libraries. `stod` gives the number and the position behind it. Used in Attribute.cpp 61-146. -/
structure Conv (D Vel : Type) where
  lexBool : Str → Option Bool
  lexDouble : Str → Option D
  lexId : Str → Option Int
  lexInt : Str → Option Int
  stod : Str → Option (D × Nat)
  toVel : D → Unit' → Vel
  inKmh : Vel → D
  showDouble : D → Str
  showInt : Int → Str

variable {D Vel : Type} (C : Conv D Vel)

/-- regex_search for a fixed string; Attribute.cpp 20-26 -/
def hasSub (p : Str) : Str → Bool
  | [] => p.isEmpty
  | c :: cs => p.isPrefixOf (c :: cs) || hasSub p cs

/-- getUnit, Attribute.cpp 12-30. `\s*(m/s)|(mps)` finds a match iff "m/s" or "mps" is contained, since `\s*` may be
empty. -/
def getUnit (value : Str) (pos : Nat) : Option Unit' :=
  if pos ≥ value.length then some .kmh
  else
    let unit := value.drop pos
    if hasSub "m/s".toList unit || hasSub "mps".toList unit then some .mps
    else if hasSub "km/h".toList unit || hasSub "kmh".toList unit then some .kmh
    else if hasSub "m/h".toList unit || hasSub "mph".toList unit then some .mph
    else none

/-- constructors from strings, Attribute.h 39-41 -/
def ofString (s : Str) : Attr D Vel := ⟨s, none⟩
/-- Attribute.cpp 49 -/
def ofId (i : Int) : Attr D Vel := ⟨C.showInt i, some (.id i)⟩
/-- Attribute.cpp 51 -/
def ofBool (b : Bool) : Attr D Vel := ⟨C.showInt (if b then 1 else 0), some (.bool b)⟩
/-- Attribute.cpp 53 -/
def ofInt (i : Int) : Attr D Vel := ⟨C.showInt i, some (.int i)⟩
/-- Attribute.cpp 55 -/
def ofDouble (d : D) : Attr D Vel := ⟨C.showDouble d, some (.double d)⟩
/-- Attribute.cpp 57-59 -/
def ofVel (v : Vel) : Attr D Vel := ⟨C.showDouble (C.inKmh v), some (.vel v)⟩

/-- asBool, Attribute.cpp 61-79: the result of lexical_cast is not stored -/
def asBool (a : Attr D Vel) : Option Bool × Attr D Vel :=
  match a.cache with
  | some (.bool b) => (some b, a)
  | _ => match C.lexBool a.value with
    | some b => (some b, a)
    | none =>
      if a.value = "true".toList ∨ a.value = "yes".toList then (some true, { a with cache := some (.bool true) })
      else if a.value = "false".toList ∨ a.value = "no".toList then (some false, { a with cache := some (.bool false) })
      else (none, a)

/-- asDouble, Attribute.cpp 81-93 -/
def asDouble (a : Attr D Vel) : Option D × Attr D Vel :=
  match a.cache with
  | some (.double d) => (some d, a)
  | _ => match C.lexDouble a.value with
    | some d => (some d, { a with cache := some (.double d) })
    | none => (none, a)

/-- asId, Attribute.cpp 95-107 -/
def asId (a : Attr D Vel) : Option Int × Attr D Vel :=
  match a.cache with
  | some (.id d) => (some d, a)
  | _ => match C.lexId a.value with
    | some d => (some d, { a with cache := some (.id d) })
    | none => (none, a)

/-- asInt, Attribute.cpp 109-121 -/
def asInt (a : Attr D Vel) : Option Int × Attr D Vel :=
  match a.cache with
  | some (.int d) => (some d, a)
  | _ => match C.lexInt a.value with
    | some d => (some d, { a with cache := some (.int d) })
    | none => (none, a)

/-- asVelocity, Attribute.cpp 123-147 -/
def asVel (a : Attr D Vel) : Option Vel × Attr D Vel :=
  match a.cache with
  | some (.vel v) => (some v, a)
  | _ =>
    let r := asDouble C a
    match r.1 with
    | some d => (some (C.toVel d .kmh), { r.2 with cache := some (.vel (C.toVel d .kmh)) })
    | none => match C.stod a.value with
      | none => (none, r.2)
      | some (d, pos) => match getUnit a.value pos with
        | none => (none, r.2)
        | some u => (some (C.toVel d u), { r.2 with cache := some (.vel (C.toVel d u)) })

/-- setValue, Attribute.cpp 149-152 -/
def setValue (s : Str) (_a : Attr D Vel) : Attr D Vel := ⟨s, none⟩

/-- operator==, Attribute.h 179 -/
def equal (a b : Attr D Vel) : Bool := a.value == b.value

/-- Everything that can be done with attribute objects (numbered). The member functions of Attribute.h 39-102, with copying and assignment. -/
inductive Op (D Vel : Type) where
  | newString (o : Nat) (s : Str)
  | newId (o : Nat) (i : Int)
  | newBool (o : Nat) (b : Bool)
  | newInt (o : Nat) (i : Int)
  | newDouble (o : Nat) (d : D)
  | newVel (o : Nat) (v : Vel)
  | setValue (o : Nat) (s : Str)
  | copy (dst src : Nat)
  | asBool (o : Nat)
  | asDouble (o : Nat)
  | asId (o : Nat)
  | asInt (o : Nat)
  | asVel (o : Nat)

/-- All attribute objects, by number. -/
abbrev State (D Vel : Type) := Nat → Attr D Vel

/-- Assignment to one object. -/
def State.put (s : State D Vel) (o : Nat) (a : Attr D Vel) : State D Vel := fun o' => if o' = o then a else s o'

/-- results of the conversions; Attribute.h 54-84. -/
inductive Res (D Vel : Type) where
  | unit
  | bool (b : Option Bool)
  | double (d : Option D)
  | id (i : Option Int)
  | int (i : Option Int)
  | vel (v : Option Vel)
  deriving DecidableEq

/-- One call: Attribute.cpp 49-152 by the operation. -/
def step (s : State D Vel) : Op D Vel → State D Vel × Res D Vel
  | .newString o x => (s.put o (ofString x), .unit)
  | .newId o i => (s.put o (ofId C i), .unit)
  | .newBool o b => (s.put o (ofBool C b), .unit)
  | .newInt o i => (s.put o (ofInt C i), .unit)
  | .newDouble o d => (s.put o (ofDouble C d), .unit)
  | .newVel o v => (s.put o (ofVel C v), .unit)
  | .setValue o x => (s.put o (setValue x (s o)), .unit)
  | .copy dst src => (s.put dst (s src), .unit)
  | .asBool o => let r := asBool C (s o); (s.put o r.2, .bool r.1)
  | .asDouble o => let r := asDouble C (s o); (s.put o r.2, .double r.1)
  | .asId o => let r := asId C (s o); (s.put o r.2, .id r.1)
  | .asInt o => let r := asInt C (s o); (s.put o r.2, .int r.1)
  | .asVel o => let r := asVel C (s o); (s.put o r.2, .vel r.1)

/-- the results of a whole history; Helper of the properties. -/
def runAll : State D Vel → List (Op D Vel) → List (Res D Vel)
  | _, [] => []
  | s, op :: ops => (step C s op).2 :: runAll (step C s op).1 ops

/-- default constructed attributes; Attribute.h 39 -/
def init : State D Vel := fun _ => ⟨[], none⟩

end Verif.Attr
