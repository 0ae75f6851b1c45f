import Mathlib.Data.Int.Log
import Mathlib.Data.Rat.Floor
import Mathlib.Algebra.Order.Round
import Mathlib.Algebra.Order.Field.Power
import Mathlib.Tactic.NormNum
import Mathlib.Tactic.Linarith
import Mathlib.Tactic.FieldSimp
import Mathlib.Tactic.Positivity
import Mathlib.Tactic.Ring

/-!
Model of the printed forms of the Python bindings: lanelet2_python/include/lanelet2_python/internal/repr.h and the `__repr__` functions
of lanelet2_python/python_api/core.cpp, and of the constructors of the same classes, which is what Python's `eval` calls.

The texts are modelled as Python expressions (`Src`): the parser of Python, which turns the text back into the expression, and the
escaping of strings by Python are not modelled. Numbers are rational numbers: ids are written exactly and the doubles with the six
significant digits of an output stream.
-/
namespace Verif.Py.Repr

/-- The entries of an AttributeMap in the order of its iteration; core.cpp 706-710 -/
abbrev Attrs := List (String × String)

/-- A Point3d or, seen from above, a Point2d; core.cpp 735-748, 766-781 -/
structure Pt where
  id : Int
  x : Rat
  y : Rat
  z : Rat
  attrs : Attrs
  deriving DecidableEq

/-- A linestring or polygon: the points as they are stored, and whether the handle is inverted; core.cpp 811-831, 851-868, 939-958 -/
structure Ls where
  id : Int
  data : List Pt
  inv : Bool
  attrs : Attrs
  deriving DecidableEq

/-- The points as iterating over the linestring returns them; core.cpp 342 -/
def Ls.seen (l : Ls) : List Pt := if l.inv then l.data.reverse else l.data

/-- A Python expression: integer and number literals, strings, `None`, lists, dicts and calls with positional arguments; the texts of repr.h
8-43 -/
inductive Src where
  | int (n : Int)
  | num (q : Rat)
  | str (s : String)
  | none
  | list (l : List Src)
  | dict (keys : List String) (values : List Src)
  | call (name : String) (args : List Src)

/-- The value that is written for a double by `operator<<` of a stream with its default precision, six significant digits, repr.h 24 and
31. Ties are rounded up. -/
def sig6 (x : Rat) : Rat :=
  if x = 0 then 0 else round (x / 10 ^ (Int.log 10 |x| - 5)) * 10 ^ (Int.log 10 |x| - 5)

/-- makeRepr, repr.h 8-43: the first argument is always written, the others except for empty strings (`none`); repr.h 12-14 -/
def makeRepr (name : String) (first : Src) (rest : List (Option Src)) : Src := .call name (first :: rest.filterMap id)

/-- `repr(dict(a))`, core.cpp 710 -/
def dictSrc (a : Attrs) : Src := .dict (a.map (·.1)) (a.map fun e => .str e.2)

/-- The `__repr__` of an AttributeMap, core.cpp 710 -/
def attrSrc (a : Attrs) : Src := makeRepr "AttributeMap" (dictSrc a) []

/-- repr of an AttributeMap within other texts: nothing if there are no attributes; core.cpp 44-49 -/
def reprAttrs (a : Attrs) : Option Src := if a.isEmpty then none else some (attrSrc a)

/-- `__repr__` of a Point3d (also of a ConstPoint3d except for the name), core.cpp 779-780, 759-762 -/
def pointSrc (p : Pt) : Src :=
  makeRepr "Point3d" (.int p.id) [some (.num (sig6 p.x)), some (.num (sig6 p.y)), some (.num (sig6 p.z)), reprAttrs p.attrs]

/-- `__repr__` of a Point2d, core.cpp 747 -/
def point2Src (p : Pt) : Src :=
  makeRepr "Point2d" (.int p.id) [some (.num (sig6 p.x)), some (.num (sig6 p.y)), reprAttrs p.attrs]

/-- `__repr__` of LineString3d, Polygon3d, core.cpp 862-866, 954-956: the class, the id, the list of the points and the attributes -/
def lsSrc (cls : String) (l : Ls) : Src :=
  makeRepr cls (.int l.id) [some (.list (l.seen.map pointSrc)), reprAttrs l.attrs]

/-- `__repr__` of LineString2d and Polygon2d, core.cpp 826-830, 944-946 -/
def ls2Src (cls : String) (l : Ls) : Src :=
  makeRepr cls (.int l.id) [some (.list (l.seen.map point2Src)), reprAttrs l.attrs]

/-- A parameter of a regulatory element. Lanelets and areas are weak references, which may have expired; core.cpp 592-593, 669-670 -/
inductive Param where
  | point (p : Pt)
  | ls (l : Ls)
  | polygon (l : Ls)
  | lanelet (k : Option Nat)
  | area (k : Option Nat)

/-- A lanelet: its id, bounds as `leftBound` and `rightBound` return them, attributes and regulatory elements, core.cpp 58-66 -/
structure LaneletRec where
  id : Int
  left : Ls
  right : Ls
  attrs : Attrs
  regs : List Nat

/-- An area, core.cpp 68-76 -/
structure AreaRec where
  id : Int
  outer : List Ls
  inner : List (List Ls)
  attrs : Attrs
  regs : List Nat

/-- A regulatory element: the class that Python sees, the id, the parameters and the attributes, core.cpp 1221-1223, 1243-1246, 1282-1285,
1314-1317, 1376-1379, 1392-1395 -/
structure RegRec where
  cls : String
  id : Int
  params : List (String × List Param)
  attrs : Attrs

/-- The objects that refer to each other: lanelets and areas to regulatory elements, and these to lanelets and areas; core.cpp 58-96 -/
structure World where
  lanelet : Nat → LaneletRec
  area : Nat → AreaRec
  reg : Nat → RegRec

/-- The Python objects that are printed. `text` is the class _ReprWrapper, core.cpp 34-42 and 500-501; `constLanelet` and `paramMap`
are the classes of the same name (RuleParameterMap and ConstRuleParameterMap have the same form) -/
inductive Obj where
  | none
  | text (s : Src)
  | point (p : Pt)
  | ls (l : Ls)
  | polygon (l : Ls)
  | lanelet (k : Nat)
  | constLanelet (k : Nat)
  | area (k : Nat)
  | reg (k : Nat)
  | paramMap (k : Nat)
  | list (l : List Obj)
  | dict (keys : List String) (values : List Obj)

/-- The Python object for a parameter, converter.h 140-147 and 172-180 -/
def Param.obj : Param → Obj
  | .point p => .point p
  | .ls l => .ls l
  | .polygon l => .polygon l
  | .lanelet (some k) => .lanelet k
  | .lanelet none => .none
  | .area (some k) => .area k
  | .area none => .none

mutual

/-- Python's `repr` on the objects of the bindings, repr.h 45-49: it calls `__repr__` of the class and, for lists and dicts, `repr` of
the elements -/
def pyRepr (w : World) (o : Obj) : Option Src :=
  match o with
  | .none => some .none
  | .text s => some s
  | .point p => some (pointSrc p)
  | .ls l => some (lsSrc "LineString3d" l)
  | .polygon l => some (lsSrc "Polygon3d" l)
  | .lanelet k => laneletRepr w true k
  | .constLanelet k => constLaneletRepr w k
  | .area k => areaRepr w true k
  | .reg k => do
      let params ← paramsRepr w (w.reg k).params
      some (makeRepr (w.reg k).cls (.int (w.reg k).id) [some params, reprAttrs (w.reg k).attrs])
  | .paramMap k => do
      let values ← (w.reg k).params.mapM fun e => pyRepr w (.list (e.2.map Param.obj))
      some (makeRepr "RuleParameterMap" (.dict ((w.reg k).params.map (·.1)) values) [])
  | .list l => do
      let l ← l.mapM (fun x => pyRepr w x)
      some (.list l)
  | .dict keys values => do
      let values ← values.mapM (fun x => pyRepr w x)
      some (.dict keys values)
partial_fixpoint

/-- repr of a list of regulatory elements: nothing if there is none, core.cpp 51-56 -/
def regsRepr (w : World) (regs : List Nat) : Option (Option Src) :=
  if regs.isEmpty then some none
  else do
    let l ← pyRepr w (.list (regs.map .reg))
    some (some l)
partial_fixpoint

/-- makeLaneletRepr, core.cpp 58-66 -/
def laneletRepr (w : World) (withRegs : Bool) (k : Nat) : Option Src := do
  let left ← pyRepr w (.ls (w.lanelet k).left)
  let right ← pyRepr w (.ls (w.lanelet k).right)
  if withRegs then
    let regs ← regsRepr w (w.lanelet k).regs
    some (makeRepr "Lanelet" (.int (w.lanelet k).id) [some left, some right, reprAttrs (w.lanelet k).attrs, regs])
  else
    some (makeRepr "Lanelet" (.int (w.lanelet k).id) [some left, some right, reprAttrs (w.lanelet k).attrs])
partial_fixpoint

/-- `__repr__` of a ConstLanelet, core.cpp 1032-1036; its bounds are of the class ConstLineString3d, core.cpp 843-847 -/
def constLaneletRepr (w : World) (k : Nat) : Option Src := do
  let regs ← regsRepr w (w.lanelet k).regs
  some (makeRepr "ConstLanelet" (.int (w.lanelet k).id) [some (lsSrc "ConstLineString3d" (w.lanelet k).left),
    some (lsSrc "ConstLineString3d" (w.lanelet k).right), reprAttrs (w.lanelet k).attrs, regs])
partial_fixpoint

/-- makeAreaRepr, core.cpp 68-76 -/
def areaRepr (w : World) (withRegs : Bool) (k : Nat) : Option Src := do
  let outer ← pyRepr w (.list ((w.area k).outer.map .ls))
  let inner ← pyRepr w (.list ((w.area k).inner.map fun h => .list (h.map .ls)))
  if withRegs then
    let regs ← regsRepr w (w.area k).regs
    some (makeRepr "Area" (.int (w.area k).id) [some outer, some inner, reprAttrs (w.area k).attrs, regs])
  else
    some (makeRepr "Area" (.int (w.area k).id) [some outer, some inner, reprAttrs (w.area k).attrs])
partial_fixpoint

/-- The replacement of the lanelets and areas in a list of parameters by their texts without regulatory elements, core.cpp 86-93 -/
def wrapParam (w : World) (p : Param) : Option Obj :=
  match p with
  | .lanelet (some k) => do
      let t ← laneletRepr w false k
      some (.text t)
  | .area (some k) => do
      let t ← areaRepr w false k
      some (.text t)
  | p => some p.obj
partial_fixpoint

/-- repr of the parameters of a regulatory element, core.cpp 78-96 -/
def paramsRepr (w : World) (params : List (String × List Param)) : Option Src := do
  let values ← params.mapM fun e => do
    let l ← e.2.mapM (fun p => wrapParam w p)
    some (Obj.list l)
  pyRepr w (.dict (params.map (·.1)) values)
partial_fixpoint

end

/-- The Python objects that evaluating an expression gives, of the classes of core.cpp 706-1391. Linestrings and polygons carry the name of their class, of a regulatory
element only its class, id and attributes are kept. -/
inductive Val where
  | int (n : Int)
  | num (q : Rat)
  | str (s : String)
  | none
  | list (l : List Val)
  | dict (keys : List String) (values : List Val)
  | attrs (a : Attrs)
  | point (p : Pt)
  | point2 (p : Pt)
  | ls (cls : String) (l : Ls)
  | lanelet (id : Int) (left right : Ls) (attrs : Attrs) (regs : List Val)
  | area (id : Int) (outer : List Ls) (inner : List (List Ls)) (attrs : Attrs) (regs : List Val)
  | reg (cls : String) (id : Int) (attrs : Attrs)

/-- The conversion to an Id, as for the first parameter in core.cpp 773 -/
def asId : Val → Option Int
  | .int n => some n
  | _ => Option.none

/-- The conversion to a double, which Python also offers for its integers, as for the coordinates in core.cpp 773 -/
def asDouble : Val → Option Rat
  | .int n => some n
  | .num q => some q
  | _ => Option.none

/-- The conversion to a std::string, as in core.cpp 152-156 -/
def asStr : Val → Option String
  | .str s => some s
  | _ => Option.none

/-- `map[key] = value` on the entries of a map, core.cpp 253. The entries stay in the order of their insertion, a std::map would order them
by their keys: this is no difference for entries that come from such a map. -/
def setKey (a : Attrs) (k v : String) : Attrs :=
  if a.any (·.1 == k) then a.map (fun e => if e.1 == k then (k, v) else e) else a ++ [(k, v)]

/-- MapItem<AttributeMap>::init, core.cpp 236-256, and DictToAttributeMapConverter::construct, core.cpp 145-159 -/
def attrsOf (keys : List String) (values : List Val) : Option Attrs := do
  let values ← values.mapM asStr
  some ((keys.zip values).foldl (fun a e => setKey a e.1 e.2) [])

/-- The conversion to an AttributeMap, from one or from a dict; core.cpp 139-144 -/
def asAttrs : Val → Option Attrs
  | .attrs a => some a
  | .dict keys values => attrsOf keys values
  | _ => Option.none

/-- The conversion to a container from a list, converter.h 86-106. Other iterable objects are not modelled. -/
def asList {A : Type} (f : Val → Option A) : Val → Option (List A)
  | .list l => l.mapM f
  | _ => Option.none

/-- The conversion to a Point3d, as for the elements of the list in core.cpp 856 -/
def asPoint : Val → Option Pt
  | .point p => some p
  | _ => Option.none

/-- The conversion to a LineString3d, as for the bounds in core.cpp 1044 -/
def asLs : Val → Option Ls
  | .ls cls l => if cls = "LineString3d" then some l else Option.none
  | _ => Option.none

/-- The conversion to a LineStringOrPolygon3d, core.cpp 699-700 -/
def asLsOrPolygon : Val → Option Ls
  | .ls cls l => if cls = "LineString3d" ∨ cls = "Polygon3d" then some l else Option.none
  | _ => Option.none

/-- The conversion to a RegulatoryElementPtr, core.cpp 1247, 1286, 1318, 1381, 1383 -/
def asReg : Val → Option Val
  | .reg cls i a => some (.reg cls i a)
  | _ => Option.none

/-- The conversion to a Lanelet, as for the elements of the lists in core.cpp 1258 -/
def asLanelet : Val → Option Int
  | .lanelet i _ _ _ _ => some i
  | _ => Option.none

/-- The constructor of Point3d and Point2d from coordinates, core.cpp 742-743 and 773-774: the height and the attributes may be left out.
The other constructors (739-741, 770-772) are not modelled, no printed form uses them. -/
def newPoint (args : List Val) : Option Pt :=
  match args with
  | [i, x, y] => do some ⟨← asId i, ← asDouble x, ← asDouble y, 0, []⟩
  | [i, x, y, z] => do some ⟨← asId i, ← asDouble x, ← asDouble y, ← asDouble z, []⟩
  | [i, x, y, z, a] => do some ⟨← asId i, ← asDouble x, ← asDouble y, ← asDouble z, ← asAttrs a⟩
  | _ => none

/-- The constructors of LineString3d, LineString2d, ConstLineString3d and the polygons from an id, a list of Point3d and attributes;
core.cpp 817-819, 838, 856, 942, 953 -/
def newLs (args : List Val) : Option Ls :=
  match args with
  | [i, pts] => do some ⟨← asId i, ← asList asPoint pts, false, []⟩
  | [i, pts, a] => do some ⟨← asId i, ← asList asPoint pts, false, ← asAttrs a⟩
  | _ => none

/-- The constructor of Lanelet and ConstLanelet, core.cpp 1002-1004 and 1044-1047 -/
def newLanelet (args : List Val) : Option Val :=
  match args with
  | [i, l, r] => do some (.lanelet (← asId i) (← asLs l) (← asLs r) [] [])
  | [i, l, r, a] => do some (.lanelet (← asId i) (← asLs l) (← asLs r) (← asAttrs a) [])
  | [i, l, r, a, regs] => do some (.lanelet (← asId i) (← asLs l) (← asLs r) (← asAttrs a) (← asList asReg regs))
  | _ => none

/-- The constructor of Area, core.cpp 1173-1176 -/
def newArea (args : List Val) : Option Val :=
  match args with
  | [i, o] => do some (.area (← asId i) (← asList asLs o) [] [] [])
  | [i, o, h] => do some (.area (← asId i) (← asList asLs o) (← asList (asList asLs) h) [] [])
  | [i, o, h, a] => do some (.area (← asId i) (← asList asLs o) (← asList (asList asLs) h) (← asAttrs a) [])
  | [i, o, h, a, regs] => do
      some (.area (← asId i) (← asList asLs o) (← asList (asList asLs) h) (← asAttrs a) (← asList asReg regs))
  | _ => none

/-- The constructors of the regulatory elements, core.cpp 1228-1230 (TrafficLight), 1258-1260 (RightOfWay), 1290-1293 (AllWayStop, from
LaneletWithStopLine, which is no value of this model: only the empty list is converted). TrafficSign and SpeedLimit (1336-1340,
1388-1391) want a TrafficSignsWithType, which is no value of this model either, and RegulatoryElement (1210) has no constructor. The last
optional arguments are left out. -/
def newReg (cls : String) (args : List Val) : Option Val :=
  match args with
  | [i, a, x] =>
      if cls = "TrafficLight" then do
        let _ ← asList asLsOrPolygon x
        some (.reg cls (← asId i) (← asAttrs a))
      else if cls = "AllWayStop" then do
        let _ ← asList (fun _ => (Option.none : Option Val)) x
        some (.reg cls (← asId i) (← asAttrs a))
      else none
  | [i, a, x, y] =>
      if cls = "RightOfWay" then do
        let _ ← asList asLanelet x
        let _ ← asList asLanelet y
        some (.reg cls (← asId i) (← asAttrs a))
      else none
  | _ => none

/-- The classes of regulatory elements of the Python module, core.cpp 1206, 1226, 1255, 1288, 1334, 1385 -/
def regClasses : List String := ["RegulatoryElement", "TrafficLight", "RightOfWay", "AllWayStop", "TrafficSign", "SpeedLimit"]

/-- Calling the class of the given name, core.cpp 706-709, 735-743, 766-774, 811-819, 833-838, 851-856, 939-953, 998-1004, 1042-1047,
1171-1176, 1206-1391 -/
def construct (name : String) (args : List Val) : Option Val :=
  if name = "AttributeMap" then
    match args with
    | [.dict keys values] => (attrsOf keys values).map .attrs
    | _ => none
  else if name = "Point3d" then (newPoint args).map .point
  else if name = "Point2d" then (newPoint args).map .point2
  else if name = "LineString3d" ∨ name = "LineString2d" ∨ name = "Polygon3d" ∨ name = "Polygon2d" ∨ name = "ConstLineString3d" then
    (newLs args).map (.ls name)
  else if name = "Lanelet" ∨ name = "ConstLanelet" then newLanelet args
  else if name = "Area" then newArea args
  else if name ∈ regClasses then newReg name args
  else none

mutual
/-- Python's `eval` with the names of the module lanelet2.core, core.cpp 497; `none` stands for an exception -/
def eval : Src → Option Val
  | .int n => some (.int n)
  | .num q => some (.num q)
  | .str s => some (.str s)
  | .none => some .none
  | .list l => do some (.list (← evalAll l))
  | .dict keys values => do some (.dict keys (← evalAll values))
  | .call name args => do construct name (← evalAll args)

/-- The evaluation of the elements of a list or of the arguments of a call, core.cpp 497 -/
def evalAll : List Src → Option (List Val)
  | [] => some []
  | s :: l => do
    let v ← eval s
    let vs ← evalAll l
    some (v :: vs)
end

/-! ### Specification -/

/-- Specification: the attributes are those of a map, every key is there once -/
def MapLike (a : Attrs) : Prop := (a.map (·.1)).Nodup

/-- Specification: the coordinates have at most six significant digits -/
def PtOk (p : Pt) : Prop := (sig6 p.x = p.x ∧ sig6 p.y = p.y ∧ sig6 p.z = p.z) ∧ MapLike p.attrs

/-- Specification: a linestring whose points have at most six significant digits -/
def LsOk (l : Ls) : Prop := (∀ p ∈ l.data, PtOk p) ∧ MapLike l.attrs

/-- Specification: a new linestring with the id, the attributes and the points in the order in which iterating returns them -/
def Ls.again (l : Ls) : Ls := ⟨l.id, if l.inv then l.data.reverse else l.data, false, l.attrs⟩

/-! ### Numbers -/

/-- Numbers of the form `n * 10 ^ k` with an integer `n` of at most six digits are written exactly. -/
theorem sig6_exact (n k : Int) (h : |n| < 10 ^ 6) : sig6 ((n : Rat) * 10 ^ k) = (n : Rat) * 10 ^ k := by
  unfold sig6
  by_cases h0 : n = 0
  · simp [h0]
  have hq : ((n : Rat)) * 10 ^ k ≠ 0 := by
    have : (n : Rat) ≠ 0 := by exact_mod_cast h0
    positivity
  rw [if_neg hq]
  set x : Rat := (n : Rat) * 10 ^ k with hx
  have hlog : Int.log 10 |x| ≤ k + 5 := by
    have hlt : |x| < ((10 : ℕ) : Rat) ^ (k + 6) := by
      rw [hx, abs_mul, abs_of_pos (show (0 : Rat) < 10 ^ k by positivity), show ((10 : ℕ) : Rat) = 10 by norm_num,
        zpow_add₀ (by norm_num : (10 : Rat) ≠ 0), mul_comm]
      have h1 : |(n : Rat)| < (10 : Rat) ^ (6 : ℤ) := by
        have : ((|n| : Int) : Rat) < ((10 ^ 6 : Int) : Rat) := by exact_mod_cast h
        rw [Int.cast_abs] at this
        norm_num at this ⊢
        exact this
      exact mul_lt_mul_of_pos_left h1 (by positivity)
    have := (Int.lt_zpow_iff_log_lt (by norm_num : 1 < 10) (abs_pos.mpr hq)).mp hlt
    omega
  have hint : x / 10 ^ (Int.log 10 |x| - 5) = ((n * 10 ^ (k + 5 - Int.log 10 |x|).toNat : Int) : Rat) := by
    push_cast
    rw [hx, mul_div_assoc, ← zpow_sub₀ (by norm_num : (10 : Rat) ≠ 0), ← hx]
    congr 1
    rw [← zpow_natCast]
    congr 1
    omega
  rw [hint, round_intCast]
  rw [← hint]
  rw [div_mul_cancel₀]
  positivity

/-- The coordinate 1234567 is written as 1.23457e+06. -/
theorem sig6_1234567 : sig6 1234567 = 1234570 := by
  have hl : Int.log 10 |(1234567 : Rat)| = 6 := by
    have h1 : ((10 : ℕ) : Rat) ^ (6 : ℤ) ≤ |(1234567 : Rat)| := by norm_num
    have h2 : |(1234567 : Rat)| < ((10 : ℕ) : Rat) ^ (7 : ℤ) := by norm_num
    have a := (Int.zpow_le_iff_le_log (by norm_num : 1 < 10) (by norm_num : (0 : Rat) < |1234567|)).mp h1
    have b := (Int.lt_zpow_iff_log_lt (by norm_num : 1 < 10) (by norm_num : (0 : Rat) < |1234567|)).mp h2
    omega
  unfold sig6
  rw [if_neg (by norm_num), hl]
  have : round ((1234567 : Rat) / 10 ^ ((6 : ℤ) - 5)) = 123457 := by
    rw [round_eq, Int.floor_eq_iff]
    constructor <;> norm_num
  rw [this]
  norm_num

/-! ### Printing ends -/

theorem mapM_some {A B : Type} (f : A → Option B) (l : List A) (h : ∀ x ∈ l, ∃ y, f x = some y) : ∃ r, l.mapM f = some r := by
  induction l with
  | nil => exact ⟨[], rfl⟩
  | cons a l ih =>
    obtain ⟨y, hy⟩ := h a (by simp)
    obtain ⟨r, hr⟩ := ih fun x hx => h x (by simp [hx])
    exact ⟨y :: r, by simp [List.mapM_cons, hy, hr]⟩

theorem pyRepr_ls (w : World) (l : Ls) : pyRepr w (.ls l) = some (lsSrc "LineString3d" l) := by rw [pyRepr.eq_def]

theorem pyRepr_list (w : World) (l : List Obj) (h : ∀ o ∈ l, ∃ s, pyRepr w o = some s) : ∃ s, pyRepr w (.list l) = some s := by
  obtain ⟨r, hr⟩ := mapM_some _ l h
  exact ⟨.list r, by rw [pyRepr.eq_def]; simp [hr]⟩

theorem laneletRepr_false (w : World) (k : Nat) : ∃ s, laneletRepr w false k = some s := by
  rw [laneletRepr.eq_def]
  simp [pyRepr_ls]

theorem area_bounds (w : World) (k : Nat) : (∃ s, pyRepr w (.list ((w.area k).outer.map .ls)) = some s) ∧
    ∃ s, pyRepr w (.list ((w.area k).inner.map fun h => .list (h.map .ls))) = some s := by
  have ls : ∀ h : List Ls, ∃ s, pyRepr w (.list (h.map .ls)) = some s := by
    intro h
    refine pyRepr_list w _ fun o ho => ?_
    obtain ⟨l, _, rfl⟩ := List.mem_map.mp ho
    exact ⟨_, pyRepr_ls w l⟩
  refine ⟨ls _, pyRepr_list w _ fun o ho => ?_⟩
  obtain ⟨h, _, rfl⟩ := List.mem_map.mp ho
  exact ls h

theorem areaRepr_false (w : World) (k : Nat) : ∃ s, areaRepr w false k = some s := by
  obtain ⟨⟨o, ho⟩, i, hi⟩ := area_bounds w k
  rw [areaRepr.eq_def]
  simp [ho, hi]

theorem wrapParam_some (w : World) (p : Param) : ∃ o s, wrapParam w p = some o ∧ pyRepr w o = some s := by
  rw [wrapParam.eq_def]
  match p with
  | .point p => exact ⟨_, _, rfl, by rw [Param.obj, pyRepr.eq_def]⟩
  | .ls l => exact ⟨_, _, rfl, by rw [Param.obj, pyRepr.eq_def]⟩
  | .polygon l => exact ⟨_, _, rfl, by rw [Param.obj, pyRepr.eq_def]⟩
  | .lanelet none => exact ⟨_, _, rfl, by rw [Param.obj, pyRepr.eq_def]⟩
  | .area none => exact ⟨_, _, rfl, by rw [Param.obj, pyRepr.eq_def]⟩
  | .lanelet (some k) =>
    obtain ⟨s, hs⟩ := laneletRepr_false w k
    exact ⟨.text s, s, by simp [hs], by rw [pyRepr.eq_def]⟩
  | .area (some k) =>
    obtain ⟨s, hs⟩ := areaRepr_false w k
    exact ⟨.text s, s, by simp [hs], by rw [pyRepr.eq_def]⟩

theorem mapM_each {A B : Type} (f : A → Option B) (P : B → Prop) (l : List A) (h : ∀ x ∈ l, ∃ y, f x = some y ∧ P y) :
    ∃ r, l.mapM f = some r ∧ ∀ y ∈ r, P y := by
  induction l with
  | nil => exact ⟨[], rfl, by simp⟩
  | cons a l ih =>
    obtain ⟨y, hy, py⟩ := h a (by simp)
    obtain ⟨r, hr, pr⟩ := ih fun x hx => h x (by simp [hx])
    exact ⟨y :: r, by simp [List.mapM_cons, hy, hr], by simpa [py] using pr⟩

theorem paramsRepr_some (w : World) (params : List (String × List Param)) : ∃ s, paramsRepr w params = some s := by
  rw [paramsRepr.eq_def]
  obtain ⟨values, hv, ev⟩ := mapM_each (fun e : String × List Param => do
      let l ← e.2.mapM (fun p => wrapParam w p)
      some (Obj.list l)) (fun o => ∃ s, pyRepr w o = some s) params (by
    intro e _
    obtain ⟨l, hl, el⟩ := mapM_each (fun p => wrapParam w p) (fun o => ∃ s, pyRepr w o = some s) e.2 (by
      intro p _
      obtain ⟨o, s, h1, h2⟩ := wrapParam_some w p
      exact ⟨o, h1, s, h2⟩)
    exact ⟨.list l, by simp [hl], pyRepr_list w l el⟩)
  obtain ⟨r, hr⟩ := mapM_some (fun x => pyRepr w x) values ev
  refine ⟨.dict (params.map (·.1)) r, ?_⟩
  rw [hv]
  show pyRepr w _ = _
  rw [pyRepr.eq_def]
  simp [hr]

theorem pyRepr_reg (w : World) (k : Nat) : ∃ s, pyRepr w (.reg k) = some s := by
  obtain ⟨s, hs⟩ := paramsRepr_some w (w.reg k).params
  rw [pyRepr.eq_def]
  simp [hs]

theorem regsRepr_some (w : World) (l : List Nat) : ∃ s, regsRepr w l = some s := by
  rw [regsRepr.eq_def]
  by_cases h : l.isEmpty
  · exact ⟨none, by simp [h]⟩
  · obtain ⟨s, hs⟩ := pyRepr_list w (l.map .reg) (by
      intro o ho
      obtain ⟨k, _, rfl⟩ := List.mem_map.mp ho
      exact pyRepr_reg w k)
    exact ⟨some s, by rw [if_neg h]; simp [hs]⟩

theorem laneletRepr_some (w : World) (k : Nat) : ∃ s, laneletRepr w true k = some s := by
  obtain ⟨r, hr⟩ := regsRepr_some w (w.lanelet k).regs
  rw [laneletRepr.eq_def]
  simp [pyRepr_ls, hr]

theorem areaRepr_some (w : World) (k : Nat) : ∃ s, areaRepr w true k = some s := by
  obtain ⟨⟨o, ho⟩, i, hi⟩ := area_bounds w k
  obtain ⟨r, hr⟩ := regsRepr_some w (w.area k).regs
  rw [areaRepr.eq_def]
  simp [ho, hi, hr]

theorem pyRepr_param (w : World) (p : Param) : ∃ s, pyRepr w p.obj = some s := by
  match p with
  | .point p => exact ⟨_, by rw [Param.obj, pyRepr.eq_def]⟩
  | .ls l => exact ⟨_, by rw [Param.obj, pyRepr.eq_def]⟩
  | .polygon l => exact ⟨_, by rw [Param.obj, pyRepr.eq_def]⟩
  | .lanelet none => exact ⟨_, by rw [Param.obj, pyRepr.eq_def]⟩
  | .area none => exact ⟨_, by rw [Param.obj, pyRepr.eq_def]⟩
  | .lanelet (some k) => rw [Param.obj, pyRepr.eq_def]; exact laneletRepr_some w k
  | .area (some k) => rw [Param.obj, pyRepr.eq_def]; exact areaRepr_some w k

/-- Printing ends for every object, however lanelets, areas and regulatory elements refer to each other. -/
theorem repr_ends (w : World) : ∀ o : Obj, ∃ s, pyRepr w o = some s
  | .none => ⟨_, by rw [pyRepr.eq_def]⟩
  | .text s => ⟨_, by rw [pyRepr.eq_def]⟩
  | .point p => ⟨_, by rw [pyRepr.eq_def]⟩
  | .ls l => ⟨_, by rw [pyRepr.eq_def]⟩
  | .polygon l => ⟨_, by rw [pyRepr.eq_def]⟩
  | .lanelet k => by rw [pyRepr.eq_def]; exact laneletRepr_some w k
  | .constLanelet k => by
    obtain ⟨r, hr⟩ := regsRepr_some w (w.lanelet k).regs
    rw [pyRepr.eq_def]
    simp only
    rw [constLaneletRepr.eq_def]
    simp [hr]
  | .area k => by rw [pyRepr.eq_def]; exact areaRepr_some w k
  | .reg k => pyRepr_reg w k
  | .paramMap k => by
    obtain ⟨r, hr⟩ := mapM_some (fun e : String × List Param => pyRepr w (.list (e.2.map Param.obj))) (w.reg k).params (by
      intro e _
      refine pyRepr_list w _ fun o ho => ?_
      obtain ⟨p, _, rfl⟩ := List.mem_map.mp ho
      exact pyRepr_param w p)
    rw [pyRepr.eq_def]
    simp [hr]
  | .list l => pyRepr_list w l fun o _ => repr_ends w o
  | .dict keys values => by
    obtain ⟨r, hr⟩ := mapM_some (fun x => pyRepr w x) values fun o _ => repr_ends w o
    rw [pyRepr.eq_def]
    simp [hr]

/-! ### Evaluating what has been printed -/

theorem evalAll_map {A : Type} (f : A → Src) (g : A → Val) (l : List A) (h : ∀ x ∈ l, eval (f x) = some (g x)) :
    evalAll (l.map f) = some (l.map g) := by
  induction l with
  | nil => rfl
  | cons a l ih =>
    have h1 := h a (by simp)
    have h2 := ih fun x hx => h x (by simp [hx])
    simp [evalAll, h1, h2]

theorem mapM_map {A B : Type} (f : Val → Option B) (g : A → Val) (k : A → B) (l : List A) (h : ∀ x ∈ l, f (g x) = some (k x)) :
    (l.map g).mapM f = some (l.map k) := by
  induction l with
  | nil => rfl
  | cons a l ih =>
    have h1 := h a (by simp)
    have h2 := ih fun x hx => h x (by simp [hx])
    simp [List.mapM_cons, h1, h2]

theorem setKey_new (a : Attrs) (k v : String) (h : k ∉ a.map (·.1)) : setKey a k v = a ++ [(k, v)] := by
  unfold setKey
  rw [if_neg]
  intro hk
  apply h
  obtain ⟨e, he, hek⟩ := List.any_eq_true.mp hk
  exact List.mem_map.mpr ⟨e, he, by simpa using hek⟩

theorem foldl_setKey (l acc : Attrs) (h : ((acc ++ l).map (·.1)).Nodup) :
    l.foldl (fun a e => setKey a e.1 e.2) acc = acc ++ l := by
  induction l generalizing acc with
  | nil => simp
  | cons e l ih =>
    have hn : e.1 ∉ acc.map (·.1) := by
      rw [List.map_append, List.nodup_append] at h
      intro hm
      exact h.2.2 _ hm _ (by simp) rfl
    rw [List.foldl_cons, setKey_new _ _ _ hn, ih]
    · simp
    · simpa using h

theorem attrsOf_again (a : Attrs) (h : MapLike a) : attrsOf (a.map (·.1)) (a.map fun e => .str e.2) = some a := by
  unfold attrsOf
  rw [mapM_map asStr _ (fun e : String × String => e.2) a (fun _ _ => rfl)]
  have hz : (a.map (·.1)).zip (a.map fun e : String × String => e.2) = a := by
    rw [List.zip_map']
    simp
  simp only [Option.bind_eq_bind, Option.bind_some, hz]
  rw [foldl_setKey a [] (by simpa [MapLike] using h)]
  rfl

theorem eval_attrs (a : Attrs) (h : MapLike a) : eval (attrSrc a) = some (.attrs a) := by
  have h1 := evalAll_map (fun e : String × String => Src.str e.2) (fun e => Val.str e.2) a (fun _ _ => rfl)
  simp [attrSrc, makeRepr, dictSrc, eval, evalAll, h1, construct, attrsOf_again a h]

theorem eval_point (p : Pt) (h : PtOk p) : eval (pointSrc p) = some (.point p) := by
  obtain ⟨⟨hx, hy, hz⟩, ha⟩ := h
  unfold pointSrc reprAttrs
  by_cases he : p.attrs = []
  · simp [he, makeRepr, eval, evalAll, construct, newPoint, asId, asDouble, hx, hy, hz]
    cases p
    simp_all
  · have := eval_attrs p.attrs ha
    simp [he, makeRepr, eval, evalAll, construct, newPoint, asId, asDouble, hx, hy, hz, this, asAttrs]

theorem seen_ok (l : Ls) (h : LsOk l) : ∀ p ∈ l.seen, PtOk p := by
  intro p hp
  apply h.1
  unfold Ls.seen at hp
  split at hp <;> simpa using hp

/-- The classes of linestrings and polygons whose constructors take an id, three-dimensional points and attributes -/
theorem eval_ls (cls : String) (hc : cls = "LineString3d" ∨ cls = "Polygon3d" ∨ cls = "ConstLineString3d") (l : Ls) (h : LsOk l) :
    eval (lsSrc cls l) = some (.ls cls l.again) := by
  have h1 := evalAll_map pointSrc Val.point l.seen fun p hp => eval_point p (seen_ok l h p hp)
  have h2 : (l.seen.map Val.point).mapM asPoint = some l.seen := by
    rw [mapM_map asPoint Val.point id l.seen (fun _ _ => rfl)]
    simp
  have hcon : ∀ args, construct cls args = (newLs args).map (.ls cls) := by
    intro args
    rcases hc with rfl | rfl | rfl <;> simp [construct]
  have ha : l.again = ⟨l.id, l.seen, false, l.attrs⟩ := rfl
  unfold lsSrc reprAttrs
  by_cases he : l.attrs = []
  · simp [he, makeRepr, eval, evalAll, h1, hcon, newLs, asId, asList, h2, ha]
  · have := eval_attrs l.attrs h.2
    simp [he, makeRepr, eval, evalAll, h1, hcon, newLs, asId, asList, h2, ha, this, asAttrs]

theorem regsRepr_nil (w : World) : regsRepr w [] = some none := by
  rw [regsRepr.eq_def]
  rfl

/-- The printed form of a lanelet without regulatory elements evaluates to a lanelet with the same id, bounds and attributes. -/
theorem lanelet_again (w : World) (k : Nat) (hr : (w.lanelet k).regs = []) (hl : LsOk (w.lanelet k).left)
    (hr' : LsOk (w.lanelet k).right) (ha : MapLike (w.lanelet k).attrs) :
    ∃ s, pyRepr w (.lanelet k) = some s ∧
      eval s = some (.lanelet (w.lanelet k).id (w.lanelet k).left.again (w.lanelet k).right.again (w.lanelet k).attrs []) := by
  refine ⟨_, by rw [pyRepr.eq_def]; simp only; rw [laneletRepr.eq_def]; simp [pyRepr_ls, hr, regsRepr_nil]; rfl, ?_⟩
  have h1 := eval_ls "LineString3d" (by simp) _ hl
  have h2 := eval_ls "LineString3d" (by simp) _ hr'
  unfold reprAttrs
  by_cases he : (w.lanelet k).attrs = []
  · simp [he, makeRepr, eval, evalAll, h1, h2, construct, newLanelet, asId, asLs]
  · have := eval_attrs _ ha
    simp [he, makeRepr, eval, evalAll, h1, h2, construct, newLanelet, asId, asLs, this, asAttrs]

theorem pyRepr_lss (w : World) (l : List Ls) :
    pyRepr w (.list (l.map .ls)) = some (.list (l.map (lsSrc "LineString3d"))) := by
  have : (l.map Obj.ls).mapM (fun x => pyRepr w x) = some (l.map (lsSrc "LineString3d")) := by
    induction l with
    | nil => rfl
    | cons a l ih => simp [List.mapM_cons, pyRepr_ls, ih]
  rw [pyRepr.eq_def]
  simp [this]

theorem pyRepr_lsss (w : World) (l : List (List Ls)) :
    pyRepr w (.list (l.map fun h => .list (h.map .ls))) = some (.list (l.map fun h => .list (h.map (lsSrc "LineString3d")))) := by
  have : (l.map fun h => Obj.list (h.map .ls)).mapM (fun x => pyRepr w x) =
      some (l.map fun h => .list (h.map (lsSrc "LineString3d"))) := by
    induction l with
    | nil => rfl
    | cons a l ih => simp [List.mapM_cons, pyRepr_lss, ih]
  rw [pyRepr.eq_def]
  simp [this]

theorem eval_lss (l : List Ls) (h : ∀ x ∈ l, LsOk x) : ∃ v, eval (.list (l.map (lsSrc "LineString3d"))) = some v ∧
    asList asLs v = some (l.map Ls.again) := by
  have h1 := evalAll_map (lsSrc "LineString3d") (fun x => Val.ls "LineString3d" x.again) l
    fun x hx => eval_ls "LineString3d" (by simp) x (h x hx)
  refine ⟨_, by simp only [eval, h1]; rfl, ?_⟩
  have := mapM_map asLs (fun x => Val.ls "LineString3d" x.again) Ls.again l (fun _ _ => by simp [asLs])
  simpa [asList] using this

theorem eval_lsss (l : List (List Ls)) (h : ∀ x ∈ l, ∀ y ∈ x, LsOk y) :
    ∃ v, eval (.list (l.map fun h => .list (h.map (lsSrc "LineString3d")))) = some v ∧
      asList (asList asLs) v = some (l.map (List.map Ls.again)) := by
  induction l with
  | nil => exact ⟨.list [], rfl, rfl⟩
  | cons a l ih =>
    obtain ⟨v, hv, cv⟩ := eval_lss a (h a (by simp))
    obtain ⟨vs, hvs, cvs⟩ := ih fun x hx => h x (by simp [hx])
    simp only [eval] at hvs
    cases he : evalAll (l.map fun h => Src.list (h.map (lsSrc "LineString3d"))) with
    | none => simp [he] at hvs
    | some r =>
      have : vs = .list r := by simpa [he] using hvs.symm
      subst this
      refine ⟨.list (v :: r), ?_, ?_⟩
      · simp [eval, evalAll] at hv ⊢
        simp [hv, he]
      · simp only [asList] at cvs ⊢
        simp [List.mapM_cons, cv, cvs]

/-- The printed form of an area without regulatory elements evaluates to an area with the same id, bounds and attributes. -/
theorem area_again (w : World) (k : Nat) (hr : (w.area k).regs = []) (ho : ∀ l ∈ (w.area k).outer, LsOk l)
    (hi : ∀ h ∈ (w.area k).inner, ∀ l ∈ h, LsOk l) (ha : MapLike (w.area k).attrs) :
    ∃ s, pyRepr w (.area k) = some s ∧
      eval s = some (.area (w.area k).id ((w.area k).outer.map Ls.again) ((w.area k).inner.map (List.map Ls.again))
        (w.area k).attrs []) := by
  refine ⟨_, by rw [pyRepr.eq_def]; simp only; rw [areaRepr.eq_def]; simp [pyRepr_lss, pyRepr_lsss, hr, regsRepr_nil]; rfl, ?_⟩
  obtain ⟨v, hv, cv⟩ := eval_lss _ ho
  obtain ⟨v', hv', cv'⟩ := eval_lsss _ hi
  unfold reprAttrs
  by_cases he : (w.area k).attrs = []
  · simp [he, makeRepr, eval, evalAll, construct, newArea, asId] at hv hv' ⊢
    simp [hv, hv', cv, cv']
  · have := eval_attrs _ ha
    simp [he, makeRepr, eval, evalAll, construct, newArea, asId] at hv hv' ⊢
    simp [hv, hv', cv, cv', this, asAttrs]

theorem eval_attrs_some (a : Attrs) : ∃ a', eval (attrSrc a) = some (.attrs a') := by
  have h1 := evalAll_map (fun e : String × String => Src.str e.2) (fun e => Val.str e.2) a (fun _ _ => rfl)
  have h2 := mapM_map asStr (fun e : String × String => Val.str e.2) (fun e => e.2) a (fun _ _ => rfl)
  simp [attrSrc, makeRepr, dictSrc, eval, evalAll, h1, construct, attrsOf, h2]

/-- The printed form of a regulatory element never evaluates: the parameters are written where the constructors expect the attributes. -/
theorem reg_never_counterexample (w : World) (k : Nat) (hc : (w.reg k).cls ∈ regClasses) :
    ∃ s, pyRepr w (.reg k) = some s ∧ eval s = none := by
  obtain ⟨q, hq⟩ := paramsRepr_some w (w.reg k).params
  refine ⟨makeRepr (w.reg k).cls (.int (w.reg k).id) [some q, reprAttrs (w.reg k).attrs], by rw [pyRepr.eq_def]; simp [hq], ?_⟩
  have hcon : ∀ args, construct (w.reg k).cls args = newReg (w.reg k).cls args := by
    intro args
    have : ∀ c ∈ regClasses, construct c args = newReg c args := by
      intro c hc
      simp only [regClasses, List.mem_cons, List.not_mem_nil, or_false] at hc
      rcases hc with rfl | rfl | rfl | rfl | rfl | rfl <;> simp [construct, regClasses]
    exact this _ hc
  unfold reprAttrs makeRepr
  by_cases he : (w.reg k).attrs.isEmpty
  · simp only [he, if_true, eval, evalAll, List.filterMap_cons, List.filterMap_nil, id]
    cases eval q <;> simp [hcon, newReg]
  · obtain ⟨a', ha'⟩ := eval_attrs_some (w.reg k).attrs
    simp only [he, eval, evalAll, List.filterMap_cons, List.filterMap_nil, id]
    cases eval q
    · simp
    · simp [ha', hcon, newReg, asList, evalAll]

theorem evalAll_none (l : List Src) (h : ∃ s ∈ l, eval s = none) : evalAll l = none := by
  induction l with
  | nil => obtain ⟨s, hs, _⟩ := h; simp at hs
  | cons a l ih =>
    obtain ⟨s, hs, es⟩ := h
    rcases List.mem_cons.mp hs with rfl | hs
    · simp [evalAll, es]
    · have := ih ⟨s, hs, es⟩
      simp only [evalAll, this]
      cases eval a <;> rfl

theorem regsRepr_never (w : World) (l : List Nat) (hl : l ≠ []) (hc : ∀ k ∈ l, (w.reg k).cls ∈ regClasses) :
    ∃ s, regsRepr w l = some (some s) ∧ eval s = none := by
  have : ∀ l : List Nat, (∀ k ∈ l, (w.reg k).cls ∈ regClasses) →
      ∃ r, (l.map Obj.reg).mapM (fun x => pyRepr w x) = some r ∧ (l ≠ [] → ∃ s ∈ r, eval s = none) := by
    intro l
    induction l with
    | nil => exact fun _ => ⟨[], rfl, by simp⟩
    | cons a l ih =>
      intro hc
      obtain ⟨s, hs, es⟩ := reg_never_counterexample w a (hc a (by simp))
      obtain ⟨r, hr, _⟩ := ih fun k hk => hc k (by simp [hk])
      exact ⟨s :: r, by simp [List.mapM_cons, hs, hr], fun _ => ⟨s, by simp, es⟩⟩
  obtain ⟨r, hr, hn⟩ := this l hc
  refine ⟨.list r, ?_, by simp [eval, evalAll_none r (hn hl)]⟩
  rw [regsRepr.eq_def, if_neg (by simpa using hl), pyRepr.eq_def]
  simp [hr]

/-- a traffic light as a script writes it: id, attributes and lights in the order of the constructor, core.cpp 1228-1230; Specification. -/
def lightSrc (x : Int × Attrs × List Ls) : Src :=
  .call "TrafficLight" [.int x.1, attrSrc x.2.1, .list (x.2.2.map (lsSrc "LineString3d"))]

theorem eval_lights (regs : List (Int × Attrs × List Ls)) (h : ∀ x ∈ regs, MapLike x.2.1 ∧ ∀ l ∈ x.2.2, LsOk l) :
    ∃ v, eval (.list (regs.map lightSrc)) = some v ∧ asList asReg v = some (regs.map fun x => .reg "TrafficLight" x.1 x.2.1) := by
  have h0 : ∀ x ∈ regs, eval (lightSrc x) = some (.reg "TrafficLight" x.1 x.2.1) := by
    intro x hx
    obtain ⟨ha, hl⟩ := h x hx
    have h1 := evalAll_map (lsSrc "LineString3d") (fun y => Val.ls "LineString3d" y.again) x.2.2
      fun y hy => eval_ls "LineString3d" (by simp) y (hl y hy)
    have h2 := mapM_map asLsOrPolygon (fun y => Val.ls "LineString3d" y.again) Ls.again x.2.2 (fun _ _ => by simp [asLsOrPolygon])
    have h3 := eval_attrs _ ha
    simp [lightSrc, eval, evalAll, h1, h3, construct, regClasses, newReg, asList, h2, asId, asAttrs]
  have h1 := evalAll_map lightSrc (fun x => Val.reg "TrafficLight" x.1 x.2.1) regs h0
  refine ⟨_, by simp only [eval, h1]; rfl, ?_⟩
  have := mapM_map asReg (fun x : Int × Attrs × List Ls => Val.reg "TrafficLight" x.1 x.2.1) (fun x => Val.reg "TrafficLight" x.1 x.2.1) regs
    (fun _ _ => by simp [asReg])
  simpa [asList] using this

/-- Lanelets and areas with regulatory elements can be written in Python: with the arguments in the order of the constructors the
expression gives a lanelet and an area with all of them. So it is the printed form that is wrong in the following. -/
theorem written_with_regs (i : Int) (l r : Ls) (outer : List Ls) (inner : List (List Ls)) (a : Attrs) (regs : List (Int × Attrs × List Ls))
    (hl : LsOk l) (hr : LsOk r) (ho : ∀ x ∈ outer, LsOk x) (hi : ∀ h ∈ inner, ∀ x ∈ h, LsOk x) (ha : MapLike a)
    (h : ∀ x ∈ regs, MapLike x.2.1 ∧ ∀ l ∈ x.2.2, LsOk l) :
    eval (.call "Lanelet" [.int i, lsSrc "LineString3d" l, lsSrc "LineString3d" r, attrSrc a, .list (regs.map lightSrc)]) =
      some (.lanelet i l.again r.again a (regs.map fun x => .reg "TrafficLight" x.1 x.2.1)) ∧
    eval (.call "Area" [.int i, .list (outer.map (lsSrc "LineString3d")), .list (inner.map fun h => .list (h.map (lsSrc "LineString3d"))),
        attrSrc a, .list (regs.map lightSrc)]) =
      some (.area i (outer.map Ls.again) (inner.map (List.map Ls.again)) a (regs.map fun x => .reg "TrafficLight" x.1 x.2.1)) := by
  obtain ⟨v, hv, cv⟩ := eval_lights regs h
  have h1 := eval_ls "LineString3d" (by simp) _ hl
  have h2 := eval_ls "LineString3d" (by simp) _ hr
  have h3 := eval_attrs _ ha
  obtain ⟨u, hu, cu⟩ := eval_lss _ ho
  obtain ⟨u', hu', cu'⟩ := eval_lsss _ hi
  constructor
  · rw [eval.eq_def]
    simp only [evalAll, hv, h1, h2, h3]
    simp [eval, construct, newLanelet, asId, asLs, asAttrs, cv]
  · rw [eval.eq_def]
    simp only [evalAll, hv, h3, hu, hu']
    simp [eval, construct, newArea, asId, asAttrs, cv, cu, cu']

/-- The printed form of a lanelet that has regulatory elements never evaluates. -/
theorem lanelet_regs_counterexample (w : World) (k : Nat) (hr : (w.lanelet k).regs ≠ [])
    (hc : ∀ r ∈ (w.lanelet k).regs, (w.reg r).cls ∈ regClasses) : ∃ s, pyRepr w (.lanelet k) = some s ∧ eval s = none := by
  obtain ⟨q, hq, eq⟩ := regsRepr_never w _ hr hc
  refine ⟨_, by rw [pyRepr.eq_def]; simp only; rw [laneletRepr.eq_def]; simp [pyRepr_ls, hq]; rfl, ?_⟩
  simp only [makeRepr, eval]
  rw [evalAll_none _ ⟨q, by simp, eq⟩]
  rfl

/-- The printed form of a ConstLanelet never evaluates: its bounds are written as ConstLineString3d, the constructor takes LineString3d. -/
theorem constLanelet_counterexample (w : World) (k : Nat) : ∃ s, pyRepr w (.constLanelet k) = some s ∧ eval s = none := by
  obtain ⟨r, hr⟩ := regsRepr_some w (w.lanelet k).regs
  refine ⟨_, by rw [pyRepr.eq_def]; simp only; rw [constLaneletRepr.eq_def]; simp [hr]; rfl, ?_⟩
  have hl : ∀ l v, eval (lsSrc "ConstLineString3d" l) = some v → asLs v = none := by
    intro l v hv
    simp only [lsSrc, makeRepr, eval] at hv
    cases he : evalAll (Src.int l.id :: List.filterMap id [some (Src.list (l.seen.map pointSrc)), reprAttrs l.attrs]) with
    | none => rw [he] at hv; simp at hv
    | some args =>
      rw [he] at hv
      simp [construct] at hv
      obtain ⟨x, _, rfl⟩ := hv
      simp [asLs]
  have key : ∀ rest, eval (.call "ConstLanelet" (.int (w.lanelet k).id :: lsSrc "ConstLineString3d" (w.lanelet k).left :: rest)) = none := by
    intro rest
    simp only [eval, evalAll]
    cases hv : eval (lsSrc "ConstLineString3d" (w.lanelet k).left) with
    | none => simp
    | some v =>
      have := hl _ _ hv
      cases evalAll rest with
      | none => simp
      | some vs =>
        simp only [Option.bind_eq_bind, Option.bind_some, construct]
        simp only [newLanelet]
        match vs with
        | [] => simp
        | [_] => simp [this, asId]
        | [_, _] => simp [this, asId]
        | [_, _, _] => simp [this, asId]
        | _ :: _ :: _ :: _ :: _ => simp
  simp only [makeRepr, List.filterMap_cons, id]
  exact key _

/-- A Point2d with attributes is written without a height, its attributes stand where the constructor expects the height. -/
theorem point2_attributes_counterexample (p : Pt) (h : p.attrs ≠ []) : eval (point2Src p) = none := by
  obtain ⟨a', ha'⟩ := eval_attrs_some p.attrs
  simp [point2Src, reprAttrs, h, makeRepr, eval, evalAll, ha', construct, newPoint, asId, asDouble]

/-- The printed form of a Point2d without attributes gives the point back, but not its height. -/
theorem point2_again (p : Pt) (h : p.attrs = []) (hx : sig6 p.x = p.x) (hy : sig6 p.y = p.y) :
    eval (point2Src p) = some (.point2 { p with z := 0 }) := by
  simp [point2Src, reprAttrs, h, makeRepr, eval, evalAll, construct, newPoint, asId, asDouble, hx, hy]

/-- The printed form of a LineString2d or Polygon2d that has points never evaluates: the points are written as Point2d, the constructors
take Point3d. -/
theorem ls2_counterexample (cls : String) (hc : cls = "LineString2d" ∨ cls = "Polygon2d") (l : Ls) (h : l.data ≠ []) :
    eval (ls2Src cls l) = none := by
  have hs : l.seen ≠ [] := by
    unfold Ls.seen
    split <;> simpa using h
  have hp : ∀ v, eval (.list (l.seen.map point2Src)) = some v → asList asPoint v = none := by
    intro v hv
    match hl : l.seen, hs with
    | p :: rest, _ =>
      rw [hl] at hv
      simp only [List.map_cons, eval, evalAll] at hv
      cases he : eval (point2Src p) with
      | none => simp [he] at hv
      | some x =>
        have hx : asPoint x = none := by
          simp only [point2Src, makeRepr, eval] at he
          cases hargs : evalAll (Src.int p.id :: List.filterMap id [some (Src.num (sig6 p.x)), some (Src.num (sig6 p.y)),
            reprAttrs p.attrs]) with
          | none => rw [hargs] at he; simp at he
          | some args =>
            rw [hargs] at he
            simp [construct] at he
            obtain ⟨y, _, rfl⟩ := he
            rfl
        cases hr : evalAll (rest.map point2Src) with
        | none => simp [he, hr] at hv
        | some r =>
          have : v = .list (x :: r) := by simpa [he, hr] using hv.symm
          subst this
          simp [asList, List.mapM_cons, hx]
  have hcon : ∀ args, construct cls args = (newLs args).map (.ls cls) := by
    intro args
    rcases hc with rfl | rfl <;> simp [construct]
  simp only [ls2Src, makeRepr, List.filterMap_cons, id]
  have key : ∀ rest, eval (.call cls (.int l.id :: .list (l.seen.map point2Src) :: rest)) = none := by
    intro rest
    rw [eval, evalAll, evalAll]
    cases hv : eval (.list (l.seen.map point2Src)) with
    | none => simp
    | some v =>
      have := hp v hv
      cases evalAll rest with
      | none => simp
      | some vs =>
        simp only [eval, Option.bind_eq_bind, Option.bind_some, hcon]
        match vs with
        | [] => simp [newLs, this, asId]
        | [_] => simp [newLs, this, asId]
        | _ :: _ :: _ => simp [newLs]
  exact key _

/-- Coordinates with more than six digits change: the point (1234567, 0, 0) comes back as (1234570, 0, 0). -/
theorem point_digits_counterexample :
    eval (pointSrc ⟨1, 1234567, 0, 0, []⟩) = some (.point ⟨1, 1234570, 0, 0, []⟩) := by
  have h0 : sig6 0 = 0 := by simp [sig6]
  simp [pointSrc, reprAttrs, makeRepr, eval, evalAll, construct, newPoint, asId, asDouble, sig6_1234567, h0]

/-- The printed form of an inverted linestring gives a linestring with the same points in the same order that is not inverted. -/
theorem inverted_counterexample (l : Ls) (h : LsOk l) (hi : l.inv = true) :
    ∃ l' : Ls, eval (lsSrc "LineString3d" l) = some (.ls "LineString3d" l') ∧ l'.seen = l.seen ∧ l'.inv ≠ l.inv :=
  ⟨l.again, eval_ls _ (by simp) l h, rfl, by simp [Ls.again, hi]⟩

/-! ### Examples -/

/-- Example: a linestring of two points -/
def exLs (i : Int) (y : Int) : Ls := ⟨i, [⟨i + 1, 0, y, 0, []⟩, ⟨i + 2, 10, y, 0, [("type", "x")]⟩], false, []⟩

/-- Example: the lanelet 1 is a parameter of the regulatory element that it has, lanelet 0 and the area have none -/
def exWorld : World where
  lanelet k := ⟨k, exLs 10 3, exLs 20 0, [("subtype", "road")], if k = 1 then [0] else []⟩
  area k := ⟨k, [exLs 10 3], [[exLs 20 0]], [], []⟩
  reg k := ⟨"RightOfWay", k, [("yield", [.lanelet (some 1), .lanelet none])], [("subtype", "right_of_way")]⟩

theorem exLs_ok (i y : Int) (hy : |y| < 10 ^ 6) : LsOk (exLs i y) := by
  have h0 : sig6 0 = 0 := by simp [sig6]
  have hn : ∀ n : Int, |n| < 10 ^ 6 → sig6 (n : Rat) = n := fun n hn => by simpa using sig6_exact n 0 hn
  have h10 : sig6 10 = 10 := by simpa using hn 10 (by norm_num)
  refine ⟨fun p hp => ?_, by simp [MapLike, exLs]⟩
  simp only [exLs, List.mem_cons, List.not_mem_nil, or_false] at hp
  rcases hp with rfl | rfl
  · exact ⟨⟨h0, hn y hy, h0⟩, by simp [MapLike]⟩
  · exact ⟨⟨h10, hn y hy, h0⟩, by simp [MapLike]⟩

example : ∃ s, pyRepr exWorld (.lanelet 0) = some s ∧
    eval s = some (.lanelet 0 (exLs 10 3) (exLs 20 0) [("subtype", "road")] []) :=
  lanelet_again exWorld 0 rfl (exLs_ok 10 3 (by norm_num)) (exLs_ok 20 0 (by norm_num)) (by simp [MapLike, exWorld])

example : ∃ s, pyRepr exWorld (.area 7) = some s ∧ eval s = some (.area 7 [exLs 10 3] [[exLs 20 0]] [] []) :=
  area_again exWorld 7 rfl (by intro l hl; simp [exWorld] at hl; subst hl; exact exLs_ok 10 3 (by norm_num))
    (by intro h hh l hl; simp [exWorld] at hh; subst hh; simp at hl; subst hl; exact exLs_ok 20 0 (by norm_num))
    (by simp [MapLike, exWorld])

example : (∃ s, pyRepr exWorld (.lanelet 1) = some s ∧ eval s = none) ∧ ∃ s, pyRepr exWorld (.reg 0) = some s ∧ eval s = none :=
  ⟨lanelet_regs_counterexample exWorld 1 (by simp [exWorld]) (by intro r _; simp [exWorld, regClasses]),
    reg_never_counterexample exWorld 0 (by simp [exWorld, regClasses])⟩

example : eval (.call "Lanelet" [.int 5, lsSrc "LineString3d" (exLs 10 3), lsSrc "LineString3d" (exLs 20 0), attrSrc [],
      .list ([(8, [], [exLs 10 3])].map lightSrc)]) = some (.lanelet 5 (exLs 10 3).again (exLs 20 0).again [] [.reg "TrafficLight" 8 []]) :=
  (written_with_regs 5 (exLs 10 3) (exLs 20 0) [] [] [] [(8, [], [exLs 10 3])] (exLs_ok 10 3 (by norm_num)) (exLs_ok 20 0 (by norm_num))
    (by simp) (by simp) (by simp [MapLike])
    (by intro x hx; simp at hx; subst hx; exact ⟨by simp [MapLike], by intro l hl; simp at hl; subst hl; exact exLs_ok 10 3 (by norm_num)⟩)).1

end Verif.Py.Repr
