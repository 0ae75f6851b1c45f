import Verif.Bin.Model

/-!
Specification of the binary format: what can be saved, and when two maps are the same.
-/
namespace Verif.Bin

/-- Specification: there is a point at the address. -/
def IsPt (H : List Obj) (a : Addr) : Prop := ∃ id attrs x y z, H[a]? = some (.pt id attrs x y z)
/-- Specification: there is a linestring or polygon at the address. -/
def IsLs (H : List Obj) (a : Addr) : Prop := ∃ id attrs points, H[a]? = some (.ls id attrs points)
/-- Specification: there is a lanelet at the address. -/
def IsLl (H : List Obj) (a : Addr) : Prop := ∃ d, H[a]? = some (.ll d)
/-- Specification: there is an area at the address. -/
def IsAr (H : List Obj) (a : Addr) : Prop := ∃ d, H[a]? = some (.ar d)
/-- Specification: there is a regulatory element at the address. -/
def IsRe (H : List Obj) (a : Addr) : Prop := ∃ d, H[a]? = some (.re d)

/-! ### objects of a map -/

/-- Specification: the address a parameter refers to. -/
def Param.pointers : Param → List Addr
  | .pt a => [a]
  | .ls h => [h.2]
  | .poly h => [h.2]
  | .ll _ a => a.toList
  | .ar a => a.toList

/-- the pointers of an object -/
def Obj.pointers : Obj → List Addr
  | .pt .. => []
  | .ls _ _ points => points
  | .ll d => [d.left.2, d.right.2] ++ d.regs.flatMap Option.toList ++ d.center.toList.map (·.2)
  | .ar d => d.inner.flatten.map (·.2) ++ d.outer.map (·.2) ++ d.regs.flatMap Option.toList
  | .re d => d.params.flatMap fun x => x.2.flatMap Param.pointers

/-- the pointers of a map -/
def Layers.pointers (m : Layers) : List Addr := m.pts ++ m.lss.map (·.2) ++ m.polys.map (·.2) ++ m.ars ++ m.lls.map (·.2) ++ m.res

/-- an object that the map refers to, directly or indirectly -/
inductive Reach (H : List Obj) (m : Layers) : Addr → Prop
  | root {a : Addr} (h : a ∈ m.pointers) : Reach H m a
  | step {a b : Addr} {o : Obj} (h : Reach H m a) (ho : H[a]? = some o) (hb : b ∈ o.pointers) : Reach H m b

/-! ### valid maps -/

/-- a parameter points to an object of its kind and is not expired -/
def Param.Typed (H : List Obj) : Param → Prop
  | .pt a => IsPt H a
  | .ls h => IsLs H h.2
  | .poly h => IsLs H h.2
  | .ll _ a => ∃ b, a = some b ∧ IsLl H b
  | .ar a => ∃ b, a = some b ∧ IsAr H b

/-- the pointers of an object are not null and point to objects of their kind -/
def Obj.Typed (H : List Obj) : Obj → Prop
  | .pt .. => True
  | .ls _ _ points => ∀ a ∈ points, IsPt H a
  | .ll d => IsLs H d.left.2 ∧ IsLs H d.right.2 ∧ (∀ r ∈ d.regs, ∃ a, r = some a ∧ IsRe H a) ∧ ∀ c, d.center = some c → IsLs H c.2
  | .ar d => (∀ l ∈ d.inner, ∀ h ∈ l, IsLs H h.2) ∧ (∀ h ∈ d.outer, IsLs H h.2) ∧ ∀ r ∈ d.regs, ∃ a, r = some a ∧ IsRe H a
  | .re d => ∀ x ∈ d.params, ∀ p ∈ x.2, p.Typed H

/-- the id of an object -/
def Obj.id : Obj → Int
  | .pt id .. => id
  | .ls id .. => id
  | .ll d => d.id
  | .ar d => d.id
  | .re d => d.id

/-! ### the same map at other addresses -/

/-- Specification: a parameter after moving the objects. -/
def Param.rename (φ : Addr → Addr) : Param → Param
  | .pt a => .pt (φ a)
  | .ls h => .ls (h.1, φ h.2)
  | .poly h => .poly (h.1, φ h.2)
  | .ll inv a => .ll inv (a.map φ)
  | .ar a => .ar (a.map φ)

/-- Specification: a regulatory element after moving the objects. -/
def ReD.rename (φ : Addr → Addr) (d : ReD) : ReD := { d with params := d.params.map fun x => (x.1, x.2.map (Param.rename φ)) }

/-- the object with other pointers; everything else is kept -/
def Obj.rename (φ : Addr → Addr) : Obj → Obj
  | .pt id attrs x y z => .pt id attrs x y z
  | .ls id attrs points => .ls id attrs (points.map φ)
  | .ll d => .ll { d with left := (d.left.1, φ d.left.2), right := (d.right.1, φ d.right.2), regs := d.regs.map (Option.map φ), center := d.center.map fun h => (h.1, φ h.2) }
  | .ar d => .ar { d with inner := d.inner.map (List.map fun h => (h.1, φ h.2)), outer := d.outer.map fun h => (h.1, φ h.2), regs := d.regs.map (Option.map φ) }
  | .re d => .re (d.rename φ)

/-- Specification: the layers after moving the objects. -/
def Layers.rename (φ : Addr → Addr) (m : Layers) : Layers where
  pts := m.pts.map φ
  lss := m.lss.map fun h => (h.1, φ h.2)
  polys := m.polys.map fun h => (h.1, φ h.2)
  ars := m.ars.map φ
  lls := m.lls.map fun h => (h.1, φ h.2)
  res := m.res.map φ

/-- A map that can be saved. `accepts` tells whether the factory creates a regulatory element with this name and data. -/
structure Valid (accepts : String → ReD → Bool) (H : List Obj) (m : Layers) : Prop where
  /-- no pointer is null, expired or points to a wrong object -/
  typed : ∀ a, Reach H m a → ∃ o, H[a]? = some o ∧ o.Typed H
  pts : ∀ a ∈ m.pts, IsPt H a
  lss : ∀ h ∈ m.lss, IsLs H h.2
  polys : ∀ h ∈ m.polys, IsLs H h.2
  ars : ∀ a ∈ m.ars, IsAr H a
  lls : ∀ h ∈ m.lls, IsLl H h.2
  res : ∀ a ∈ m.res, IsRe H a
  /-- the ids in a layer are different -/
  ids : ∀ l ∈ [m.pts, m.lss.map (·.2), m.polys.map (·.2), m.ars, m.lls.map (·.2), m.res], (l.map fun a => (H[a]?).map Obj.id).Nodup
  /-- different regulatory elements have different ids -/
  unique : ∀ r r' d d', Reach H m r → Reach H m r' → H[r]? = some (.re d) → H[r']? = some (.re d') → d.id = d'.id → r = r'
  /-- the subtype is the name of a class that accepts the data -/
  known : ∀ r d, Reach H m r → H[r]? = some (.re d) → ∃ name, lookup "subtype" d.attrs = some name ∧ name ≠ "" ∧ ∀ φ, accepts name (d.rename φ) = true
  /-- lanelets and areas that regulatory elements refer to are part of the map -/
  owned : ∀ r d x p, Reach H m r → H[r]? = some (.re d) → x ∈ d.params → p ∈ x.2 →
    (∀ inv a, p = .ll inv (some a) → a ∈ m.lls.map (·.2)) ∧ ∀ a, p = .ar (some a) → a ∈ m.ars

end Verif.Bin
