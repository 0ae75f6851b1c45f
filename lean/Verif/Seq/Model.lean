import Verif.Compound.Model
import Verif.Lanelet.Model

/-!
Model of LaneletSequence: lanelet2_core/include/lanelet2_core/primitives/LaneletSequence.h, lanelet2_core/src/LaneletSequence.cpp,
and of the parts of CompoundLineString.h and CompoundPolygon.h that combine linestrings of lanelets.

Linestrings and lanelets are those of `Verif.LineStr` and `Verif.Lanelet`. The data object of a sequence is shared between
handles: `seqs`. Compound linestrings are immutable lists of linestring handles with a flag; their points are those shown by
`Verif.Compound`.
-/
namespace Verif.Seq
open Verif.LineStr (LS)
open Verif.Lanelet (World LH Center)

variable {P : Type}

/-- a member of a compound centerline: the centerline of a lanelet, as it is or inverted (Lanelet.h 193-195) -/
structure CPart (P : Type) where
  center : Center P
  inv : Bool

/-- a compound linestring, CompoundLineString.h 55, 254-255; `α`: the kind of its members -/
structure Comp (α : Type) where
  parts : List α
  inv : Bool
  deriving DecidableEq

/-- CompoundLineString.h 277, 298 -/
def Comp.invert {α : Type} (c : Comp α) : Comp α := { c with inv := !c.inv }

/-- the points of the members, for the iterators of `Verif.Compound`; LaneletSequence.h 22-70 -/
def shown (w : World P) (c : Comp LS) : Compound.CLS P := ⟨c.parts.map (Lanelet.points w), c.inv⟩

/-- The points of a member of the centerline, LaneletSequence.cpp 13-14. -/
def partPoints (w : World P) (p : CPart P) : List P :=
  let pts := match p.center with
    | .given ls => Lanelet.points w ls
    | .made pts => pts
  if p.inv then pts.reverse else pts

/-- The points of the centerline, LaneletSequence.cpp 13-14. -/
def shownC (w : World P) (c : Comp (CPart P)) : Compound.CLS P := ⟨c.parts.map (partPoints w), c.inv⟩

/-- lineStrings, CompoundLineString.h 235-239 -/
def Comp.lineStrings (c : Comp LS) : List LS := if c.inv then (c.parts.map LineStr.invert).reverse else c.parts

/-- CompoundLineString3d and CompoundPolygon3d from compound linestrings, CompoundLineString.h 293-294,
CompoundPolygon.h 45-46 -/
def concat (cs : List (Comp LS)) : Comp LS := ⟨cs.flatMap Comp.lineStrings, false⟩

/-- LaneletSequenceData, LaneletSequence.h 64-69 -/
structure SeqData (P : Type) where
  lanelets : List LH
  left : Comp LS
  right : Comp LS
  center : Option (Comp (CPart P))
  polygon : Option (Comp LS)

/-- the lanelets and the data objects of the sequences; LaneletSequence.h 22-70 -/
structure State (P : Type) where
  w : World P
  seqs : Nat → SeqData P

/-- Assignment to the data of one sequence. -/
def State.set (s : State P) (d : Nat) (x : SeqData P) : State P :=
  { s with seqs := fun d' => if d' = d then x else s.seqs d' }

/-- a LaneletSequence, LaneletSequence.h 241-242 -/
structure SH where
  data : Nat
  inv : Bool
  deriving DecidableEq

/-- constructor of LaneletSequenceData, LaneletSequence.cpp 5-8 -/
def mkData (w : World P) (ls : List LH) : SeqData P :=
  ⟨ls, ⟨ls.map (Lanelet.leftBound w), false⟩, ⟨ls.map (Lanelet.rightBound w), false⟩, none, none⟩

/-- constructor from lanelets, LaneletSequence.h 100-101; `d` is the new data object -/
def mk (s : State P) (d : Nat) (ls : List LH) : SH × State P := (⟨d, false⟩, s.set d (mkData s.w ls))

/-- invert, LaneletSequence.h 134 -/
def invert (h : SH) : SH := ⟨h.data, !h.inv⟩

/-- leftBound3d, LaneletSequence.h 140-142 -/
def leftBound (s : State P) (h : SH) : Comp LS :=
  if h.inv then (s.seqs h.data).right.invert else (s.seqs h.data).left

/-- rightBound3d, LaneletSequence.h 149-151 -/
def rightBound (s : State P) (h : SH) : Comp LS :=
  if h.inv then (s.seqs h.data).left.invert else (s.seqs h.data).right

/-- lanelets, LaneletSequence.h 206, with utils::invert (Utilities.h 168-173), which reverses the list -/
def lanelets (s : State P) (h : SH) : List LH :=
  if h.inv then (s.seqs h.data).lanelets.reverse else (s.seqs h.data).lanelets

/-- operator[] and begin()/end(), LaneletSequence.h 55-61, 209-218 -/
def at? (s : State P) (h : SH) (i : Nat) : Option LH :=
  if h.inv then (s.seqs h.data).lanelets.reverse[i]? else (s.seqs h.data).lanelets[i]?

/-- constructor from sequences, LaneletSequence.h 107-108 -/
def mkConcat (s : State P) (d : Nat) (hs : List SH) : SH × State P := mk s d (hs.flatMap (lanelets s))

/-- ConstLanelet::centerline as a handle, Lanelet.h 193-195 and Lanelet.cpp 247-255: also fills the cache of the lanelet -/
def centerOf (compute : List P → List P → List P) (w : World P) (h : LH) : CPart P × World P :=
  match (w.lls h.data).center with
  | some c => (⟨c, h.inv⟩, w)
  | none =>
    let pts := compute (Lanelet.points w (w.lls h.data).left) (Lanelet.points w (w.lls h.data).right)
    (⟨.made pts, h.inv⟩, w.setLL h.data { w.lls h.data with center := some (.made pts) })

/-- LaneletSequenceData::centerline, LaneletSequence.cpp 10-18: the loop over the lanelets -/
def centersOf (compute : List P → List P → List P) : World P → List LH → List (CPart P) × World P
  | w, [] => ([], w)
  | w, h :: hs =>
    let (c, w) := centerOf compute w h
    let (cs, w) := centersOf compute w hs
    (c :: cs, w)

/-- LaneletSequenceData::centerline, LaneletSequence.cpp 10-18 -/
def centerlineD (compute : List P → List P → List P) (s : State P) (d : Nat) : Comp (CPart P) × State P :=
  match (s.seqs d).center with
  | some c => (c, s)
  | none =>
    let (cs, w) := centersOf compute s.w (s.seqs d).lanelets
    (⟨cs, false⟩, ({ s with w := w } : State P).set d { s.seqs d with center := some ⟨cs, false⟩ })

/-- centerline3d, LaneletSequence.h 181-183 -/
def centerline (compute : List P → List P → List P) (s : State P) (h : SH) : Comp (CPart P) × State P :=
  let (c, s) := centerlineD compute s h.data
  (if h.inv then c.invert else c, s)

/-- LaneletSequenceData::polygon, LaneletSequence.cpp 20-27; polygon3d, LaneletSequence.h 194 -/
def polygon (s : State P) (h : SH) : Comp LS × State P :=
  match (s.seqs h.data).polygon with
  | some p => (p, s)
  | none =>
    let p := concat [(s.seqs h.data).left, (s.seqs h.data).right.invert]
    (p, s.set h.data { s.seqs h.data with polygon := some p })

/-- regulatoryElements, LaneletSequence.cpp 29-31 -/
def regulatoryElements (s : State P) (h : SH) : List Nat := (lanelets s h).flatMap fun l => (s.w.lls l.data).regs

/-- resetCache, LaneletSequence.h 238; `d` is the new data object -/
def resetCache (s : State P) (d : Nat) (h : SH) : SH × State P :=
  (⟨d, h.inv⟩, s.set d (mkData s.w (s.seqs h.data).lanelets))

/-- operator==, LaneletSequence.h 259-261 -/
def equal (s : State P) (a b : SH) : Bool := lanelets s a == lanelets s b

/-- CompoundPolygon::numSegments, CompoundPolygon.h 30, 58, 90, 118 -/
def polyNumSegments [DecidableEq P] (c : Compound.CLS P) : Option Nat := do return max 1 (← c.size)

end Verif.Seq
