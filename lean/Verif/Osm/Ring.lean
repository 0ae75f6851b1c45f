/-!
Model of FromFileLoader::assembleBoundary, lanelet2_io/src/OsmHandlerLoad.cpp 332-377: the rings of a multipolygon.

front() and back() of a linestring without points are undefined behaviour: `none`.
-/
namespace Verif.Osm

/-- a handle of a linestring: its id, the ids of its points and the direction; OsmHandlerLoad.cpp 332-377 -/
structure Line where
  id : Int
  pts : List Int
  inv : Bool
  deriving DecidableEq

/-- the points as seen through the handle, LineString.h -/
def Line.view (l : Line) : List Int := if l.inv then l.pts.reverse else l.pts

/-- LineString.h 487. -/
def Line.front (l : Line) : Option Int := l.view.head?
/-- LineString.h 490. -/
def Line.back (l : Line) : Option Int := l.view.getLast?
/-- LineString.h 546. -/
def Line.invert (l : Line) : Line := { l with inv := !l.inv }

/-- OsmHandlerLoad.cpp 347-353, 366-371: what is reported. -/
inductive RingError where
  | incomplete (line : Int)
  | invalid
  deriving DecidableEq

/-- the finished rings, the current ring, the remaining linestrings (here in the order they are taken from; the code keeps
them reversed and takes from the back) and the reported errors; OsmHandlerLoad.cpp 332-377 -/
structure RingState where
  rings : List (List Line)
  cur : List Line
  rest : List Line
  errs : List RingError

/-- reverse, OsmHandlerLoad.cpp 31-36 -/
def reverseRing (r : List Line) : List Line := (r.map Line.invert).reverse

/-- the std::find_if in OsmHandlerLoad.cpp 343-345, as an index -/
def findNext (lastId : Int) : List Line → Option (Option Nat)
  | [] => some none
  | x :: xs => do
    let b ← x.back
    let f ← x.front
    if b = lastId ∨ f = lastId then some (some 0)
    else return (← findNext lastId xs).map (· + 1)

/-- OsmHandlerLoad.cpp 361-373 -/
def closeRing (valid : List Line → Bool) (s : RingState) : Option RingState := do
  let last ← s.cur.getLast?
  let first ← s.cur.head?
  let e ← last.back
  let b ← first.front
  if e = b then
    if valid s.cur then return { s with rings := s.rings ++ [s.cur], cur := [] }
    else if valid (reverseRing s.cur) then return { s with rings := s.rings ++ [reverseRing s.cur], cur := [] }
    else return { s with cur := [], errs := s.errs ++ [.invalid] }
  else return s

/-- one pass of the loop, OsmHandlerLoad.cpp 337-373, for the remaining linestrings `l :: rest` -/
def ringStep (valid : List Line → Bool) (s : RingState) (l : Line) (rest : List Line) : Option RingState :=
  if s.cur.isEmpty then closeRing valid { s with cur := [l], rest := rest }
  else do
    let last ← s.cur.getLast?
    let lastId ← last.back
    match ← findNext lastId (l :: rest) with
    | none => return { s with cur := [], errs := s.errs ++ [.incomplete last.id] }
    | some i =>
      let x ← (l :: rest)[i]?
      let b ← x.back
      closeRing valid { s with cur := s.cur ++ [if b = lastId then x.invert else x], rest := (l :: rest).eraseIdx i }

/-- the loop, OsmHandlerLoad.cpp 336-374 -/
def ringLoop (valid : List Line → Bool) (s : RingState) : Option RingState :=
  match s.rest with
  | [] => some s
  | l :: rest => do
    let s ← ringStep valid s l rest
    ringLoop valid s
partial_fixpoint

/-- assembleBoundary: the rings and the errors. `valid` is boost::geometry::is_valid on the concatenated points. The last ring
is dropped (OsmHandlerLoad.cpp 375). -/
def assembleBoundary (valid : List Line → Bool) (ls : List Line) : Option (List (List Line) × List RingError) := do
  let s ← ringLoop valid ⟨[], [], ls, []⟩
  return (s.rings, s.errs)

end Verif.Osm
