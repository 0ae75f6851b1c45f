import Verif.Route.Query
import Verif.Route.Term

/-!
Property C30: concrete routes and violations.

The loops of the model are evaluated with a bounded number of steps; `…_sound` says that a result found that way is the result of the model.
-/
set_option linter.unusedSectionVars false
namespace Verif.Route
open Verif.Graph Verif.Graph.RelationType
variable {P K : Type} [DecidableEq P]

/-! ### evaluation -/

/-- For evaluation: the function without F with a bound on the number of steps. -/
def sideF (next : Nat → Option Nat) (f : Nat → Bool) : Nat → Option Nat → Option Bool
  | 0, _ => none
  | _ + 1, none => some false
  | k + 1, some v => if f v then some true else sideF next f k (next v)

theorem sideF_sound {next : Nat → Option Nat} {f : Nat → Bool} : ∀ {k : Nat} {cur : Option Nat} {b : Bool}, sideF next f k cur = some b →
    sideLoop next f cur = some b := by
  intro k
  induction k with
  | zero => intro cur b h; cases h
  | succ k ih =>
    intro cur b h
    cases cur with
    | none => rw [sideLoop]; exact h
    | some v =>
      rw [sideLoop]
      unfold sideF at h
      split at h
      · rename_i hf; rw [if_pos hf]; exact h
      · rename_i hf; rw [if_neg hf]; exact ih h

/-- For evaluation: the function without F with a bound on the number of steps. -/
def anySidewayF (k : Nat) (E : List (BaseEdge K)) (f : Nat → Bool) (v : Nat) : Option Bool := do
  if ← sideF (getNext Left E) f k (some v) then return true
  else sideF (getNext Right E) f k (getNext Right E v)

theorem anySidewayF_sound {k : Nat} {E : List (BaseEdge K)} {f : Nat → Bool} {v : Nat} {b : Bool} (h : anySidewayF k E f v = some b) :
    anySideway E f v = some b := by
  unfold anySidewayF at h
  simp only [bind, Option.bind_eq_some_iff] at h
  obtain ⟨a, h1, h2⟩ := h
  unfold anySideway
  simp only [bind, Option.bind_eq_some_iff]
  refine ⟨a, sideF_sound h1, ?_⟩
  cases a with
  | true => exact h2
  | false => exact sideF_sound h2

/-- For evaluation: the function without F with a bound on the number of steps. -/
def dfsF (out : Nat → Option (List Nat)) : Nat → List (Nat × List Nat) → List Nat → Bool → Option (List (List Nat))
  | 0, _, _, _ => none
  | _ + 1, [], _, _ => some []
  | k + 1, (v, []) :: st, seen, forward => do
    let rest ← dfsF out k st seen false
    return if forward then (((v, []) :: st).map Prod.fst).reverse :: rest else rest
  | k + 1, (v, w :: ws) :: st, seen, forward =>
    if w ∈ seen then dfsF out k ((v, ws) :: st) seen forward
    else do
      let o ← out w
      dfsF out k ((w, o) :: (v, ws) :: st) (w :: seen) true

theorem dfsF_sound {outF out : Nat → Option (List Nat)} (ho : ∀ w o, outF w = some o → out w = some o) : ∀ {k : Nat} {st : List (Nat × List Nat)}
    {seen : List Nat} {fwd : Bool} {l : List (List Nat)}, dfsF outF k st seen fwd = some l → dfsLoop out st seen fwd = some l := by
  intro k
  induction k with
  | zero => intro st seen fwd l h; cases h
  | succ k ih =>
    intro st seen fwd l h
    cases st with
    | nil => rw [dfsLoop]; exact h
    | cons s st =>
      obtain ⟨v, ws⟩ := s
      cases ws with
      | nil =>
        rw [dfsLoop]
        unfold dfsF at h
        simp only [bind, Option.bind_eq_some_iff] at h ⊢
        obtain ⟨rest, h1, h2⟩ := h
        exact ⟨rest, ih h1, h2⟩
      | cons w ws =>
        rw [dfsLoop]
        unfold dfsF at h
        split at h
        · rename_i hw; rw [if_pos hw]; exact ih h
        · rename_i hw
          rw [if_neg hw]
          simp only [bind, Option.bind_eq_some_iff] at h ⊢
          obtain ⟨o, h1, h2⟩ := h
          exact ⟨o, ho w o h1, ih h2⟩

/-- For evaluation: the function without F with a bound on the number of steps. -/
def pathsF (k : Nat) (out : Nat → Option (List Nat)) (start : Nat) : Option (List (List Nat)) := do
  let o ← out start
  dfsF out k [(start, o)] [start] true

theorem pathsF_sound {outF out : Nat → Option (List Nat)} (ho : ∀ w o, outF w = some o → out w = some o) {k v : Nat} {l : List (List Nat)}
    (h : pathsF k outF v = some l) : paths out v = some l := by
  unfold pathsF at h
  unfold paths
  simp only [bind, Option.bind_eq_some_iff] at h ⊢
  obtain ⟨o, h1, h2⟩ := h
  exact ⟨o, ho v o h1, dfsF_sound ho h2⟩

theorem mapM_mono {α β : Type} {F G : α → Option β} (h : ∀ a b, F a = some b → G a = some b) : ∀ {l : List α} {r : List β},
    l.mapM F = some r → l.mapM G = some r := by
  intro l
  induction l with
  | nil => intro r hr; exact hr
  | cons a l ih =>
    intro r hr
    rw [List.mapM_cons] at hr ⊢
    simp only [bind, Option.bind_eq_some_iff] at hr ⊢
    obtain ⟨b, h1, r', h2, h3⟩ := hr
    exact ⟨b, h a b h1, r', ih h2, h3⟩

theorem filterM_mono {α : Type} {F G : α → Option Bool} (h : ∀ a b, F a = some b → G a = some b) {l r : List α}
    (hr : l.filterM F = some r) : l.filterM G = some r := by
  have key : ∀ (l acc r : List α), l.filterAuxM F acc = some r → l.filterAuxM G acc = some r := by
    intro l
    induction l with
    | nil => intro acc r hr; exact hr
    | cons a l ih =>
      intro acc r hr
      unfold List.filterAuxM at hr ⊢
      simp only [bind, Option.bind_eq_some_iff] at hr ⊢
      obtain ⟨b, h1, h2⟩ := hr
      exact ⟨b, h a b h1, ih _ _ h2⟩
  unfold List.filterM at hr ⊢
  simp only [bind, Option.bind_eq_some_iff] at hr ⊢
  obtain ⟨b, h1, h2⟩ := hr
  exact ⟨b, key _ _ _ h1, h2⟩

/-- For evaluation: the function without F with a bound on the number of steps. -/
def conflictsWithPathF (k : Nat) (E : List (BaseEdge K)) (R conflictWith : List Nat) (start finish v : Nat) : Option (List Nat) :=
  (((outE E v).filter noConflicting).map (·.dst)).filterM fun v =>
    anySidewayF k E (fun u => decide (v ∈ R) && (u == start || u == finish ||
      (outE E u).any fun e => hasRel (Conflicting ||| AdjacentLeft ||| AdjacentRight) e && decide (e.dst ∈ conflictWith))) v

/-- For evaluation: the function without F with a bound on the number of steps. -/
def alwaysF (k : Nat) (E : List (BaseEdge K)) (R path : List Nat) : Option Bool :=
  match path.head?, path.getLast? with
  | some a, some b =>
    match ((inE E a).filter drivable).find? (fun e => decide (e.src ∈ R)), ((outE E b).filter drivable).find? (fun e => decide (e.dst ∈ R)) with
    | some f, some t => do return (← pathsF k (conflictsWithPathF k E R path f.src t.dst) f.src).any fun p => decide (t.dst ∈ p)
    | _, _ => some false
  | _, _ => some false

theorem alwaysF_sound {k : Nat} {E : List (BaseEdge K)} {R path : List Nat} {b : Bool} (h : alwaysF k E R path = some b) :
    alwaysConflicts E R path = some b := by
  unfold alwaysF at h
  unfold alwaysConflicts
  cases ha : path.head? with
  | none => rw [ha] at h; exact h
  | some a =>
    cases hl : path.getLast? with
    | none => rw [ha, hl] at h; exact h
    | some z =>
      rw [ha, hl] at h
      simp only at h ⊢
      cases hf : ((inE E a).filter drivable).find? (fun e => decide (e.src ∈ R)) with
      | none => rw [hf] at h; exact h
      | some f =>
        cases ht : ((outE E z).filter drivable).find? (fun e => decide (e.dst ∈ R)) with
        | none => rw [hf, ht] at h; exact h
        | some t =>
          rw [hf, ht] at h
          unfold hasPathFromTo
          simp only [bind, Option.bind_eq_some_iff] at h ⊢
          obtain ⟨l, h1, h2⟩ := h
          exact ⟨l, pathsF_sound (fun w o hw => filterM_mono (fun a b hab => anySidewayF_sound hab) hw) h1, h2⟩

/-- For evaluation: the function without F with a bound on the number of steps. -/
def permittedF (k : Nat) (E : List (BaseEdge K)) (R path : List Nat) : Option (List Nat) := do
  if neverConflicts E R path then return path
  else if ← alwaysF k E R path then return path
  else return []

theorem permittedF_sound {k : Nat} {E : List (BaseEdge K)} {R path l : List Nat} (h : permittedF k E R path = some l) :
    permitted E R path = some l := by
  unfold permittedF at h
  unfold permitted
  by_cases hn : neverConflicts E R path = true
  · rw [if_pos hn] at h ⊢; exact h
  · rw [if_neg hn] at h ⊢
    simp only [bind, Option.bind_eq_some_iff] at h ⊢
    obtain ⟨b, h1, h2⟩ := h
    exact ⟨b, alwaysF_sound h1, h2⟩

/-- For evaluation: the function without F with a bound on the number of steps. -/
def outOfRouteF (k : Nat) (E : List (BaseEdge K)) (R new : List Nat) : Option (Except Fault (List Nat)) := do
  let new := new.filter (conflictingSection E R)
  let starts := new.filter fun v => (inE E v).any fun e => drivable e && decide (e.src ∈ R)
  let marked ← starts.mapM fun v => do
    let ps ← pathsF k (fun u => some (conflictOrAdjacent E R u)) v
    return (← ps.mapM (permittedF k E R)).flatten
  let marked := marked.flatten
  if marked.any fun v => decide (v ∉ new) then return .error .ub
  else return .ok (new.filter fun v => decide (v ∉ marked))

theorem outOfRouteF_sound {k : Nat} {E : List (BaseEdge K)} {R new : List Nat} {x : Except Fault (List Nat)} (h : outOfRouteF k E R new = some x) :
    outOfRoute E R new = some x := by
  unfold outOfRouteF at h
  unfold outOfRoute
  simp only [bind, Option.bind_eq_some_iff] at h ⊢
  obtain ⟨m, h1, h2⟩ := h
  refine ⟨m, mapM_mono ?_ h1, h2⟩
  intro v r hr
  simp only [Option.bind_eq_some_iff] at hr ⊢
  obtain ⟨ps, h3, r', h4, h5⟩ := hr
  exact ⟨ps, pathsF_sound (fun _ _ h => h) h3, r', mapM_mono (fun _ _ => permittedF_sound) h4, h5⟩

/-- For evaluation: the function without F with a bound on the number of steps. -/
def bfsF (out : Nat → List Nat) : Nat → List Nat → List Nat → Option (List Nat)
  | 0, _, _ => none
  | _ + 1, [], _ => some []
  | k + 1, u :: q, seen => do
    let s := discover (out u) q seen
    return u :: (← bfsF out k s.1 s.2)

theorem bfsF_sound {out : Nat → List Nat} : ∀ {k : Nat} {q seen l : List Nat}, bfsF out k q seen = some l → bfsLoop out q seen = some l := by
  intro k
  induction k with
  | zero => intro q seen l h; cases h
  | succ k ih =>
    intro q seen l h
    cases q with
    | nil => rw [bfsLoop]; exact h
    | cons u q =>
      rw [bfsLoop]
      unfold bfsF at h
      simp only [bind, Option.bind_eq_some_iff] at h ⊢
      obtain ⟨r, h1, h2⟩ := h
      exact ⟨r, ih h1, h2⟩

/-- For evaluation: the function without F with a bound on the number of steps. -/
def pruneF (ins : Nat → List (BaseEdge K)) (n llt : Nat) : Nat → Visited → Option Visited
  | 0, _ => none
  | k + 1, vis =>
    let s := vis.prunePass ins n llt
    if s.1 then pruneF ins n llt k s.2 else some s.2

theorem pruneF_sound {ins : Nat → List (BaseEdge K)} {n llt : Nat} : ∀ {k : Nat} {vis r : Visited}, pruneF ins n llt k vis = some r →
    vis.prune ins n llt = some r := by
  intro k
  induction k with
  | zero => intro vis r h; cases h
  | succ k ih =>
    intro vis r h
    rw [Visited.prune]
    unfold pruneF at h
    simp only at h ⊢
    split at h
    · rename_i hp; rw [if_pos hp]; exact ih h
    · rename_i hp; rw [if_neg hp]; exact h

/-- For evaluation: the function without F with a bound on the number of steps. -/
def addAdjacentF (k : Nat) (E : List (BaseEdge K)) (n start finish : Nat) (within R : List Nat) : Option (Except Fault (Bool × List Nat)) := do
  let out := fun v => (outE E v).filter fun e => drivableWithin within e && nextToRoute E R e.dst
  let ins := fun v => (inE E v).filter fun e => drivableWithin within e && nextToRoute E R e.src
  let order ← bfsF (fun v => (out v).map (·.dst)) k [start] [start]
  let vis := order.foldl (Visited.visit R out) fun _ => none
  let vis ← pruneF ins n finish k vis
  match ← outOfRouteF k E R (vis.valid n) with
  | .error f => return .error f
  | .ok rem =>
    let vis := rem.foldl (Visited.remove ins) vis
    let new := (vis.valid n).filter fun v => decide (v ∉ R)
    return .ok (!new.isEmpty, R ++ new)

theorem addAdjacentF_sound {k : Nat} {E : List (BaseEdge K)} {n start finish : Nat} {within R : List Nat} {x : Except Fault (Bool × List Nat)}
    (h : addAdjacentF k E n start finish within R = some x) : addAdjacent E n start finish within R = some x := by
  unfold addAdjacentF at h
  unfold addAdjacent
  simp only [bind, Option.bind_eq_some_iff] at h ⊢
  obtain ⟨order, h1, vis, h2, o, h3, h4⟩ := h
  exact ⟨order, bfsF_sound h1, vis, pruneF_sound h2, o, outOfRouteF_sound h3, h4⟩

/-- For evaluation: the function without F with a bound on the number of steps. -/
def extendF (k : Nat) (E : List (BaseEdge K)) (n start finish : Nat) (within : List Nat) : Nat → List Nat → Option (Except Fault (List Nat))
  | 0, _ => none
  | j + 1, R => do
    match ← addAdjacentF k E n start finish within R with
    | .error f => return .error f
    | .ok (progress, R) => if progress then extendF k E n start finish within j R else return .ok R

theorem extendF_sound {k : Nat} {E : List (BaseEdge K)} {n start finish : Nat} {within : List Nat} : ∀ {j : Nat} {R : List Nat}
    {x : Except Fault (List Nat)}, extendF k E n start finish within j R = some x → extend E n start finish within R = some x := by
  intro j
  induction j with
  | zero => intro R x h; cases h
  | succ j ih =>
    intro R x h
    rw [extend]
    unfold extendF at h
    simp only [bind, Option.bind_eq_some_iff] at h ⊢
    obtain ⟨o, h1, h2⟩ := h
    refine ⟨o, addAdjacentF_sound h1, ?_⟩
    cases o with
    | error f => exact h2
    | ok s =>
      obtain ⟨b, R'⟩ := s
      cases b with
      | false => exact h2
      | true => exact ih h2

/-- For evaluation: the function without F with a bound on the number of steps. -/
def lastLaneletsF (k : Nat) (E : List (BaseEdge K)) (path : List Nat) : Option (List Nat) :=
  match path.head?, path.getLast? with
  | some a, some b => if a = b then some [] else bfsF (fun v => ((outE E v).filter (hasRel (Left ||| Right))).map (·.dst)) k [b] [b]
  | _, _ => some []

/-- For evaluation: the function without F with a bound on the number of steps. -/
def finalizeF (k : Nat) (t : CostTests K) (g : RGraph P K) (E : List (BaseEdge K)) (R : List Nat) (start : Nat) (path : List P) :
    Option (Except Fault (Option (Route P K))) := do
  let order ← bfsF (fun v => (routeOut E R v).map (·.dst)) k [start] [start]
  return do
    let s ← order.foldlM (Visitor.vertex t g E (routeOut E R) (routeIn E R)) { route := { graph := .empty 1 } }
    match path.getLast? with
    | none => .error .ub
    | some last =>
      match s.route.graph.getVertex last with
      | none => return none
      | some _ => return some { graph := s.route, shortestPath := path }

/-- `buildRoute` with at most `k` steps in every loop -/
def buildRouteF (k : Nat) (t : CostTests K) (g : RGraph P K) (path : List P) (lc : Bool) (costId : Nat) :
    Option (Except Fault (Option (Route P K))) :=
  match path.mapM g.getVertex with
  | none => some (.error .ub)
  | some vs =>
    let E := original g lc costId
    match vs.head?, vs.getLast? with
    | some start, some finish => do
      let within ← lastLaneletsF k E vs
      match ← extendF k E g.vertices.length start finish within k vs.dedup with
      | .error f => return .error f
      | .ok R => finalizeF k t g E R start path
    | _, _ => some (.error .ub)

theorem buildRouteF_sound {k : Nat} {t : CostTests K} {g : RGraph P K} {path : List P} {lc : Bool} {costId : Nat}
    {x : Except Fault (Option (Route P K))} (h : buildRouteF k t g path lc costId = some x) : buildRoute t g path lc costId = some x := by
  unfold buildRouteF at h
  unfold buildRoute
  cases hm : path.mapM g.getVertex with
  | none => rw [hm] at h; exact h
  | some vs =>
    rw [hm] at h
    simp only at h ⊢
    cases hh : vs.head? with
    | none => rw [hh] at h; exact h
    | some a =>
      cases hl : vs.getLast? with
      | none => rw [hh, hl] at h; exact h
      | some z =>
        rw [hh, hl] at h
        simp only [bind, Option.bind_eq_some_iff] at h ⊢
        obtain ⟨within, h1, o, h2, h3⟩ := h
        refine ⟨within, ?_, o, extendF_sound h2, ?_⟩
        · unfold lastLaneletsF at h1
          unfold lastLanelets
          rw [hh, hl] at h1 ⊢
          simp only at h1 ⊢
          by_cases hab : a = z
          · rw [if_pos hab] at h1 ⊢; exact h1
          · rw [if_neg hab] at h1 ⊢; exact bfsF_sound h1
        · cases o with
          | error f => exact h3
          | ok R =>
            simp only at h3 ⊢
            unfold finalizeF at h3
            unfold finalize
            simp only [bind, Option.bind_eq_some_iff] at h3 ⊢
            obtain ⟨order, h4, h5⟩ := h3
            exact ⟨order, bfsF_sound h4, h5⟩

/-- what holds for the route that is found with at most `k` steps -/
def routeHas (k : Nat) (t : CostTests K) (g : RGraph P K) (path : List P) (lc : Bool) (costId : Nat) (p : Route P K → Bool) : Bool :=
  match buildRouteF k t g path lc costId with
  | some (.ok (some r)) => p r
  | _ => false

theorem routeHas_sound {k : Nat} {t : CostTests K} {g : RGraph P K} {path : List P} {lc : Bool} {costId : Nat} {p : Route P K → Bool}
    (h : routeHas k t g path lc costId p = true) : ∃ r, IsRoute t g path lc costId r ∧ p r = true := by
  unfold routeHas at h
  split at h
  · rename_i r hr
    exact ⟨r, buildRouteF_sound hr, h⟩
  · cases h

/-! ### concrete routes -/

/-- two lanes of two lanelets each: 1 → 2 is left of 3 → 4, and 5 → 6 is a road in the opposite direction that conflicts with 2 -/
def exTwoLanes : RGraph Nat Nat :=
  ⟨1, [1, 2, 3, 4, 5, 6],
    [⟨0, 1, ⟨1, 0, Successor⟩⟩, ⟨2, 3, ⟨1, 0, Successor⟩⟩, ⟨4, 5, ⟨1, 0, Successor⟩⟩,
     ⟨0, 2, ⟨1, 0, Right⟩⟩, ⟨2, 0, ⟨1, 0, Left⟩⟩, ⟨1, 3, ⟨1, 0, Right⟩⟩, ⟨3, 1, ⟨1, 0, Left⟩⟩,
     ⟨1, 4, ⟨1, 0, Conflicting⟩⟩, ⟨4, 1, ⟨1, 0, Conflicting⟩⟩]⟩

theorem exTwoLanes_built : Built natTests exTwoLanes :=
  wf_built ⟨by decide, by decide, by decide, by decide, by decide, by decide⟩

/-- Case: the route along 1 → 2 contains both lanes, but not the road that conflicts, which is known as conflicting. -/
theorem exTwoLanes_route : ∃ r, IsRoute natTests exTwoLanes [1, 2] true 0 r ∧ r.members = [1, 2, 3, 4] ∧ r.laneOf 1 = some 1000 ∧
    r.laneOf 2 = some 1000 ∧ r.laneOf 3 = some 1001 ∧ r.laneOf 4 = some 1001 ∧ r.following 3 = [4] ∧ r.conflictingInMap 2 = [5] ∧ r.numLanes = 2 := by
  obtain ⟨r, h1, h2⟩ := routeHas_sound (k := 40) (t := natTests) (g := exTwoLanes) (path := [1, 2]) (lc := true) (costId := 0)
    (p := fun r => decide (r.members = [1, 2, 3, 4] ∧ r.laneOf 1 = some 1000 ∧ r.laneOf 2 = some 1000 ∧ r.laneOf 3 = some 1001 ∧
      r.laneOf 4 = some 1001 ∧ r.following 3 = [4] ∧ r.conflictingInMap 2 = [5] ∧ r.numLanes = 2)) (by decide +kernel)
  exact ⟨r, h1, by simpa using h2⟩

/-- Case: the lane of 4 consists of 3 and 4, and the remaining lane of 4 of 4 only. -/
example : ∃ r, IsRoute natTests exTwoLanes [1, 2] true 0 r ∧ r.fullLane 4 = some [3, 4] ∧ r.remainingLane 4 = some [4] ∧ r.remainingLane 5 = some [] := by
  obtain ⟨r, h1, h2⟩ := routeHas_sound (k := 40) (t := natTests) (g := exTwoLanes) (path := [1, 2]) (lc := true) (costId := 0)
    (p := fun r => decide (r.members = [1, 2, 3, 4] ∧ r.following 3 = [4] ∧ r.previous 4 = [3] ∧ r.following 4 = [] ∧ r.previous 3 = [])) (by decide +kernel)
  simp only [decide_eq_true_eq] at h2
  obtain ⟨m, f3, p4, f4, p3⟩ := h2
  have hb := route_built exTwoLanes_built h1
  obtain ⟨l, k1, k2, k3, k4, k5, k6, -⟩ := fullLane_spec hb (p := 4) (by rw [m]; decide)
  obtain ⟨l', m1, m2, m3, -, -⟩ := remainingLane_spec hb (p := 4) (by rw [m]; decide)
  refine ⟨r, h1, ?_, ?_, (not_in_route (r := r) (p := 5) (by rw [m]; decide)).2.1⟩
  · have h34 : r.LaneGoesOn 3 4 := ⟨f3, p4⟩
    have h3 : 3 ∈ l := (k6 3 4 h34).mpr k2
    have hhead : ∀ a l', l = a :: l' → l' ≠ [] → a = 3 := by
      rintro a (_ | ⟨b, l'⟩) rfl hne
      · cases hne rfl
      · have hab := (List.isChain_cons_cons.mp k4).1
        rcases List.mem_cons.mp h3 with h | h
        · exact h.symm
        · obtain ⟨i, hi, hi3⟩ := List.mem_iff_getElem.mp h
          have := List.isChain_iff_getElem.mp k4 i (by simpa using hi)
          simp only [List.getElem_cons_succ, hi3] at this
          rw [Route.LaneGoesOn, p3] at this
          cases this.2
    match l, k2, h3, k3, k4, hhead with
    | [], h, _, _, _, _ => cases h
    | [a], h, h', _, _, _ =>
      simp only [List.mem_singleton] at h h'
      omega
    | [a, b], h, h', _, _, hh =>
      have := hh a [b] rfl (by simp)
      subst this
      simp only [List.mem_cons, List.not_mem_nil, or_false] at h
      rw [k1]
      simp; omega
    | a :: b :: c :: l, h, _, _, hc, hh =>
      exfalso
      have := hh a (b :: c :: l) rfl (by simp)
      subst this
      have h1 := (List.isChain_cons_cons.mp hc).1
      have h2 := (List.isChain_cons_cons.mp (List.isChain_cons_cons.mp hc).2).1
      have := h1.1
      rw [f3] at this
      cases this
      have := h2.1
      rw [f4] at this
      cases this
  · cases l' with
    | nil => exact m1
    | cons b l' =>
      have := (List.isChain_cons_cons.mp m3).1.1
      rw [f4] at this
      cases this

/-- Case: the remaining path on a road and on a circle. -/
example (gr : RouteGraph Nat Nat) : (⟨gr, [1, 2, 3]⟩ : Route Nat Nat).remainingShortestPath 2 = [2, 3] ∧
    (⟨gr, [1, 2, 3, 1]⟩ : Route Nat Nat).remainingShortestPath 2 = [2, 3, 1] := by
  refine ⟨(remainingShortestPath_suffix (r := ⟨gr, [1, 2, 3]⟩) (by simp) 2).2 [1] [3] rfl (by decide),
    (remainingShortestPath_circle (r := ⟨gr, [1, 2, 3, 1]⟩) (x := 1) (m := [2, 3]) rfl 2).2 [1] [3] rfl (by decide)⟩

/-! ### violations -/

/-- 1 → 2 and 1 → 3 → 4 → 2, where 2 and 3 conflict -/
def exBypass : RGraph Nat Nat :=
  ⟨1, [1, 2, 3, 4],
    [⟨0, 1, ⟨1, 0, Successor⟩⟩, ⟨0, 2, ⟨1, 0, Successor⟩⟩, ⟨2, 3, ⟨1, 0, Successor⟩⟩, ⟨3, 1, ⟨1, 0, Successor⟩⟩,
     ⟨2, 1, ⟨1, 0, Conflicting⟩⟩, ⟨1, 2, ⟨1, 0, Conflicting⟩⟩]⟩

theorem exBypass_built : Built natTests exBypass :=
  wf_built ⟨by decide, by decide, by decide, by decide, by decide, by decide⟩

/-- C30 is violated for lanes: the documentation promises a new lane id only where a lane splits or joins. Here the route consists of 1 and 2 only,
2 is the only lanelet that follows 1, 1 the only one before 2, and yet they have different lane ids: 4, which leads to 2 as well, was put on the
route, but is not reachable, because 3 was taken off the route. -/
theorem lane_counterexample : ∃ r, IsRoute natTests exBypass [1, 2] true 0 r ∧ r.members = [1, 2] ∧ r.LaneGoesOn 1 2 ∧
    r.laneOf 1 ≠ r.laneOf 2 := by
  obtain ⟨r, h1, h2⟩ := routeHas_sound (k := 40) (t := natTests) (g := exBypass) (path := [1, 2]) (lc := true) (costId := 0)
    (p := fun r => decide (r.members = [1, 2] ∧ (r.following 1 = [2] ∧ r.previous 2 = [1]) ∧ r.laneOf 1 ≠ r.laneOf 2)) (by decide +kernel)
  exact ⟨r, h1, by simpa [Route.LaneGoesOn] using h2⟩

/-- 1 → 2 → 3 → 4; 5 is adjacent to 2 with 1 → 5 → 3; from 5 another lanelet 6 branches off that is adjacent to 3 and ends there -/
def exBranch : RGraph Nat Nat :=
  ⟨1, [1, 2, 3, 4, 5, 6],
    [⟨0, 1, ⟨1, 0, Successor⟩⟩, ⟨1, 2, ⟨1, 0, Successor⟩⟩, ⟨2, 3, ⟨1, 0, Successor⟩⟩, ⟨0, 4, ⟨1, 0, Successor⟩⟩, ⟨4, 2, ⟨1, 0, Successor⟩⟩,
     ⟨4, 5, ⟨1, 0, Successor⟩⟩, ⟨1, 4, ⟨1, 0, AdjacentLeft⟩⟩, ⟨4, 1, ⟨1, 0, AdjacentRight⟩⟩, ⟨2, 5, ⟨1, 0, AdjacentLeft⟩⟩,
     ⟨5, 2, ⟨1, 0, AdjacentRight⟩⟩]⟩

theorem exBranch_built : Built natTests exBranch :=
  wf_built ⟨by decide, by decide, by decide, by decide, by decide, by decide⟩

/-- C30 is violated: for a valid path there is no route, but undefined behaviour. The construction writes behind the end of a `vector<bool>`
because a permitted path leaves the list of new lanelets. -/
theorem build_counterexample : buildRoute natTests exBranch [1, 2, 3, 4] true 0 = some (.error .ub) := by
  have h : (match buildRouteF 40 natTests exBranch [1, 2, 3, 4] true 0 with
    | some (.error .ub) => true
    | _ => false) = true := by decide +kernel
  split at h
  · rename_i h1; exact buildRouteF_sound h1
  · cases h

theorem exBranch_connected : Connected exBranch true 0 [1, 2, 3, 4] := by
  refine .cons_cons ⟨Successor, by decide, 1, ⟨0, 1, ⟨1, 0, Successor⟩⟩, by decide, rfl, rfl, rfl, rfl, rfl⟩ ?_
  refine .cons_cons ⟨Successor, by decide, 1, ⟨1, 2, ⟨1, 0, Successor⟩⟩, by decide, rfl, rfl, rfl, rfl, rfl⟩ ?_
  exact .cons_cons ⟨Successor, by decide, 1, ⟨2, 3, ⟨1, 0, Successor⟩⟩, by decide, rfl, rfl, rfl, rfl, rfl⟩ (.singleton _)

/-- 1 → 2 → 3 → 4 → 5; 6 and 7 are adjacent to 2 and 3, 8 conflicts with 4; 1 → 6, 6 → 8, 6 → 7, 7 → 8, 8 → 5 -/
def exDetour : RGraph Nat Nat :=
  ⟨1, [1, 2, 3, 4, 5, 6, 7, 8],
    [⟨0, 1, ⟨1, 0, Successor⟩⟩, ⟨1, 2, ⟨1, 0, Successor⟩⟩, ⟨2, 3, ⟨1, 0, Successor⟩⟩, ⟨3, 4, ⟨1, 0, Successor⟩⟩, ⟨0, 5, ⟨1, 0, Successor⟩⟩,
     ⟨5, 7, ⟨1, 0, Successor⟩⟩, ⟨5, 6, ⟨1, 0, Successor⟩⟩, ⟨6, 7, ⟨1, 0, Successor⟩⟩, ⟨7, 4, ⟨1, 0, Successor⟩⟩,
     ⟨1, 5, ⟨1, 0, AdjacentLeft⟩⟩, ⟨5, 1, ⟨1, 0, AdjacentRight⟩⟩, ⟨2, 6, ⟨1, 0, AdjacentLeft⟩⟩, ⟨6, 2, ⟨1, 0, AdjacentRight⟩⟩,
     ⟨3, 7, ⟨1, 0, Conflicting⟩⟩, ⟨7, 3, ⟨1, 0, Conflicting⟩⟩]⟩

theorem exDetour_built : Built natTests exDetour :=
  wf_built ⟨by decide, by decide, by decide, by decide, by decide, by decide⟩

/-- C58 is violated: 6 is on the route, but the route does not go on from it, neither along the road nor by a lane change. The lanelets that it
led to were taken off the route after it was found that it leads somewhere. -/
theorem dead_end_counterexample : ∃ r, IsRoute natTests exDetour [1, 2, 3, 4, 5] true 0 r ∧ 6 ∈ r.members ∧ r.following 6 = [] ∧
    ∀ q rel c, HasEdge r.graph.graph 6 q 0 rel c → rel = AdjacentRight := by
  obtain ⟨r, h1, h2⟩ := routeHas_sound (k := 60) (t := natTests) (g := exDetour) (path := [1, 2, 3, 4, 5]) (lc := true) (costId := 0)
    (p := fun r => decide (r.members = [1, 2, 6, 3, 4, 5] ∧ r.following 6 = [] ∧
      ∀ e ∈ r.graph.graph.edges, e.src = 2 → e.info.relation = AdjacentRight)) (by decide +kernel)
  simp only [decide_eq_true_eq] at h2
  obtain ⟨h3, h4, h5⟩ := h2
  refine ⟨r, h1, by rw [h3]; decide, h4, ?_⟩
  rintro q rel c ⟨e, e1, e2, -, -, e3, -⟩
  rw [← e3]
  apply h5 e e1
  have hm := (route_members exDetour_built h1).1
  have : r.graph.graph.vertices[2]? = some 6 := by
    unfold Route.members at h3
    rw [h3]; rfl
  exact vertex_inj hm e2 this

/-- 1 → 2, a lane 3 that ends right of 1, and right of it a lane 4 that ends as well and conflicts with 2 -/
def exMerge : RGraph Nat Nat :=
  ⟨1, [1, 2, 3, 4],
    [⟨0, 1, ⟨1, 0, Successor⟩⟩, ⟨0, 2, ⟨1, 0, Right⟩⟩, ⟨2, 0, ⟨1, 0, Left⟩⟩, ⟨2, 3, ⟨1, 0, Right⟩⟩, ⟨3, 2, ⟨1, 0, Left⟩⟩,
     ⟨3, 1, ⟨1, 0, Conflicting⟩⟩, ⟨1, 3, ⟨1, 0, Conflicting⟩⟩]⟩

theorem exMerge_built : Built natTests exMerge :=
  wf_built ⟨by decide, by decide, by decide, by decide, by decide, by decide⟩

/-- C58 is violated: 3 is next to the shortest path and leads to the goal by a lane change to 1, but is not on the route. Lane changes to
lanelets that are not on the route are not counted, but subtracted when these lanelets are pruned. -/
theorem skipped_lane_counterexample : (∃ c, HasEdge exMerge 3 1 0 Left c) ∧ (∃ c, HasEdge exMerge 1 3 0 Right c) ∧
    ∃ r, IsRoute natTests exMerge [1, 2] true 0 r ∧ 3 ∉ r.members := by
  refine ⟨⟨1, ⟨2, 0, ⟨1, 0, Left⟩⟩, by decide, rfl, rfl, rfl, rfl, rfl⟩, ⟨1, ⟨0, 2, ⟨1, 0, Right⟩⟩, by decide, rfl, rfl, rfl, rfl, rfl⟩, ?_⟩
  obtain ⟨r, h1, h2⟩ := routeHas_sound (k := 60) (t := natTests) (g := exMerge) (path := [1, 2]) (lc := true) (costId := 0)
    (p := fun r => decide (3 ∉ r.members)) (by decide +kernel)
  exact ⟨r, h1, by simpa using h2⟩

/-! ### from the shortest path to the route -/

section
variable {t : CostTests K} {g : RGraph P K}

/-- C30: for a path of elements of the graph the construction of a route has no fault other than that of `build_counterexample`. -/
theorem route_fault (hb : Built t g) {path : List P} (hne : path ≠ []) (hm : ∀ p ∈ path, p ∈ g.vertices) {lc : Bool} {costId : Nat} {f : Fault}
    (h : buildRoute t g path lc costId = some (.error f)) :
    f = .ub ∧ ∃ n start finish within R, addAdjacent (original g lc costId) n start finish within R = some (.error .ub) := by
  have wf := built_wf hb
  have hub : ∀ {E : List (BaseEdge K)} {n start finish : Nat} {within R : List Nat} {f : Fault},
      addAdjacent E n start finish within R = some (.error f) → f = .ub := by
    intro E n start finish within R f h
    unfold addAdjacent at h
    simp only [bind, Option.bind_eq_some_iff] at h
    obtain ⟨order, -, vis, -, o, ho, h⟩ := h
    cases o with
    | ok rem => cases h
    | error f' =>
      have h := Except.error.inj (Option.some.inj h)
      subst h
      unfold outOfRoute at ho
      simp only [bind, Option.bind_eq_some_iff] at ho
      obtain ⟨m, -, ho⟩ := ho
      split at ho
      · exact (Except.error.inj (Option.some.inj ho)).symm
      · cases ho
  unfold buildRoute at h
  obtain ⟨vs, hvs⟩ := mapM_some (f := g.getVertex) (l := path) fun p hp => getVertex_isSome (hm p hp)
  rw [hvs] at h
  simp only at h
  have hpath := mapM_getVertex hvs
  have hvb : ∀ v ∈ vs, v < g.vertices.length := by
    intro v hv
    have h1 : g.vertices[v]? ∈ vs.map (g.vertices[·]?) := List.mem_map_of_mem (f := (g.vertices[·]?)) hv
    rw [hpath] at h1
    obtain ⟨p, -, hp⟩ := List.mem_map.mp h1
    exact (List.getElem?_eq_some_iff.mp hp.symm).1
  have hlen : vs.length = path.length := by simpa using congrArg List.length hpath
  have hvne : vs ≠ [] := by
    rintro rfl
    exact hne (List.length_eq_zero_iff.mp hlen.symm)
  cases hh : vs.head? with
  | none => exact absurd (List.head?_eq_none_iff.mp hh) hvne
  | some start =>
    cases hl : vs.getLast? with
    | none => exact absurd (List.getLast?_eq_none_iff.mp hl) hvne
    | some fin =>
      rw [hh, hl] at h
      simp only [bind, Option.bind_eq_some_iff] at h
      obtain ⟨within, -, o, ho, h⟩ := h
      cases o with
      | error f' =>
        have h := Except.error.inj (Option.some.inj h)
        subst h
        have key := extend.partial_correctness (original g lc costId) g.vertices.length start fin within
          (fun _ o => ∀ f, o = .error f → f = .ub ∧
            ∃ R, addAdjacent (original g lc costId) g.vertices.length start fin within R = some (.error .ub)) (by
            intro rec ih R o h f hf
            simp only [bind, Option.bind_eq_some_iff] at h
            obtain ⟨a, ha, h⟩ := h
            cases a with
            | error f' =>
              have h := Option.some.inj h
              rw [← h] at hf
              have hf := Except.error.inj hf
              subst hf
              have := hub ha
              subst this
              exact ⟨rfl, R, ha⟩
            | ok s =>
              obtain ⟨b, R1⟩ := s
              cases b with
              | true => exact ih R1 o h f hf
              | false =>
                have h := Option.some.inj h
                rw [← h] at hf
                cases hf) _ _ ho f' rfl
        obtain ⟨h1, R, h2⟩ := key
        exact ⟨h1, _, _, _, _, R, h2⟩
      | ok R =>
        exfalso
        simp only [finalize, bind, Option.bind_eq_some_iff, pure, Option.some.injEq] at h
        obtain ⟨order, hord, h⟩ := h
        have hE : EOk t g (routeOut (original g lc costId) R) (original g lc costId) :=
          ⟨fun e he => wf.dst e (original_sub he), fun e he => wf.fin e (original_sub he), fun e he => wf.nonneg e (original_sub he),
            fun u e he => ⟨(mem_routeOut.mp he).1, (mem_routeOut.mp he).2.1⟩⟩
        obtain ⟨s, hs, -⟩ := construct_inv (ins := routeIn (original g lc costId) R) wf.nodup hE (hvb _ (List.mem_of_head? hh)) hord
        rw [hs] at h
        simp only [Except.bind] at h
        cases hp : path.getLast? with
        | none => exact hne (List.getLast?_eq_none_iff.mp hp)
        | some last =>
          rw [hp] at h
          simp only at h
          split at h <;> cases h

theorem ppath_connected {zero : K} {add : K → K → K} {costId : Nat} {lc : Bool} {ps : List P} {c : K}
    (h : PPath g zero add costId (followRelations lc) ps c) : Connected g lc costId ps := by
  induction h with
  | single p => exact .singleton _
  | snoc _ hl hr he ih =>
    unfold Connected at ih ⊢
    rw [List.isChain_append]
    refine ⟨ih, .singleton _, ?_⟩
    intro x hx y hy
    rw [hl] at hx
    cases hx
    simp only [List.head?_cons, Option.mem_def, Option.some.injEq] at hy
    subst hy
    exact ⟨_, hr, _, he⟩

theorem ppath_members {zero : K} {add : K → K → K} {costId : Nat} {rels : List RelationType} {ps : List P} {c : K}
    (h : PPath g zero add costId rels ps c) : ps ≠ [] ∧ (∀ p, ps.head? = some p → p ∈ g.vertices) → ∀ p ∈ ps, p ∈ g.vertices := by
  induction h with
  | single p =>
    rintro ⟨-, h⟩ q hq
    simp only [List.mem_singleton] at hq
    subst hq
    exact h q rfl
  | @snoc ps c w p q r _ hl hr he ih =>
    rintro ⟨-, h⟩ x hx
    have hne : ps ≠ [] := by rintro rfl; cases hl
    rcases List.mem_append.mp hx with hx | hx
    · refine ih ⟨hne, ?_⟩ x hx
      intro y hy
      apply h
      rw [List.head?_append, hy]
      rfl
    · simp only [List.mem_singleton] at hx
      subst hx
      exact (hasEdge_members he).2

/-- C30: what `getRoute` returns. Without lane changes, or if there is no circle of lane changes in one direction, it always ends. It returns no route iff there is no path; if
it returns a route, its shortest path is a path of least cost from the start to the destination, and all of its lanelets are on the route. What is
missing for a complete specification: that there is never undefined behaviour, see `build_counterexample`. -/
theorem getRoute_partial [Search.Cost K] (ht : TestsOk t) (hb : Built t g) {pick : Nat → (Nat → K) → List Nat → Nat} (hpick : Search.PickMin pick)
    {src dst : P} (hs : src ∈ g.vertices) (hd : dst ∈ g.vertices) {id : Nat} (hid : id < g.numRoutingCosts) (lc : Bool) (hc : lc = true → NoSideCircle g id) :
    (getRoute t g pick src dst id lc = some (.ok none) ∧
      ∀ ps c, PPath g Search.Cost.zero Search.Cost.add id (followRelations lc) ps c → ps.head? = some src → ps.getLast? ≠ some dst) ∨
    (∃ r c, getRoute t g pick src dst id lc = some (.ok (some r)) ∧
      PPath g Search.Cost.zero Search.Cost.add id (followRelations lc) r.shortestPath c ∧ r.shortestPath.head? = some src ∧
      r.shortestPath.getLast? = some dst ∧ (∀ p ∈ r.shortestPath, r.contains p = true) ∧
      ∀ ps' c', PPath g Search.Cost.zero Search.Cost.add id (followRelations lc) ps' c' → ps'.head? = some src → ps'.getLast? = some dst →
        Search.Cost.le c c') ∨
    getRoute t g pick src dst id lc = some (.error .ub) := by
  have hrels : pathRelations lc false = followRelations lc := by cases lc <;> rfl
  rcases routing_shortestPath ht hb hpick src dst hs hd id hid lc false with ⟨h1, h2⟩ | ⟨ps, c, h1, h2, h3, h4, h5⟩
  · refine .inl ⟨?_, ?_⟩
    · unfold getRoute; rw [h1]
    · rw [hrels] at h2; exact h2
  · rw [hrels] at h2 h5
    have hg : getRoute t g pick src dst id lc = buildRoute t g ps lc id := by
      unfold getRoute; rw [h1]
    rw [hg]
    have hconn := ppath_connected h2
    have hpne : ps ≠ [] := by rintro rfl; cases h3
    have hmem := ppath_members h2 ⟨hpne, fun p hp => by rw [h3] at hp; cases hp; exact hs⟩
    obtain ⟨x, hx⟩ := route_terminates hb ps lc hc
    cases x with
    | error f =>
      obtain ⟨rfl, -⟩ := route_fault hb hpne hmem hx
      exact .inr (.inr hx)
    | ok o =>
      have := route_exists hb hconn hx
      obtain ⟨r, rfl⟩ := Option.isSome_iff_exists.mp this
      obtain ⟨k1, k2⟩ := route_contains_path hb hx hconn
      refine .inr (.inl ⟨r, c, hx, ?_, ?_, ?_, ?_, h5⟩)
      · rw [k1]; exact h2
      · rw [k1]; exact h3
      · rw [k1]; exact h4
      · rw [k1]; exact k2

end

end Verif.Route
