import Verif.Bin.Model

/-!
Evaluation of the recursive functions: they are the same after a number of calls is unfolded.
-/
namespace Verif.Bin

/-- one call of saveRec -/
def saveStep (H : List Obj) (rec : Job → S Unit) (j : Job) : S Unit := do
  match j with
  | .ll a => -- LaneletData, 78-90
    if ← track a then
      match H[a]? with
      | some (.ll d) => do
        emit (.num d.id); emit (.attrs d.attrs)
        saveLs H d.left
        saveLs H d.right
        emit (.size d.regs.length)
        d.regs.forM fun r => match r with
          | some r => rec (.re r)
          | none => throw .ub
        emit (.flag d.center.isSome)
        match d.center with
        | some c => saveLs H c
        | none => pure ()
      | _ => throw .ub
  | .ar a => -- AreaData, 275-282
    if ← track a then
      match H[a]? with
      | some (.ar d) => do
        emit (.num d.id); emit (.attrs d.attrs)
        emit (.size d.inner.length)
        d.inner.forM (saveLss H)
        saveLss H d.outer
        emit (.size d.regs.length)
        d.regs.forM fun r => match r with
          | some r => rec (.re r)
          | none => throw .ub
      | _ => throw .ub
  | .re a => -- RegulatoryElementPtr, 403-412, and RegulatoryElementData, 387-389
    match H[a]? with
    | some (.re d) => do
      emit (.num d.id)
      if d.id ∈ (← get).ids then return ()
      else
        modify fun s => { s with ids := s.ids ++ [d.id] }
        if ← track a then
          emit (.num d.id); emit (.attrs d.attrs)
          emit (.size d.params.length)
          d.params.forM fun x => do
            emit (.str x.1)
            emit (.size x.2.length)
            x.2.forM fun p => match p with
              | .pt a => do emit (.size 0); savePt H a
              | .ls h => do emit (.size 1); saveLs H h
              | .poly h => do emit (.size 2); saveLs H h
              | .ll inv (some a) => do emit (.size 3); emit (.flag inv); rec (.ll a)
              | .ar (some a) => do emit (.size 4); rec (.ar a)
              | _ => throw .expired
    | _ => throw .ub

theorem saveRec_step (H : List Obj) : saveStep H (saveRec H) = saveRec H := by
  funext j
  rw [saveRec.eq_def]
  rfl

/-- `saveRec` with a bound on the depth, for evaluation. -/
def saveF (H : List Obj) : Nat → Job → S Unit
  | 0 => saveRec H
  | n + 1 => saveStep H (saveF H n)

theorem saveF_eq (H : List Obj) : ∀ n, saveF H n = saveRec H
  | 0 => rfl
  | n + 1 => by rw [saveF, saveF_eq H n, saveRec_step]

/-- one call of loadRec -/
def loadStep (accepts : String → ReD → Bool) (rec : LJob → L Addr) (j : LJob) : L Addr := do
  match j with
  | .ll => do -- LaneletData, 94-111
    let (a, new) ← enter
    if new then
      let id ← getNum
      let attrs ← getAttrs
      let left ← loadLs
      let right ← loadLs
      let n ← getSize
      put a (.ll { id := id, attrs := attrs, left := left, right := right, regs := List.replicate n none, center := none })
      (List.range n).forM fun j => do let _ ← rec (.re (some (a, j)))
      if ← getFlag then
        let c ← loadLs
        modify fun s => s.setCenter a c
    return a
  | .ar => do -- AreaData, 286-295
    let (a, new) ← enter
    if new then
      let id ← getNum
      let attrs ← getAttrs
      let n ← getSize
      let inner ← (List.range n).mapM fun _ => loadLss
      let outer ← loadLss
      let n ← getSize
      put a (.ar { id := id, attrs := attrs, inner := inner, outer := outer, regs := List.replicate n none })
      (List.range n).forM fun j => do let _ ← rec (.re (some (a, j)))
    return a
  | .re σ => do -- RegulatoryElementPtr, 415-428, and RegulatoryElementData, 393-400
    let id ← getNum
    let s ← get
    if id ∈ s.entered then
      match s.done id with
      | some v => modify fun s => s.setSlot σ v
      | none => modify fun s => s.wait id σ
      return 0
    else
      modify fun s => { s with entered := s.entered ++ [id] }
      let (a, new) ← enter
      if new then
        let id ← getNum
        let attrs ← getAttrs
        let n ← getSize
        let params ← (List.range n).mapM fun _ => do
          let role ← getStr
          let k ← getSize
          let ps ← (List.range k).mapM fun _ => do
            match ← getSize with
            | 0 => do let a ← loadPt; return Param.pt a
            | 1 => do let h ← loadLs; return Param.ls h
            | 2 => do let h ← loadLs; return Param.poly h
            | 3 => do let inv ← getFlag; let a ← rec .ll; return Param.ll inv (some a)
            | 4 => do let a ← rec .ar; return Param.ar (some a)
            | _ => throw .archive
          return (role, ps)
        put a (.re { id := id, attrs := attrs, params := params })
      match (← get).objs[a]? with
      | some (some (.re d)) => do
        if accepts (created d).1 (created d).2 then
          if d.id ∈ (← get).entered then
            put a (.re (created d).2)
            modify fun s => s.setSlot σ a
            modify fun s => s.finish d.id a
          else throw .ub
        else throw .invalid
      | _ => throw .ub
      return 0

theorem loadRec_step (accepts : String → ReD → Bool) : loadStep accepts (loadRec accepts) = loadRec accepts := by
  funext j
  rw [loadRec.eq_def]
  rfl

/-- `loadRec` with a bound on the depth, for evaluation. -/
def loadF (accepts : String → ReD → Bool) : Nat → LJob → L Addr
  | 0 => loadRec accepts
  | n + 1 => loadStep accepts (loadF accepts n)

theorem loadF_eq (accepts : String → ReD → Bool) : ∀ n, loadF accepts n = loadRec accepts
  | 0 => rfl
  | n + 1 => by rw [loadF, loadF_eq accepts n, loadRec_step]

end Verif.Bin
