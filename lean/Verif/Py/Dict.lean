import Verif.HMap.Props

/-!
Model of the attributes of primitives in Python: the class AttributeMap and the property `attributes`, lanelet2_python/python_api/core.cpp
103-160 (conversions), 204-257 (MapItem), 290-294, 303-307 (the property) and 382-398 (IsHybridMap). The map itself is the HybridMap of
`Verif.HMap`.

Trusted: how map_indexing_suite and `extract` of Boost.Python work (not part of the repository). `obj[key]`, `obj[key] = value`,
`del obj[key]` and `key in obj` are one `find`, `operator[]`, `erase` and `find` of the map, after the key was converted to std::string;
str and bytes can be converted to std::string.

Simplification: the order of the entries is left out as in `Verif.HMap`, so `keys()` and the like are known up to their order. Text consists
of characters, its encoding (UTF-8) is left out.
-/
namespace Verif.Py.Dict
open Verif.HMap

/-- std::string, Attribute.h 105 and HybridMap.h 71 -/
abbrev Str := HMap.Key

/-- The objects a script may use as keys and values: text, bytes, anything else. core.cpp 112-118 and 150-153 tell them apart. -/
inductive PyObj where
  | str (s : Str)
  | bytes (s : Str)
  | other (n : Nat)
  deriving DecidableEq

/-- KeyError and TypeError, the exceptions of core.cpp 243, 249 and of Boost.Python -/
inductive Err where
  | key
  | type
  deriving DecidableEq

/-- `extract<std::string>`, core.cpp 151-152, 241 -/
def toStr : PyObj → Option Str
  | .str s => some s
  | .bytes s => some s
  | .other _ => none

/-- AttributeFromPythonStr, core.cpp 107-135: only text, and only up to the first NUL since the constructor of Attribute gets a `const char*` -/
def toAttr : PyObj → Option Str
  | .str s => some (cstr s)
  | .bytes _ => none
  | .other _ => none

/-- A dict of a script: its keys with their values in order, core.cpp 146-148 -/
abbrev PyDict := List (PyObj × PyObj)

/-- `pyDict[key]`, core.cpp 247 -/
def dictGet (d : PyDict) (k : PyObj) : Option PyObj := (d.find? (·.1 == k)).map (·.2)

/-- All attribute maps of a script. The objects 0 and 1 are the local variable and the result of the conversion of a dict, core.cpp 149,
157; the variables of the script follow. -/
abbrev W := World Str

/-- The map that belongs to the variable `o` of a script, core.cpp 292, 303 -/
def var (o : Nat) : Nat := o + 2

/-- The loop of MapItem::init, core.cpp 240-254. `none` is undefined behaviour. -/
def initLoop (d : PyDict) (o : Nat) : List PyObj → W → Option (Except Err W)
  | [], w => some (.ok w)
  | k :: ks, w =>
    match toStr k with
    | none => some (.error .key)
    | some key =>
      match dictGet d (.str key) with
      | none => some (.error .key)
      | some v =>
        match toAttr v with
        | none => some (.error .key)
        | some x =>
          match assignKey attributeTable [] o key x w with
          | none => none
          | some w' => initLoop d o ks w'

/-- `AttributeMap(d)`: MapItem::init, core.cpp 236-256, on a new object -/
def init (d : PyDict) (o : Nat) (w : W) : Option (Except Err W) := initLoop d o (d.map (·.1)) (clear o w)

/-- The loop of DictToAttributeMapConverter::construct, core.cpp 150-154 -/
def convertLoop : PyDict → W → Except Err W
  | [], w => .ok w
  | (k, v) :: r, w =>
    match toStr k, toStr v with
    | some key, some value => convertLoop r (insert attributeTable 0 key value w).1
    | _, _ => .error .type

/-- DictToAttributeMapConverter::construct, core.cpp 145-159: the local map is copied to the storage of the argument -/
def convert (d : PyDict) (w : W) : Option (Except Err W) :=
  match convertLoop d (clear 0 w) with
  | .error e => some (.error e)
  | .ok w => (copy 1 0 w).map .ok

/-- `m[k] = v`, core.cpp 390 (map_indexing_suite) -/
def setItem (o : Nat) (k v : PyObj) (w : W) : Option (Except Err W) :=
  match toStr k, toAttr v with
  | some key, some x => (assignKey attributeTable [] o key x w).map .ok
  | _, _ => some (.error .type)

/-- `del m[k]`, core.cpp 390 (map_indexing_suite): `erase` without looking whether the key is there -/
def delItem (o : Nat) (k : PyObj) (w : W) : Option (Except Err W) :=
  match toStr k with
  | some key => (eraseKey o key w).map .ok
  | none => some (.error .type)

/-- `m[k]`, core.cpp 390 (map_indexing_suite) and 103-105 -/
def getItem (o : Nat) (k : PyObj) (w : W) : Option (Except Err PyObj) :=
  match toStr k with
  | none => some (.error .type)
  | some key => (atKey o key w).map fun r => match r with
    | .ok x => .ok (.str x)
    | .error _ => .error .key

/-- `k in m`, core.cpp 390 (map_indexing_suite) -/
def contains (o : Nat) (k : PyObj) (w : W) : Bool :=
  match toStr k with
  | none => false
  | some key => find o (w.maps o) key != .last o

/-- `len(m)`, core.cpp 390 (map_indexing_suite) -/
def len (o : Nat) (w : W) : Nat := size o w

/-- MapItem::keys, core.cpp 214-220 -/
def keys (o : Nat) (w : W) : List Str := (w.maps o).m.map fun n => n.key

/-- MapItem::values, core.cpp 221-227 -/
def values (o : Nat) (w : W) : List Str := (w.maps o).m.map fun n => w.vals n.addr

/-- MapItem::items, core.cpp 228-234 -/
def items (o : Nat) (w : W) : List (Str × Str) := (w.maps o).m.map fun n => (n.key, w.vals n.addr)

/-- What a `for` loop over a map yields: the entries of the map, core.cpp 390 (map_indexing_suite) -/
def iter (o : Nat) (w : W) : List (Str × Str) := (w.maps o).m.map fun n => (n.key, w.vals n.addr)

/-- `m == m'`, core.cpp 394 -/
def eqMap (o o' : Nat) (w : W) : Bool := equal o o' w

/-- `m == d` with a dict: the dict is converted, core.cpp 394 with 139-144 -/
def eqDict (o : Nat) (d : PyDict) (w : W) : Option (Except Err Bool) :=
  (convert d w).map fun r => r.map fun w' => equal o 1 w'

/-- The statements of a script that change attributes, core.cpp 292-294 and 389-391: `o = AttributeMap(d)`, `o[k] = v`, `del o[k]`, `p.attributes = q.attributes`,
`p.attributes = d`. The maps of primitives and the maps of their own are not told apart. -/
inductive Stmt where
  | make (o : Nat) (d : PyDict)
  | set (o : Nat) (k v : PyObj)
  | del (o : Nat) (k : PyObj)
  | assign (dst src : Nat)
  | assignDict (o : Nat) (d : PyDict)

/-- One statement, core.cpp 292-294 and 389-391 -/
def exec (w : W) : Stmt → Option (Except Err W)
  | .make o d => init d (var o) w
  | .set o k v => setItem (var o) k v w
  | .del o k => delItem (var o) k w
  | .assign dst src => (copy (var dst) (var src) w).map .ok
  | .assignDict o d =>
    match convert d w with
    | none => none
    | some (.error e) => some (.error e)
    | some (.ok w) => (copy (var o) 1 w).map .ok

/-- A script that catches all exceptions (helper of the properties): the final maps and the exceptions of all statements -/
def runAll : List Stmt → W → Option (W × List (Option Err))
  | [], w => some (w, [])
  | s :: ss, w =>
    match exec w s with
    | none => none
    | some (.error e) => (runAll ss w).map fun r => (r.1, some e :: r.2)
    | some (.ok w') => (runAll ss w').map fun r => (r.1, none :: r.2)

/-! ### Specification -/

/-- Specification. Text that C strings can hold, or something that is neither text nor bytes. -/
def Usual : PyObj → Prop
  | .str s => Char.ofNat 0 ∉ s
  | .bytes _ => False
  | .other _ => True

/-- Specification. A dict as scripts write it: every key once. -/
def UsualDict (d : PyDict) : Prop := (d.map (·.1)).Nodup ∧ ∀ e ∈ d, Usual e.1 ∧ Usual e.2

/-- Specification. The scripts considered here. -/
def UsualStmt : Stmt → Prop
  | .make _ d | .assignDict _ d => UsualDict d
  | .set _ k v => Usual k ∧ Usual v
  | .del _ k => Usual k
  | .assign _ _ => True

/-- Specification. The contents of the dictionaries of a script. -/
abbrev Dicts := Nat → Str → Option Str

/-- Specification. Keys and values are text. -/
def AllText (d : PyDict) : Prop := ∀ e ∈ d, ∃ k v, e = (.str k, .str v)

/-- Specification. The contents `c'` and whether an exception is raised if every variable were a dictionary that only takes text. -/
inductive DictStep (c : Dicts) : Stmt → Dicts → Bool → Prop where
  | make (o d) (c' : Dicts) (h : AllText d) (hin : ∀ k v, c' o k = some v ↔ (.str k, .str v) ∈ d)
      (hout : ∀ o', o' ≠ o → c' o' = c o') : DictStep c (.make o d) c' false
  | makeBad (o d) (h : ¬ AllText d) : DictStep c (.make o d) c true
  | set (o k v) (c' : Dicts) (hin : c' o k = some v) (hout : ∀ o' k', ¬ (o' = o ∧ k' = k) → c' o' k' = c o' k') :
      DictStep c (.set o (.str k) (.str v)) c' false
  | setBad (o) (k v : PyObj) (h : ¬ ((∃ s, k = .str s) ∧ ∃ s, v = .str s)) : DictStep c (.set o k v) c true
  | del (o k) (c' : Dicts) (h : c o k ≠ none) (hin : c' o k = none)
      (hout : ∀ o' k', ¬ (o' = o ∧ k' = k) → c' o' k' = c o' k') : DictStep c (.del o (.str k)) c' false
  | delMissing (o k) (h : c o k = none) : DictStep c (.del o (.str k)) c true
  | delBad (o) (k : PyObj) (h : ¬ ∃ s, k = .str s) : DictStep c (.del o k) c true
  | assign (dst src) (c' : Dicts) (hin : c' dst = c src) (hout : ∀ o', o' ≠ dst → c' o' = c o') :
      DictStep c (.assign dst src) c' false
  | assignDict (o d) (c' : Dicts) (h : AllText d) (hin : ∀ k v, c' o k = some v ↔ (.str k, .str v) ∈ d)
      (hout : ∀ o', o' ≠ o → c' o' = c o') : DictStep c (.assignDict o d) c' false
  | assignDictBad (o d) (h : ¬ AllText d) : DictStep c (.assignDict o d) c true

/-- Specification. A whole script; `outs` says which statements raise an exception. -/
inductive DictRun : Dicts → List Stmt → Dicts → List Bool → Prop where
  | nil (c) : DictRun c [] c []
  | cons {c c1 c2 s ss b outs} (h : DictStep c s c1 b) (hr : DictRun c1 ss c2 outs) : DictRun c (s :: ss) c2 (b :: outs)

/-! ### Proofs -/

theorem tabOk : TabOk attributeTable := attributeTable_good.ok

theorem Usual.text {x : PyObj} (h : Usual x) : (∃ s, x = .str s ∧ noNul s ∧ toStr x = some s ∧ toAttr x = some s) ∨
    ((¬ ∃ s, x = .str s) ∧ toStr x = none ∧ toAttr x = none) := by
  cases x with
  | str s =>
    left
    exact ⟨s, rfl, h, rfl, by simp [toAttr, cstr_of_noNul (show noNul s from h)]⟩
  | bytes s => exact h.elim
  | other n => right; exact ⟨(by rintro ⟨s, e⟩; cases e), rfl, rfl⟩

theorem dictGet_of_mem {d : PyDict} (hn : (d.map (·.1)).Nodup) {k v : PyObj} (h : (k, v) ∈ d) : dictGet d k = some v := by
  unfold dictGet
  rw [(HMap.find?_iff (fun e : PyObj × PyObj => e.1) d hn k (k, v)).mpr ⟨h, rfl⟩]
  rfl

/-- Helper of the proofs: the loop of MapItem::init over a part of the entries. -/
theorem initLoop_spec (d : PyDict) (hd : UsualDict d) (o : Nat) : ∀ (r : PyDict), (∀ e ∈ r, e ∈ d) → ∀ (w : W), WInv attributeTable w →
    (AllText r → ∃ w', initLoop d o (r.map (·.1)) w = some (.ok w') ∧ WInv attributeTable w' ∧
      (∀ k v, abs w' o k = some v ↔ (.str k, .str v) ∈ r ∨ (abs w o k = some v ∧ ∀ v', (PyObj.str k, v') ∉ r)) ∧
      ∀ o', o' ≠ o → abs w' o' = abs w o') ∧
    (¬ AllText r → ∃ e, initLoop d o (r.map (·.1)) w = some (.error e))
  | [], _, w, hw => by
    refine ⟨fun _ => ⟨w, rfl, hw, by simp, fun _ _ => rfl⟩, fun h => absurd ?_ h⟩
    intro e he; cases he
  | (k, v) :: r, hr, w, hw => by
    have hmem := hr (k, v) (by simp)
    obtain ⟨hk, hv⟩ := hd.2 _ hmem
    have hr' : ∀ e ∈ r, e ∈ d := fun e he => hr e (by simp [he])
    have hget := dictGet_of_mem hd.1 hmem
    rcases Usual.text hk with ⟨key, rfl, hkn, hks, -⟩ | ⟨hkn, hks, -⟩
    · rcases Usual.text hv with ⟨x, rfl, -, -, hxa⟩ | ⟨hvn, -, hxa⟩
      · obtain ⟨w1, h1, h2, h3⟩ := assign_spec tabOk hw [] o x hkn
        have ih := initLoop_spec d hd o r hr' w1 h2
        have hstep : initLoop d o (((PyObj.str key, PyObj.str x) :: r).map (·.1)) w = initLoop d o (r.map (·.1)) w1 := by
          simp only [List.map_cons, initLoop, hks, hget, hxa, h1]
        have hall : AllText ((PyObj.str key, PyObj.str x) :: r) ↔ AllText r := by
          constructor
          · intro h e he; exact h e (by simp [he])
          · intro h e he
            rcases List.mem_cons.mp he with rfl | he
            · exact ⟨key, x, rfl⟩
            · exact h e he
        rw [hstep, hall]
        refine ⟨fun hA => ?_, ih.2⟩
        obtain ⟨w', g1, g2, g3, g4⟩ := ih.1 hA
        refine ⟨w', g1, g2, ?_, ?_⟩
        · intro k' v'
          rw [g3, h3]
          unfold Plain.put
          by_cases e : k' = key
          · subst e
            have huniq : ∀ y, (PyObj.str k', y) ∈ r → y = .str x := by
              intro y hy
              have := dictGet_of_mem hd.1 (hr' _ hy)
              rw [hget] at this; cases this; rfl
            simp only [and_self, if_true, Option.some.injEq, List.mem_cons, Prod.mk.injEq, PyObj.str.injEq, true_and]
            constructor
            · rintro (h | ⟨rfl, -⟩)
              · exact .inl (.inr h)
              · exact .inl (.inl rfl)
            · rintro ((rfl | h) | ⟨-, h⟩)
              · by_cases hm : (PyObj.str k', PyObj.str v') ∈ r
                · exact .inl hm
                · refine .inr ⟨rfl, fun y hy => ?_⟩
                  rw [huniq y hy] at hy; exact hm hy
              · exact .inl h
              · exact absurd (.inl rfl) (h (.str x))
          · simp only [e, and_false, if_false, List.mem_cons, Prod.mk.injEq, PyObj.str.injEq, false_and, false_or]
        · intro o' ho'
          rw [g4 o' ho', h3]
          funext k'
          simp [Plain.put, ho']
      · refine ⟨fun h => absurd ?_ hvn, fun _ => ⟨.key, ?_⟩⟩
        · obtain ⟨_, s, e⟩ := h _ (List.mem_cons_self ..)
          cases e; exact ⟨s, rfl⟩
        · simp only [List.map_cons, initLoop, hks, hget, hxa]
    · refine ⟨fun h => absurd ?_ hkn, fun _ => ⟨.key, ?_⟩⟩
      · obtain ⟨s, _, e⟩ := h _ (List.mem_cons_self ..)
        cases e; exact ⟨s, rfl⟩
      · simp only [List.map_cons, initLoop, hks]

theorem init_spec (d : PyDict) (hd : UsualDict d) (o : Nat) (w : W) (hw : WInv attributeTable w) :
    (AllText d → ∃ w', init d o w = some (.ok w') ∧ WInv attributeTable w' ∧
      (∀ k v, abs w' o k = some v ↔ (.str k, .str v) ∈ d) ∧ ∀ o', o' ≠ o → abs w' o' = abs w o') ∧
    (¬ AllText d → ∃ e, init d o w = some (.error e)) := by
  obtain ⟨h1, h2⟩ := clear_spec hw o
  have h := initLoop_spec d hd o d (fun _ h => h) (clear o w) h1
  refine ⟨fun hA => ?_, h.2⟩
  obtain ⟨w', g1, g2, g3, g4⟩ := h.1 hA
  refine ⟨w', g1, g2, ?_, ?_⟩
  · intro k v; rw [g3, h2]; simp
  · intro o' ho'; rw [g4 o' ho', h2]; funext k; simp [ho']

/-- Helper of the proofs: the loop of the converter. -/
theorem convertLoop_spec : ∀ (d : PyDict), UsualDict d → ∀ (w : W), WInv attributeTable w → (∀ e ∈ d, ∀ k, e.1 = .str k → abs w 0 k = none) →
    (AllText d → ∃ w', convertLoop d w = .ok w' ∧ WInv attributeTable w' ∧
      (∀ k v, abs w' 0 k = some v ↔ (.str k, .str v) ∈ d ∨ abs w 0 k = some v) ∧
      ∀ o', o' ≠ 0 → abs w' o' = abs w o') ∧
    (¬ AllText d → convertLoop d w = .error .type)
  | [], _, w, hw, _ => by
    refine ⟨fun _ => ⟨w, rfl, hw, by simp, fun _ _ => rfl⟩, fun h => absurd ?_ h⟩
    intro e he; cases he
  | (k, v) :: r, hd, w, hw, hfree => by
    obtain ⟨hk, hv⟩ := hd.2 (k, v) (by simp)
    have hnd := List.nodup_cons.mp (show ((k, v).1 :: r.map (·.1)).Nodup from hd.1)
    have hd' : UsualDict r := ⟨hnd.2, fun e he => hd.2 e (by simp [he])⟩
    rcases Usual.text hk with ⟨key, rfl, hkn, hks, -⟩ | ⟨hkn, hks, -⟩
    · rcases Usual.text hv with ⟨x, rfl, -, hxs, -⟩ | ⟨hvn, hxs, -⟩
      · obtain ⟨h2, h3, -⟩ := insert_spec tabOk hw 0 x hkn
        rw [hfree _ (List.mem_cons_self ..) key rfl] at h3
        simp only [Option.isSome_none, Bool.false_eq_true, if_false] at h3
        have hstep : convertLoop ((PyObj.str key, PyObj.str x) :: r) w = convertLoop r (insert attributeTable 0 key x w).1 := by
          simp only [convertLoop, hks, hxs]
        have ih := convertLoop_spec r hd' _ h2 (by
          intro e he k' hk'
          rw [h3]
          unfold Plain.put
          split
          · rename_i hc
            exact absurd (List.mem_map.mpr ⟨e, he, by rw [hk', hc.2]⟩) hnd.1
          · exact hfree e (by simp [he]) k' hk')
        have hall : AllText ((PyObj.str key, PyObj.str x) :: r) ↔ AllText r := by
          constructor
          · intro h e he; exact h e (by simp [he])
          · intro h e he
            rcases List.mem_cons.mp he with rfl | he
            · exact ⟨key, x, rfl⟩
            · exact h e he
        rw [hstep, hall]
        refine ⟨fun hA => ?_, ih.2⟩
        obtain ⟨w', g1, g2, g3, g4⟩ := ih.1 hA
        refine ⟨w', g1, g2, ?_, ?_⟩
        · intro k' v'
          rw [g3, h3]
          unfold Plain.put
          by_cases e : k' = key
          · subst e
            simp only [and_self, if_true, Option.some.injEq, List.mem_cons, Prod.mk.injEq, PyObj.str.injEq, true_and]
            have hno := hfree _ (List.mem_cons_self ..) k' rfl
            rw [hno]
            simp only [reduceCtorEq, or_false]
            constructor
            · rintro (h | h)
              · exact .inr h
              · exact .inl h.symm
            · rintro (h | h)
              · exact .inr h.symm
              · exact .inl h
          · simp only [e, and_false, if_false, List.mem_cons, Prod.mk.injEq, PyObj.str.injEq, false_and, false_or]
        · intro o' ho'
          rw [g4 o' ho', h3]
          funext k'
          simp [Plain.put, ho']
      · refine ⟨fun h => absurd ?_ hvn, fun _ => ?_⟩
        · obtain ⟨_, s, e⟩ := h _ (List.mem_cons_self ..)
          cases e; exact ⟨s, rfl⟩
        · simp only [convertLoop, hks, hxs]
    · refine ⟨fun h => absurd ?_ hkn, fun _ => ?_⟩
      · obtain ⟨s, _, e⟩ := h _ (List.mem_cons_self ..)
        cases e; exact ⟨s, rfl⟩
      · simp only [convertLoop, hks]

theorem convert_spec (d : PyDict) (hd : UsualDict d) (w : W) (hw : WInv attributeTable w) :
    (AllText d → ∃ w', convert d w = some (.ok w') ∧ WInv attributeTable w' ∧
      (∀ k v, abs w' 1 k = some v ↔ (.str k, .str v) ∈ d) ∧ ∀ o, 2 ≤ o → abs w' o = abs w o) ∧
    (¬ AllText d → convert d w = some (.error .type)) := by
  obtain ⟨h1, h2⟩ := clear_spec hw 0
  have h := convertLoop_spec d hd (clear 0 w) h1 (by intro e _ k _; rw [h2]; simp)
  refine ⟨fun hA => ?_, fun hA => by unfold convert; rw [h.2 hA]⟩
  obtain ⟨w1, g1, g2, g3, g4⟩ := h.1 hA
  obtain ⟨w2, f1, f2, f3⟩ := copy_spec g2 1 0
  refine ⟨w2, by unfold convert; rw [g1]; simp only [f1]; rfl, f2, ?_, ?_⟩
  · intro k v; rw [f3]; simp only [if_true]; rw [g3, h2]; simp
  · intro o ho
    have e1 : o ≠ 1 := by omega
    have e0 : o ≠ 0 := by omega
    funext k
    rw [f3]; simp only [e1, if_false]
    rw [g4 o e0, h2]; simp [e0]

/-- Helper of the proofs: what the script's variables contain. -/
def vars (w : W) : Dicts := fun o k => abs w (var o) k

theorem exec_spec (w : W) (hw : WInv attributeTable w) (s : Stmt) (hs : UsualStmt s) :
    ∃ r b c', exec w s = some r ∧ DictStep (vars w) s c' b ∧
      (match r with
       | .ok w' => WInv attributeTable w' ∧ vars w' = c' ∧ (b = false ∨ b = true ∧ ∃ o k, s = .del o (.str k) ∧ vars w o k = none)
       | .error _ => vars w = c' ∧ b = true) := by
  cases s with
  | make o d =>
    have h := init_spec d hs (var o) w hw
    by_cases hA : AllText d
    · obtain ⟨w', h1, h2, h3, h4⟩ := h.1 hA
      refine ⟨.ok w', false, vars w', h1, .make o d _ hA h3 ?_, h2, rfl, .inl rfl⟩
      intro o' ho'
      exact h4 (var o') (by unfold var; omega)
    · obtain ⟨e, h1⟩ := h.2 hA
      exact ⟨.error e, true, vars w, h1, .makeBad o d hA, rfl, rfl⟩
  | set o k v =>
    obtain ⟨hk, hv⟩ := hs
    show ∃ r b c', setItem (var o) k v w = some r ∧ _
    unfold setItem
    rcases Usual.text hk with ⟨key, rfl, hkn, hks, -⟩ | ⟨hkn, hks, -⟩
    · rcases Usual.text hv with ⟨x, rfl, -, -, hxa⟩ | ⟨hvn, -, hxa⟩
      · obtain ⟨w', h1, h2, h3⟩ := assign_spec tabOk hw [] (var o) x hkn
        refine ⟨.ok w', false, vars w', by simp only [hks, hxa, h1]; rfl, .set o key x _ ?_ ?_, h2, rfl, .inl rfl⟩
        · unfold vars; rw [h3]; simp [Plain.put]
        · intro o' k' hne
          unfold vars; rw [h3]
          unfold Plain.put
          rw [if_neg]
          rintro ⟨e1, e2⟩
          exact hne ⟨by unfold var at e1; omega, e2⟩
      · exact ⟨.error .type, true, vars w, by simp only [hks, hxa], .setBad o _ v (fun h => hvn h.2), rfl, rfl⟩
    · exact ⟨.error .type, true, vars w, by simp only [hks], .setBad o k v (fun h => hkn h.1), rfl, rfl⟩
  | del o k =>
    show ∃ r b c', delItem (var o) k w = some r ∧ _
    unfold delItem
    rcases Usual.text (show Usual k from hs) with ⟨key, rfl, hkn, hks, -⟩ | ⟨hkn, hks, -⟩
    · obtain ⟨w', h1, h2, h3⟩ := erase_spec tabOk hw (var o) key
      by_cases hm : vars w o key = none
      · refine ⟨.ok w', true, vars w, by simp only [hks, h1]; rfl, .delMissing o key hm, h2, ?_, .inr ⟨rfl, o, key, rfl, hm⟩⟩
        funext o' k'
        unfold vars; rw [h3]
        unfold Plain.put
        split
        · rename_i hc
          have ho : o' = o := by have := hc.1; unfold var at this; omega
          rw [ho, hc.2]; exact hm.symm
        · rfl
      · refine ⟨.ok w', false, vars w', by simp only [hks, h1]; rfl, .del o key _ hm ?_ ?_, h2, rfl, .inl rfl⟩
        · unfold vars; rw [h3]; simp [Plain.put]
        · intro o' k' hne
          unfold vars; rw [h3]
          unfold Plain.put
          rw [if_neg]
          rintro ⟨e1, e2⟩
          exact hne ⟨by unfold var at e1; omega, e2⟩
    · exact ⟨.error .type, true, vars w, by simp only [hks], .delBad o k hkn, rfl, rfl⟩
  | assign dst src =>
    obtain ⟨w', h1, h2, h3⟩ := copy_spec hw (var dst) (var src)
    refine ⟨.ok w', false, vars w', by show (copy (var dst) (var src) w).map Except.ok = _; rw [h1]; rfl,
      .assign dst src _ ?_ ?_, h2, rfl, .inl rfl⟩
    · funext k; unfold vars; rw [h3]; simp
    · intro o' ho'
      funext k; unfold vars; rw [h3]
      have : var o' ≠ var dst := by unfold var; omega
      simp [this]
  | assignDict o d =>
    have h := convert_spec d hs w hw
    by_cases hA : AllText d
    · obtain ⟨w1, h1, h2, h3, h4⟩ := h.1 hA
      obtain ⟨w', g1, g2, g3⟩ := copy_spec h2 (var o) 1
      refine ⟨.ok w', false, vars w', by simp only [exec, h1, g1]; rfl, .assignDict o d _ hA ?_ ?_, g2, rfl, .inl rfl⟩
      · intro k v; unfold vars; rw [g3]; simp only [if_true]; exact h3 k v
      · intro o' ho'
        funext k; unfold vars; rw [g3]
        have : var o' ≠ var o := by unfold var; omega
        simp only [this, if_false]
        rw [h4 _ (by unfold var; omega)]
    · exact ⟨.error .type, true, vars w, by simp only [exec, h.2 hA], .assignDictBad o d hA, rfl, rfl⟩

theorem runAll_spec' : ∀ (ss : List Stmt), (∀ s ∈ ss, UsualStmt s) → ∀ (w : W), WInv attributeTable w →
    ∃ w' outs raised, runAll ss w = some (w', outs) ∧ WInv attributeTable w' ∧ DictRun (vars w) ss (vars w') raised ∧
      outs.length = ss.length ∧ raised.length = ss.length ∧
      ∀ i : Nat, i < ss.length → (outs[i]?.map Option.isSome = raised[i]? ∨
        (outs[i]? = some none ∧ raised[i]? = some true ∧ ∃ o k, ss[i]? = some (.del o (.str k))))
  | [], _, w, hw => ⟨w, [], [], rfl, hw, .nil _, rfl, rfl, by simp⟩
  | s :: ss, hs, w, hw => by
    obtain ⟨r, b, c', h1, h2, h3⟩ := exec_spec w hw s (hs s (by simp))
    have hss : ∀ s ∈ ss, UsualStmt s := fun s h => hs s (by simp [h])
    cases r with
    | error e =>
      obtain ⟨rfl, rfl⟩ := h3
      obtain ⟨w', outs, raised, g1, g2, g3, g4, g5, g6⟩ := runAll_spec' ss hss w hw
      refine ⟨w', some e :: outs, true :: raised, by rw [runAll, h1]; simp only [g1]; rfl, g2, .cons h2 g3, by simp [g4], by simp [g5], ?_⟩
      intro i hi
      cases i with
      | zero => left; rfl
      | succ i => simpa using g6 i (by simpa using hi)
    | ok w1 =>
      obtain ⟨hw1, rfl, hb⟩ := h3
      obtain ⟨w', outs, raised, g1, g2, g3, g4, g5, g6⟩ := runAll_spec' ss hss w1 hw1
      refine ⟨w', none :: outs, b :: raised, by rw [runAll, h1]; simp only [g1]; rfl, g2, .cons h2 g3, by simp [g4], by simp [g5], ?_⟩
      intro i hi
      cases i with
      | zero =>
        rcases hb with rfl | ⟨rfl, o, k, rfl, -⟩
        · left; rfl
        · right; exact ⟨rfl, rfl, o, k, rfl⟩
      | succ i => simpa using g6 i (by simpa using hi)

theorem items_spec {w : W} (hw : WInv attributeTable w) (o : Nat) :
    ((items o w).map (·.1)).Nodup ∧ ∀ k v, (k, v) ∈ items o w ↔ abs w o k = some v := by
  have hk := (hw.each o).keys
  refine ⟨by simpa [items, Function.comp_def] using hk, ?_⟩
  intro k v
  rw [abs_some hk]
  unfold items
  simp only [List.mem_map, Prod.mk.injEq]
  constructor
  · rintro ⟨n, hn, rfl, rfl⟩; exact ⟨n.addr, hn, rfl⟩
  · rintro ⟨a, hm, rfl⟩; exact ⟨_, hm, rfl, rfl⟩

/-! ### C86 -/

/-- C86. A script that makes attribute maps, sets and deletes entries and assigns `attributes`, in any order and with any number of
maps, behaves like one that works on dictionaries of text: no statement has undefined behaviour, every statement raises an exception iff
a dictionary that only takes text would, and leaves the contents that a dictionary would have (`p.attributes = q.attributes` copies). The only
difference is that deleting a missing key raises nothing. Afterwards `m[k]` is the entry or a KeyError, `k in m`, `len(m)`, `keys()`,
`values()` and `items()` describe the same contents in the same order, and `==` compares the contents.

Keys and values are text without NUL characters or things that are no text at all; no bytes. -/
theorem attributes_dict (ss : List Stmt) (hs : ∀ s ∈ ss, UsualStmt s) :
    ∃ (w : W) (outs : List (Option Err)) (c : Dicts) (raised : List Bool),
      runAll ss (World.init []) = some (w, outs) ∧ DictRun (fun _ _ => none) ss c raised ∧
      outs.length = ss.length ∧ raised.length = ss.length ∧
      (∀ i : Nat, i < ss.length → (outs[i]?.map Option.isSome = raised[i]? ∨
        (outs[i]? = some none ∧ raised[i]? = some true ∧ ∃ o k, ss[i]? = some (.del o (.str k))))) ∧
      ∀ o, (∀ k v, c o k = some v → getItem (var o) (.str k) w = some (.ok (.str v))) ∧
        (∀ k, c o k = none → getItem (var o) (.str k) w = some (.error .key)) ∧
        (∀ k, contains (var o) (.str k) w = true ↔ c o k ≠ none) ∧
        (∀ n, contains (var o) (.other n) w = false ∧ getItem (var o) (.other n) w = some (.error .type)) ∧
        (∀ k v, (k, v) ∈ items (var o) w ↔ c o k = some v) ∧
        (keys (var o) w).Nodup ∧
        keys (var o) w = (items (var o) w).map (·.1) ∧ values (var o) w = (items (var o) w).map (·.2) ∧
        len (var o) w = (items (var o) w).length ∧
        (∀ o', eqMap (var o) (var o') w = true ↔ ∀ k, c o k = c o' k) ∧
        ∀ d, UsualDict d → (AllText d → ∃ b, eqDict (var o) d w = some (.ok b) ∧
            (b = true ↔ ∀ k v, c o k = some v ↔ (.str k, .str v) ∈ d)) ∧
          (¬ AllText d → eqDict (var o) d w = some (.error .type)) := by
  obtain ⟨w, outs, raised, h1, h2, h3, h4, h5, h6⟩ := runAll_spec' ss hs (World.init []) (WInv.init attributeTable [])
  have hinit : vars (World.init [] : W) = fun _ _ => none := by funext o k; rfl
  rw [hinit] at h3
  refine ⟨w, outs, vars w, raised, h1, h3, h4, h5, h6, ?_⟩
  intro o
  have hit := items_spec h2 (var o)
  refine ⟨?_, ?_, ?_, fun n => ⟨rfl, rfl⟩, fun k v => hit.2 k v, (h2.each (var o)).keys, ?_, ?_, ?_, ?_, ?_⟩
  · intro k v hkv
    show (atKey (var o) k w).map _ = _
    rw [read_spec h2, show abs w (var o) k = some v from hkv]; rfl
  · intro k hk
    show (atKey (var o) k w).map _ = _
    rw [read_spec h2, show abs w (var o) k = none from hk]; rfl
  · intro k
    show (find (var o) (w.maps (var o)) k != .last (var o)) = true ↔ abs w (var o) k ≠ none
    rw [bne_iff_ne, Ne, Ne, find_last, abs_none]
    simp
  · simp [keys, items, Function.comp_def]
  · simp [values, items, Function.comp_def]
  · simp [len, size, items]
  · intro o'
    exact equal_abs h2 _ _
  · intro d hd
    have hc := convert_spec d hd w h2
    constructor
    · intro hA
      obtain ⟨w', g1, g2, g3, g4⟩ := hc.1 hA
      refine ⟨equal (var o) 1 w', by unfold eqDict; rw [g1]; rfl, ?_⟩
      rw [equal_abs g2, g4 _ (by unfold var; omega)]
      show (∀ k, vars w o k = abs w' 1 k) ↔ _
      constructor
      · intro h k v; rw [h k]; exact g3 k v
      · intro h k
        cases hv : abs w' 1 k with
        | none =>
          cases hv2 : vars w o k with
          | none => rfl
          | some v =>
            have := (g3 k v).mpr ((h k v).mp hv2)
            rw [hv] at this; cases this
        | some v => exact (h k v).mpr ((g3 k v).mp hv)
    · intro hA
      unfold eqDict; rw [hc.2 hA]; rfl

/-- Helper of the properties: text of a string literal. -/
abbrev t (s : String) : PyObj := .str s.toList

/-- Example: a script that makes a map, changes it, copies it and deletes a key of the copy. -/
def exScript : List Stmt :=
  [.make 0 [(t "type", t "road"), (t "one_way", t "yes")], .set 0 (t "speed") (t "50"), .set 0 (t "speed") (.other 50), .assign 1 0,
   .del 1 (t "type"), .assignDict 2 [(t "type", t "road")]]

/-- Example: the script is of the kind of `attributes_dict`; the original keeps the key that is deleted in the copy. -/
example : (∀ s ∈ exScript, UsualStmt s) ∧ ∃ w outs, runAll exScript (World.init []) = some (w, outs) ∧
    outs = [none, none, some .type, none, none, none] ∧ contains (var 0) (t "type") w = true ∧
    contains (var 1) (t "type") w = false ∧ len (var 1) w = 2 := by
  refine ⟨?_, _, _, rfl, by decide, by decide, by decide, by decide⟩
  intro s hs
  simp only [exScript, List.mem_cons, List.not_mem_nil, or_false] at hs
  rcases hs with rfl | rfl | rfl | rfl | rfl | rfl
  · refine ⟨by decide, ?_⟩
    intro e he
    simp only [List.mem_cons, List.not_mem_nil, or_false] at he
    rcases he with rfl | rfl <;> exact ⟨by unfold Usual t; decide, by unfold Usual t; decide⟩
  · exact ⟨by unfold Usual t; decide, by unfold Usual t; decide⟩
  · exact ⟨by unfold Usual t; decide, trivial⟩
  · trivial
  · show Usual (t "type"); unfold Usual t; decide
  · refine ⟨by decide, ?_⟩
    intro e he
    simp only [List.mem_cons, List.not_mem_nil, or_false] at he
    rcases he with rfl; exact ⟨by unfold Usual t; decide, by unfold Usual t; decide⟩

/-- C86 fails for `del`: in no state does deleting a key that is missing raise a KeyError as it does for a dictionary. -/
theorem del_missing_counterexample (w : W) (hw : WInv attributeTable w) (o : Nat) (k : Str) (h : abs w o k = none) :
    ∃ w', delItem o (.str k) w = some (.ok w') ∧ abs w' = abs w := by
  obtain ⟨w', h1, -, h3⟩ := erase_spec tabOk hw o k
  refine ⟨w', by simp only [delItem, toStr, h1]; rfl, ?_⟩
  rw [h3]
  funext o' k'
  unfold Plain.put
  split
  · rename_i hc; rw [hc.1, hc.2, h]
  · rfl

/-- C86 fails for loops: iterating over the attributes yields entries (a key with its value) and not the keys, as a dictionary does. -/
theorem iter_counterexample (o : Nat) (w : W) : iter o w = items o w ∧ (iter o w).map (·.1) = keys o w := by
  simp [iter, items, keys, Function.comp_def]

/-- C86 fails for values with a NUL character: the same dict gives different attributes depending on whether it is assigned to `attributes`
(or passed to the constructor of a primitive) or to the constructor of AttributeMap, which cuts the value; so does `m[k] = v`. -/
theorem nul_value_counterexample : ∃ w outs, runAll
      [.make 0 [(t "a", .str ['x', Char.ofNat 0, 'y'])], .assignDict 1 [(t "a", .str ['x', Char.ofNat 0, 'y'])],
       .set 2 (t "a") (.str ['x', Char.ofNat 0, 'y'])] (World.init []) = some (w, outs) ∧
    outs = [none, none, none] ∧
    values (var 0) w = [['x']] ∧ values (var 1) w = [['x', Char.ofNat 0, 'y']] ∧ values (var 2) w = [['x']] ∧
    eqMap (var 0) (var 1) w = false := by
  refine ⟨_, _, rfl, by decide, by decide, by decide, by decide, by decide⟩

/-- C86 fails for bytes: the constructor of AttributeMap refuses a dict with such a key, assigning the same dict to `attributes` takes it for text. -/
theorem bytes_key_counterexample : ∃ w outs, runAll
      [.make 0 [(.bytes "a".toList, t "x")], .assignDict 1 [(.bytes "a".toList, t "x")]] (World.init []) = some (w, outs) ∧
    outs = [some .key, none] ∧ contains (var 1) (t "a") w = true := by
  refine ⟨_, _, rfl, by decide, by decide⟩

end Verif.Py.Dict
