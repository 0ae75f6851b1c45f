/-
Model of the process wide id counter: lanelet2_core/src/LaneletMap.cpp 879-891.

The atomic counter is modelled with unbounded integers (`Id` is `int64_t` in the code: overflow of the
counter and of `id + 1` is not modelled). Every atomic access is one step; the steps of arbitrarily
many threads interleave arbitrarily (sequentially consistent atomics, which is what the default memory
order used by the code means).
-/
namespace Verif.Ids

/-- Threads, by number. -/
abbrev Tid := Nat

/-- Where a thread is. LaneletMap.cpp 883-891 -/
inductive PC where
  /-- not inside of one of the functions -/
  | idle
  /-- inside `registerId(id)` before the load of LaneletMap.cpp 888 -/
  | regLoad (id : Int)
  /-- inside `registerId(id)` at the head of the loop of LaneletMap.cpp 889, with the local variable `current` -/
  | regLoop (id current : Int)
deriving DecidableEq, Repr

/-- Externally visible events in chronological order. Calls and returns of LaneletMap.cpp 883-891. -/
inductive Event where
  /-- thread `t` got `id` from `getId()` -/
  | got (t : Tid) (id : Int)
  /-- thread `t` returned from `registerId(id)` -/
  | registered (t : Tid) (id : Int)
deriving DecidableEq, Repr

/-- The counter currId of LaneletMap.cpp 880-891, where the threads are, and what has happened so far. -/
structure State where
  /-- `currId`, LaneletMap.cpp 880 -/
  counter : Int
  pc : Tid → PC
  hist : List Event

/-- LaneletMap.cpp 880: the counter starts at 1000. -/
def init : State := ⟨1000, fun _ => .idle, []⟩

/-- Assignment to the position of one thread. -/
def setPC (s : State) (t : Tid) (p : PC) : Tid → PC := fun u => if u = t then p else s.pc u

/-- One atomic step of thread `t`. LaneletMap.cpp 883-891 -/
inductive Step : State → State → Prop where
  /-- LaneletMap.cpp 883: `return currId++` -/
  | getId (s : State) (t : Tid) (h : s.pc t = .idle) :
      Step s { s with counter := s.counter + 1, hist := s.hist ++ [.got t s.counter] }
  /-- LaneletMap.cpp 885-887: call of `registerId(id)` -/
  | regCall (s : State) (t : Tid) (id : Int) (h : s.pc t = .idle) :
      Step s { s with pc := setPC s t (.regLoad id) }
  /-- LaneletMap.cpp 888: `current = currId.load()` -/
  | regLoad (s : State) (t : Tid) (id : Int) (h : s.pc t = .regLoad id) :
      Step s { s with pc := setPC s t (.regLoop id s.counter) }
  /-- LaneletMap.cpp 889: `current < newId` is false; the function returns -/
  | regExit (s : State) (t : Tid) (id current : Int) (h : s.pc t = .regLoop id current)
      (hc : ¬ current < id + 1) :
      Step s { s with pc := setPC s t .idle, hist := s.hist ++ [.registered t id] }
  /-- LaneletMap.cpp 889: the compare-exchange succeeds; the function returns -/
  | regCasOk (s : State) (t : Tid) (id current : Int) (h : s.pc t = .regLoop id current)
      (hc : current < id + 1) (he : s.counter = current) :
      Step s { s with counter := id + 1, pc := setPC s t .idle,
                      hist := s.hist ++ [.registered t id] }
  /-- LaneletMap.cpp 889: the weak compare-exchange fails, because the counter changed or spuriously;
  `current` is overwritten with the value of the counter -/
  | regCasFail (s : State) (t : Tid) (id current : Int) (h : s.pc t = .regLoop id current)
      (hc : current < id + 1) :
      Step s { s with pc := setPC s t (.regLoop id s.counter) }

/-- Any number of steps. Helper of the properties. -/
inductive Steps : State → State → Prop where
  | refl (s : State) : Steps s s
  | tail {s s' s'' : State} : Steps s s' → Step s' s'' → Steps s s''

/-! ### sequential versions, used by the other models -/

/-- LaneletMap.cpp 883 -/
def getIdSeq (c : Int) : Int × Int := (c, c + 1)

/-- LaneletMap.cpp 885-891 run by one thread without interference: the counter afterwards. -/
def registerIdSeq (c id : Int) : Int := if c < id + 1 then id + 1 else c

end Verif.Ids
