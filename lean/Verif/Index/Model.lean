/-
The native index of a data set: its lock, its memory and its file.
data/data.go:27-32 `Annoyer`, data/search.go:313-337 (searches), data/newsync.go:147-222 (maintenance runs).

The contents of the index are part of `Data` (Verif/Data/Model); here it is about who uses, replaces and releases it when.
Any number of searches and runs, any schedule.
-/
set_option autoImplicit false
namespace Veri
namespace Idx

/-- Where a search is, data/search.go:313-337.  `p` and `d` tell which run built the native index and the slice. -/
inductive SPhase where
  | start
  /-- line 313: `AnnoyIndex != nil` -/
  | sawIndex
  /-- line 313: `DataIndex != nil && len(*DataIndex) > 0` -/
  | sawData
  /-- line 314: `RLock` -/
  | locked
  /-- line 317: the slice has been read -/
  | gotData (d : Nat)
  /-- line 318: in the native call on this index -/
  | calling (d p : Nat)
  /-- lines 319-336: the numbers that the index gave are looked up in the slice -/
  | looking (d p : Nat)
  /-- line 337: `RUnlock`, or line 341: the search without index -/
  | done
  /-- a nil pointer was dereferenced -/
  | crashed
  deriving DecidableEq, Repr

/-- Where a run is.  Run number `p` builds the native index number `p`; `f` tells whether it has a file (number `p`). -/
inductive RPhase where
  /-- before data/newsync.go:172: no index created yet -/
  | scanning
  /-- data/newsync.go:172-208 -/
  | building (f : Bool)
  /-- line 209: `Lock` -/
  | locked (f : Bool)
  /-- lines 210-213: the old index has been released if there was one -/
  | dropped (f : Bool)
  /-- line 214: `oldFile` -/
  | named (f : Bool) (old : Option Nat)
  /-- line 215: `BuildFileName` -/
  | filed (old : Option Nat)
  /-- line 216: `AnnoyIndex` -/
  | indexed (old : Option Nat)
  /-- line 217: `DataIndex` -/
  | stored (old : Option Nat)
  /-- line 218: `Unlock` -/
  | unlocked (old : Option Nat)
  /-- lines 219-221, or 203 without an index -/
  | done
  | crashed
  deriving DecidableEq, Repr

/-- The fields of `Annoyer`, its `RWMutex` with the holders, the native indexes released so far, the temporary files that exist, and
the goroutines.  `alive` is the field of `Data`. -/
structure St where
  index : Option Nat
  data : Option Nat
  file : Option Nat
  readers : List Nat
  writer : Option Nat
  released : List Nat
  files : List Nat
  alive : Bool
  searches : List SPhase
  runs : List RPhase
  deriving DecidableEq, Repr

/-- A new data set: all fields nil, data/data.go:59-66. -/
def init : St := ⟨none, none, none, [], none, [], [], true, [], []⟩

inductive Label where
  /-- a search begins -/
  | search
  /-- a run begins -/
  | run
  /-- data/data.go:109: `Close` -/
  | close
  /-- search `j` takes a step -/
  | s (j : Nat)
  /-- run `p` takes a step; `f`: creating the temporary file succeeds (data/newsync.go:173-177) -/
  | r (p : Nat) (f : Bool)
  /-- run `p` comes to the end of the scan without having created an index -/
  | skip (p : Nat)
  deriving DecidableEq, Repr

/-- One step of search `j`; `none`: it has to wait, or is over. -/
def sstep (s : St) (j : Nat) : SPhase → Option St
  | .start => some { s with searches := s.searches.set j (if s.index.isSome then .sawIndex else .done) }
  -- the slice has at least 1000 elements (data/newsync.go:147)
  | .sawIndex => some { s with searches := s.searches.set j (if s.data.isSome then .sawData else .done) }
  | .sawData =>
    if s.writer = none then some { s with readers := j :: s.readers, searches := s.searches.set j .locked } else none
  | .locked =>
    match s.data with
    | some d => some { s with searches := s.searches.set j (.gotData d) }
    | none => some { s with searches := s.searches.set j .crashed }
  | .gotData d =>
    match s.index with
    | some p => some { s with searches := s.searches.set j (.calling d p) }
    | none => some { s with searches := s.searches.set j .crashed }
  | .calling d p => some { s with searches := s.searches.set j (.looking d p) }
  | .looking _ _ => some { s with readers := s.readers.erase j, searches := s.searches.set j .done }
  | .done => none
  | .crashed => none

/-- One step of run `p`.  Simplification: `Unload` and `DeleteAnnoyIndexAngular` are one step (both happen under the lock). -/
def rstep (s : St) (p : Nat) (f : Bool) : RPhase → Option St
  | .scanning =>
    -- data/newsync.go:169: only while the data set is alive
    if s.alive then
      some { s with files := if f then p :: s.files else s.files, runs := s.runs.set p (.building f) }
    else none
  | .building f =>
    if s.writer = none ∧ s.readers = [] then some { s with writer := some p, runs := s.runs.set p (.locked f) } else none
  | .locked f =>
    match s.data, s.index with
    | none, _ => some { s with runs := s.runs.set p (.dropped f) }
    | some _, some q => some { s with released := q :: s.released, runs := s.runs.set p (.dropped f) }
    | some _, none => some { s with runs := s.runs.set p .crashed }
  | .dropped f => some { s with runs := s.runs.set p (.named f s.file) }
  | .named f old => some { s with file := if f then some p else none, runs := s.runs.set p (.filed old) }
  | .filed old => some { s with index := some p, runs := s.runs.set p (.indexed old) }
  | .indexed old => some { s with data := some p, runs := s.runs.set p (.stored old) }
  | .stored old => some { s with writer := none, runs := s.runs.set p (.unlocked old) }
  | .unlocked old =>
    some { s with
      files := match old with
        | some q => s.files.erase q
        | none => s.files
      runs := s.runs.set p .done }
  | .done => none
  | .crashed => none

def step (s : St) : Label → Option St
  | .search => some { s with searches := s.searches ++ [.start] }
  | .run => some { s with runs := s.runs ++ [.scanning] }
  | .close => some { s with alive := false }
  | .s j =>
    match s.searches[j]? with
    | some ph => sstep s j ph
    | none => none
  | .r p f =>
    match s.runs[p]? with
    | some ph => rstep s p f ph
    | none => none
  | .skip p =>
    match s.runs[p]? with
    | some .scanning => some { s with runs := s.runs.set p .done }
    | _ => none

def exec (s : St) : List Label → Option St
  | [] => some s
  | l :: ls => (step s l).bind fun s => exec s ls

/-- Reachable states. -/
inductive Reach : St → Prop
  | init : Reach init
  | step {s s' : St} (l : Label) : Reach s → step s l = some s' → Reach s'

theorem reach_exec : ∀ (ls : List Label) {s s' : St}, Reach s → exec s ls = some s' → Reach s' := by
  intro ls
  induction ls with
  | nil => intro s s' h he; simp only [exec, Option.some.injEq] at he; exact he ▸ h
  | cons l ls ih =>
    intro s s' h he
    simp only [exec] at he
    cases hs : Idx.step s l with
    | none => simp [hs] at he
    | some t => rw [hs] at he; exact ih (.step l h hs) he

end Idx
end Veri
