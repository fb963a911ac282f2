import Verif.Dataset.Props
/-
What the server does to the file system when data sets go away and when it ends: data/data.go:62-80, 107-125,
data/dataset.go:24-43, 132-143, 190-207, 229-239, server/veriserviceserver.go:47-58, 83-100.

A file is its absolute path, a list of names.  Simplifications: no symbolic links; the directory of the node is given as an
absolute path without `.` and `..` (as `ioutil.TempDir` gives it); closing a data set is one step (Verif/Process has its steps).
-/
set_option autoImplicit false
namespace Veri
namespace Files

abbrev Path := List String

/-- The file system: the files there are. -/
abbrev FSys := List Path

/-- The names in a path, on the characters. -/
def splitChars : List Char → List Char → List (List Char)
  | acc, [] => [acc]
  | acc, c :: cs => if c = '/' then acc :: splitChars [] cs else splitChars (acc ++ [c]) cs

def split (s : String) : List String := (splitChars [] s.toList).map String.ofList

/-- `path.Clean` on an absolute path, one name at a time: empty names and `.` are dropped, `..` takes the last one away. -/
def cleanStep (out : Path) (c : String) : Path :=
  if c = "" ∨ c = "." then out else if c = ".." then out.dropLast else out ++ [c]

/-- `path.Join(dir, name)` for an absolute clean `dir`. -/
def join (dir : Path) (name : String) : Path := (split name).foldl cleanStep dir

/-- data/dataset.go:36 `DataPath` and data/data.go:67, 79 `DBPath`. -/
def dbPath (dir : Path) (name : String) : Path := join (join dir "data") name

/-- `os.RemoveAll`. -/
def removeAll (p : Path) (fs : FSys) : FSys := fs.filter fun f => !p.isPrefixOf f

/-- data/data.go:116, 121-125 `DeletePath` for these data sets, one after the other. -/
def drop (dir : Path) (names : List String) (fs : FSys) : FSys := names.foldl (fun fs n => removeAll (dbPath dir n) fs) fs

/-- The data sets a step removes from the list: data/dataset.go:138, 198 and, for those removed by go-cache, 24-28, 35
(`OnEvicted`). -/
def gone (m m' : DS.DL) : List String := (m.map (·.1)).filter fun k => (m'.get? k).isNone

/-- The list of data sets of the node in `dir`, and the disk. -/
structure FState where
  ds : DS.DState
  fs : FSys
  deriving DecidableEq, Repr

inductive FLabel where
  /-- something happens to the list -/
  | ds (l : DS.Label)
  /-- data/dataset.go:231-237: shutdown closes the data sets, these being the live ones -/
  | close (names : List String)

/-- The data sets that are closed by a step. -/
def closed (X : DS.XEnv) (s : FState) : FLabel → List String
  | .ds l =>
    match DS.step X s.ds l with
    | some d => gone s.ds.list d.list
    | none => []
  | .close names => names

def step (X : DS.XEnv) (dir : Path) (s : FState) : FLabel → Option FState
  | .ds l => (DS.step X s.ds l).map fun d => ⟨d, drop dir (gone s.ds.list d.list) s.fs⟩
  | .close names =>
    if names.isPerm (DS.names s.ds.now s.ds.list) = true then some { s with fs := drop dir names s.fs } else none

def exec (X : DS.XEnv) (dir : Path) (s : FState) : List FLabel → Option FState
  | [] => some s
  | l :: ls => (step X dir s l).bind fun s => exec X dir s ls

/-! ### The process -/

/-- How the server ends. -/
inductive Ending where
  /-- node/nodeservice.go:156-172 `Listen` returns, for instance because the port is in use -/
  | listenReturns
  /-- server/veriserviceserver.go:91-96: a signal, the data sets are closed and the process exits, without running deferred
  functions -/
  | signal

/-- server/veriserviceserver.go:58, 83-100: the disk after the server in `dir` has ended, the data sets being these. -/
def serverEnd (dir : Path) (names : List String) (fs : FSys) : Ending → FSys
  | .listenReturns => removeAll dir fs
  | .signal => drop dir names fs

end Files
end Veri
