import Verif.Data.Props
/-
`Dataset`: the data sets of a node.  data/dataset.go, and the background activity that runs over it.
-/
set_option autoImplicit false
namespace Veri
namespace DS

/-- What is outside the repository. -/
structure XEnv where
  /-- the expiry time after go-cache `IncrementExpiration`, from the old one, the time and the duration -/
  extend : Option Int → Int → Int → Option Int
  /-- `json.Marshal` of a configuration; `none`: an error -/
  marshal : DataConfig → Option Bytes
  /-- `json.Unmarshal` of a line into a configuration; `none`: an error -/
  unmarshal : Bytes → Option DataConfig

/-- A configuration whose utilization is a number that JSON has, and not the negative zero (which `omitempty` may drop). -/
def Plain (c : DataConfig) : Prop :=
  F64.mag c.targetUtilization < 0x7FF0000000000000 ∧ c.targetUtilization ≠ 0x8000000000000000

/-- What is assumed of that code: `IncrementExpiration` as in Verif/Search/Cache; encoding/json gives back a configuration
from the line written for it, the line has no line feed in it, an infinite or not-a-number utilization is an error, and an
empty line is not JSON. -/
structure XEnv.Ok (X : XEnv) : Prop where
  extend : ∀ (old now d : Int), now ≤ old → 0 < d → ∃ e, X.extend (some old) now d = some e ∧ now + d ≤ e ∧ e ≤ old + d
  plain : ∀ c, Plain c → ∃ l, X.marshal c = some l ∧ (10 : UInt8) ∉ l ∧ X.unmarshal (l ++ [10]) = some c
  notNumber : ∀ c, ¬ F64.mag c.targetUtilization < 0x7FF0000000000000 → X.marshal c = none
  empty : X.unmarshal [10] = none

/-- An item of `DataList`: the object, and its expiry time in nanoseconds (`none`: never). -/
structure Slot where
  data : Data
  expires : Option Int
  deriving DecidableEq, Repr

/-- The item table of `DataList`. -/
abbrev DL := AMap String Slot

/-- go-cache: an item is found until its expiry time. -/
def live (now : Int) (s : Slot) : Bool :=
  match s.expires with
  | none => true
  | some e => decide (now ≤ e)

/-- go-cache `Get`. -/
def lookup (now : Int) (m : DL) (k : String) : Option Slot := (m.get? k).filter (live now)

/-- data/dataset.go:45-56 `GetDefaultConfig`; the utilization is 0.4. -/
def defaultConfig (name : String) : DataConfig := ⟨name, 0, 1000, 0x3FD999999999999A, false, 1, true, 0⟩

def second : Int := 1000000000

/-- data/dataset.go:58-63 `GetRetention`, in nanoseconds: an `int64` product. -/
def getRetention (r : UInt64) : Int :=
  if r = 0 then 14 * 24 * 3600 * second else (r.toInt64 * 1000000000).toInt

/-- go-cache `Set` and `Add`: duration 0 is the default (data/dataset.go:34), a negative one means no expiry. -/
def expiry (now d : Int) : Option Int :=
  if d = 0 then some (now + 24 * 3600 * second) else if 0 < d then some (now + d) else none

/-- data/dataset.go:107-130 `CreateIfNotExists`, run without interference (see Verif/Dataset/Load for the other case).
The background save it starts is a `walkBegin` of the machine below.  A nil configuration panics. -/
def createIfNotExists (now : Int) (m : DL) (c : DataConfig) : Res DL :=
  match lookup now m c.name with
  | none => .ok (m.set c.name ⟨(Data.newPreData c).initData, expiry now (getRetention c.retention)⟩)
  | some s =>
    (Res.ofOption s.data.config).bind fun c0 =>
    if c.version > c0.version then .ok (m.set c.name { s with data := { s.data with config := some c } }) else .ok m

/-- data/dataset.go:70-73: the item found is kept for another retention time. -/
def touch (X : XEnv) (now : Int) (m : DL) (name : String) (s : Slot) : Res (DL × Data) :=
  (Res.ofOption s.data.config).bind fun c =>
  .ok (m.set name { s with expires := X.extend s.expires now (getRetention c.retention) }, s.data)

/-- data/dataset.go:65-75 `Get` with 99-105 `GetOrCreateIfNotExists` inlined.  With one reading of the clock the item is
found after its creation (`get_found`), so the error at the end never comes up. -/
def get (X : XEnv) (now : Int) (m : DL) (name : String) : Res (DL × Data) :=
  match lookup now m name with
  | some s => touch X now m name s
  | none =>
    (createIfNotExists now m (defaultConfig name)).bind fun m =>
    match lookup now m name with
    | some s => touch X now m name s
    | none => .err .notExist

/-- data/dataset.go:88-97 `GetNoCreate`. -/
def getNoCreate (now : Int) (m : DL) (name : String) : Res Data :=
  match lookup now m name with
  | some s => .ok s.data
  | none => .err .notExist

/-- data/dataset.go:99-105 `GetOrCreateIfNotExists`, and node/nodeservice.go:221-229 `CreateDataIfNotExists`. -/
def getOrCreate (X : XEnv) (now : Int) (m : DL) (c : DataConfig) : Res (DL × Data) :=
  (createIfNotExists now m c).bind fun m => get X now m c.name

/-- data/dataset.go:132-143 `Delete`, the effect on the list. -/
def delete (now : Int) (m : DL) (name : String) : Res DL :=
  match lookup now m name with
  | some _ => .ok (m.erase name)
  | none => .err .notExist

/-- data/dataset.go:145-153 `List`, up to order. -/
def names (now : Int) (m : DL) : List String := (m.filter fun p => live now p.2).map (·.1)

/-- go-cache janitor. -/
def janitor (now : Int) (m : DL) : DL := m.filter fun p => live now p.2

/-- data/data.go:128-142 `CheckIfActive`.  `order` is the iteration order of the live sources, `info` their answers; a
source that does not answer gives a nil pointer. -/
def activeSources (info : SourceId → Option DataInfo) : List SourceId → Res Bool
  | [] => .ok false
  | id :: ids =>
    match info id with
    | none => .panic
    | some i => if i.n > 0 then .ok true else activeSources info ids

def checkIfActive (info : SourceId → Option DataInfo) (order : List SourceId) (dt : Data) : Res Bool :=
  if dt.n > 0 then .ok true else activeSources info order

/-- data/dataset.go:193-202: the names to be removed. -/
def inactive (now : Int) (info : String → SourceId → Option DataInfo) (order : String → List SourceId) (m : DL) :
    List String → Res (List String)
  | [] => .ok []
  | k :: ks =>
    match lookup now m k with
    | none => inactive now info order m ks
    | some s =>
      (checkIfActive (info k) (order k) s.data).bind fun a =>
      (inactive now info order m ks).bind fun r => .ok (if a then r else k :: r)

/-- data/dataset.go:190-207 `ReloadRuns`; `ks` is the iteration order over the live items. -/
def reloadRuns (now : Int) (info : String → SourceId → Option DataInfo) (order : String → List SourceId) (ks : List String)
    (m : DL) : Res DL :=
  (inactive now info order m ks).bind fun r => .ok (r.foldl (fun m k => m.erase k) m)

/-- data/dataset.go:155-164 `DataConfigList`, and the loops of `SaveIndex` and `Close`: `Get` for each name. -/
def walk (X : XEnv) (now : Int) : List String → DL → Res (DL × List DataConfig)
  | [], m => .ok (m, [])
  | k :: ks, m =>
    (get X now m k).bind fun (m, d) =>
    (Res.ofOption d.config).bind fun c =>
    (walk X now ks m).bind fun (m, cs) => .ok (m, c :: cs)

/-- data/dataset.go:220-221: a configuration that cannot be encoded leaves an empty line. -/
def line (X : XEnv) (c : DataConfig) : Bytes := (X.marshal c).getD [] ++ [10]

/-- What `SaveIndex` writes for these configurations. -/
def content (X : XEnv) (cs : List DataConfig) : Bytes := (cs.map (line X)).flatten

/-- data/dataset.go:209-227 `SaveIndex`, run without interference: the new list and the content of the file. -/
def saveIndex (X : XEnv) (now : Int) (order : List String) (m : DL) : Res (DL × Bytes) :=
  (walk X now order m).bind fun (m, cs) => .ok (m, content X cs)

/-- data/dataset.go:173-177: the complete lines of a file, each with its line feed; what follows the last line feed is
dropped. -/
def readLines : Bytes → Bytes → List Bytes
  | _, [] => []
  | acc, b :: bs => if b = 10 then (acc ++ [10]) :: readLines [] bs else readLines (acc ++ [b]) bs

/-- data/dataset.go:166-188 `LoadIndex`. -/
def loadLines (X : XEnv) (now : Int) : List Bytes → DL → Res DL
  | [], m => .ok m
  | l :: ls, m =>
    match X.unmarshal l with
    | none => loadLines X now ls m
    | some c => (createIfNotExists now m c).bind fun m => loadLines X now ls m

def loadIndex (X : XEnv) (now : Int) (file : Bytes) (m : DL) : Res DL := loadLines X now (readLines [] file) m

/-- node/nodeservice.go:35-51 `Node.Insert`: `nowS` is the clock in seconds that the store uses. -/
def insert {σ : Type} (X : XEnv) (drain : Bool) (now : Int) (nowS : Int64) (order : List SourceId)
    (call : Data.RemoteInsert σ) (m : DL) (w : σ) (name : String) (datum : Option Datum) (config : Option InsertConfig) :
    Res (DL × σ × Option Err) :=
  if drain then .ok (m, w, some .drain)
  else
    (get X now m name).bind fun (m, dt) =>
    (Data.insert nowS order call dt w datum config).bind fun out =>
    match m.get? name with
    | none => .panic
    | some s => .ok (m.set name { s with data := out.data }, out.world, out.err)

/-- node/nodeservice.go:106-116 `GetDataInfo`. -/
def getDataInfo (X : XEnv) (now : Int) (m : DL) (name : String) : Res (DL × DataInfo) :=
  (get X now m name).bind fun (m, dt) => dt.getDataInfo.bind fun i => .ok (m, i)

/-- node/nodeservice.go:118-154 `SearchStream`, the part that concerns the list: `GetNoCreate` (line 136), and the search `f`
on the object found (which may initialize it, data/search.go:166-168). -/
def search {α : Type} (now : Int) (m : DL) (name : String) (f : Data → Res (Data × α)) : Res (DL × α) :=
  (getNoCreate now m name).bind fun dt =>
  (f dt).bind fun (dt, a) =>
  match m.get? name with
  | none => .panic
  | some s => .ok (m.set name { s with data := dt }, a)

/-! ### Background activity -/

/-- A goroutine in the loop of `SaveIndex` (with a file) or of `DataConfigList` or `Close` (without). -/
structure Walk where
  /-- the rest of the `Items()` it took -/
  pending : List String
  save : Bool
  /-- data/dataset.go:212 has been executed -/
  opened : Bool
  /-- what the `bufio.Writer` holds -/
  buf : Bytes
  deriving DecidableEq, Repr

structure DState where
  list : DL
  now : Int
  /-- content of `index.save` -/
  file : Bytes
  walks : List Walk
  /-- `LoadIndex`, while it runs: the position in the file, and what the reader has taken and not yet given -/
  loader : Option (Nat × Bytes)
  deriving DecidableEq, Repr

inductive Label where
  | tick (now : Int)
  /-- a client or a peer creates the data set or upgrades its configuration -/
  | create (c : DataConfig)
  /-- a client asks for the data set (insert, info, data stream): `Get` -/
  | use (name : String)
  /-- a client deletes the data set -/
  | delete (name : String)
  | janitor
  | reload (info : String → SourceId → Option DataInfo) (order : String → List SourceId) (ks : List String)
  /-- `Items()` of a background walk, in iteration order -/
  | walkBegin (save : Bool) (order : List String)
  /-- `O_TRUNC` -/
  | walkOpen (j : Nat)
  /-- one turn of the loop -/
  | walkStep (j : Nat)
  /-- bytes go to the file: `n` of more than 4096 that the writer holds, or everything at the end (`Flush`) -/
  | walkFlush (j : Nat) (n : Nat)
  /-- data/dataset.go:168 -/
  | loadBegin
  /-- the `bufio.Reader` has no line feed left and reads up to 4096 bytes -/
  | loadRead
  /-- data/dataset.go:178-184 for one line -/
  | loadLine
  /-- the end of the file as it is now -/
  | loadEnd

/-- The first line of what has been read, with its line feed, and the rest. -/
def cutLine (b : Bytes) : Bytes × Bytes := (b.takeWhile (· ≠ 10) ++ [10], (b.dropWhile (· ≠ 10)).drop 1)

def step (X : XEnv) (s : DState) : Label → Option DState
  | .tick now => if s.now ≤ now then some { s with now := now } else none
  | .create c =>
    match getOrCreate X s.now s.list c with
    | .ok (m, _) => some { s with list := m }
    | _ => none
  | .use name =>
    match get X s.now s.list name with
    | .ok (m, _) => some { s with list := m }
    | _ => none
  | .delete name =>
    match delete s.now s.list name with
    | .ok m => some { s with list := m }
    | _ => none
  | .janitor => some { s with list := janitor s.now s.list }
  | .reload info order ks =>
    match reloadRuns s.now info order ks s.list with
    | .ok m => some { s with list := m }
    | _ => none
  | .walkBegin save order =>
    if order.isPerm (names s.now s.list) = true then some { s with walks := s.walks ++ [⟨order, save, false, []⟩] } else none
  | .walkOpen j =>
    match s.walks[j]? with
    | some w =>
      if w.save = true ∧ w.opened = false then some { s with file := [], walks := s.walks.set j { w with opened := true } }
      else none
    | none => none
  | .walkStep j =>
    match s.walks[j]? with
    | some ⟨k :: ks, save, opened, buf⟩ =>
      if save = opened then
        match get X s.now s.list k with
        | .ok (m, d) =>
          match d.config with
          | some c => some { s with list := m, walks := s.walks.set j ⟨ks, save, opened, if save then buf ++ line X c else []⟩ }
          | none => none
        | _ => none
      else none
    | _ => none
  | .walkFlush j n =>
    match s.walks[j]? with
    | some w =>
      if w.save = true ∧ w.opened = true ∧ ((w.pending = [] ∧ n = w.buf.length) ∨ (4096 < w.buf.length ∧ n ≤ w.buf.length)) then
        some { s with file := s.file ++ w.buf.take n, walks := s.walks.set j { w with buf := w.buf.drop n } }
      else none
    | none => none
  | .loadBegin => if s.loader = none then some { s with loader := some (0, []) } else none
  | .loadRead =>
    match s.loader with
    | some (pos, buf) =>
      if (10 : UInt8) ∉ buf ∧ pos < s.file.length then
        some { s with loader := some (pos + min 4096 (s.file.length - pos), buf ++ (s.file.drop pos).take 4096) }
      else none
    | none => none
  | .loadLine =>
    match s.loader with
    | some (pos, buf) =>
      if (10 : UInt8) ∈ buf then
        match X.unmarshal (cutLine buf).1 with
        | none => some { s with loader := some (pos, (cutLine buf).2) }
        | some c =>
          match createIfNotExists s.now s.list c with
          | .ok m => some { s with list := m, loader := some (pos, (cutLine buf).2) }
          | _ => none
      else none
    | none => none
  | .loadEnd =>
    match s.loader with
    | some (pos, buf) => if (10 : UInt8) ∉ buf ∧ s.file.length ≤ pos then some { s with loader := none } else none
    | none => none

def exec (X : XEnv) (s : DState) : List Label → Option DState
  | [] => some s
  | l :: ls => (step X s l).bind fun s => exec X s ls

inductive Reach (X : XEnv) (s0 : DState) : DState → Prop
  | refl : Reach X s0 s0
  | step {s s' : DState} (l : Label) : Reach X s0 s → step X s l = some s' → Reach X s0 s'

/-- A fresh process, with what is on disk. -/
def fresh (now : Int) (file : Bytes) : DState := ⟨[], now, file, [], none⟩

end DS
end Veri
