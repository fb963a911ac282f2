import Verif.Store.Conc
import Verif.Vector.Props
/-
`Data`: one data set on one node.  data/data.go and data/insert.go.
-/
set_option autoImplicit false
namespace Veri

/-- veriservice/veriservice.pb.go:1003-1016 `DataConfig`. -/
structure DataConfig where
  name : String
  version : UInt64
  targetN : UInt64
  targetUtilization : F64
  noTarget : Bool
  replicationOnInsert : UInt32
  enforceReplicationOnInsert : Bool
  retention : UInt64
  deriving DecidableEq, Repr

/-- veriservice/veriservice.pb.go:860-878 `DataInfo`. -/
structure DataInfo where
  name : String
  timestamp : UInt64
  version : UInt64
  avg : List F32
  hist : List F32
  n : UInt64
  maxDistance : F64
  targetN : UInt64
  targetUtilization : F64
  noTarget : Bool
  replicationOnInsert : UInt32
  enforceReplicationOnInsert : Bool
  retention : UInt64
  deriving DecidableEq, Repr

/-- The key of a source in `Data.Sources`; for a remote peer it is its address
(node/datasourceclient.go:16-21, 100-102).  The object behind it is the peer itself. -/
abbrev SourceId := String

/-- data/data.go:27-32 `Annoyer`, built: the snapshot `DataIndex` (a slice of possibly nil pointers)
and the Annoy index, represented by the vectors added to it (data/newsync.go:180). -/
structure Annoyer where
  dataIndex : List (Option Datum)
  items : List (Nat × List F32)
  deriving DecidableEq, Repr

/-- data/data.go:35-54 `Data`.  `sources = none` is a nil cache pointer; the expiry times of the sources
(go-cache, ten minutes) are kept with them, in nanoseconds.  Not modelled here: `Path`, `DBPath`, the mutex;
`QueryCache` is modelled separately (Verif/Search/Cache). -/
structure Data where
  config : Option DataConfig
  avg : List F32
  n : UInt64
  maxDistance : F64
  hist : List F32
  timestamp : UInt64
  lastRunTimestamp : UInt64
  dirty : Bool
  sources : Option (AMap SourceId Int)
  initialized : Bool
  alive : Bool
  annoyer : Option Annoyer
  runs : Int
  dbMap : DBMap
  recentInsertCount : UInt64
  deriving DecidableEq, Repr

namespace Data

/-- data/data.go:73-81 `NewPreData`: zero values apart from the configuration. -/
def newPreData (config : DataConfig) : Data where
  config := some config
  avg := []
  n := 0
  maxDistance := 0
  hist := []
  timestamp := 0
  lastRunTimestamp := 0
  dirty := false
  sources := none
  initialized := false
  alive := false
  annoyer := none
  runs := 0
  dbMap := []
  recentInsertCount := 0

/-- data/data.go:83-95 `InitData`.  The goroutine `Run` it starts is modelled separately
(Verif/Process, Verif/Dataset/Run). -/
def initData (dt : Data) : Data :=
  if dt.initialized then dt
  else { dt with sources := some [], alive := true, initialized := true }

/-- data/data.go:62-70 `NewData`. -/
def newData (config : DataConfig) : Data := (newPreData config).initData

/-- data/data.go:205-219 `GetDataInfo`: the replication and retention fields of the result are not set.
A nil configuration panics. -/
def getDataInfo (dt : Data) : Res DataInfo :=
  match dt.config with
  | none => .panic
  | some c => .ok
    { name := c.name, timestamp := dt.timestamp, version := c.version, avg := dt.avg, hist := dt.hist, n := dt.n,
      maxDistance := dt.maxDistance, targetN := c.targetN, targetUtilization := c.targetUtilization,
      noTarget := c.noTarget, replicationOnInsert := 0, enforceReplicationOnInsert := false, retention := 0 }

/-- data/data.go:239-253 `RunOnRandomSources`: `order` is the order in which Go iterates over
`dt.Sources.Items()`, `f` the source function on a state `τ`. -/
def runOnSources {τ : Type} (f : SourceId → τ → τ × Option Err) : Int → List SourceId → τ → τ × Option Err
  | _, [], t => (t, none)
  | limit, s :: ss, t =>
    if limit < 0 then (t, none)
    else
      match f s t with
      | (t', some e) => (t', some e)
      | (t', none) => runOnSources f (limit - 1) ss t'

/-- A remote insert as seen by the caller: what calling `source.Insert(datum, config)` does to the world
outside this data set, and the error it returns. -/
abbrev RemoteInsert (σ : Type) := SourceId → Datum → InsertConfig → σ → σ × Option Err

/-- data/insert.go:33-45, the function run on each source, on the state (world, `counter`). -/
def replicate {σ : Type} (call : RemoteInsert σ) (datum : Datum) (config : InsertConfig) (replication : UInt32)
    (s : SourceId) (t : σ × UInt32) : (σ × UInt32) × Option Err :=
  let (w, err) := call s datum config t.1
  let counter := if err = none then t.2 + 1 else t.2
  ((w, counter), if counter ≥ replication then some .replicationReached else none)

/-- What an insert leaves behind: the data set, the outside world, the configuration struct the caller
passed (after the call), and the error returned. -/
structure InsertOut (σ : Type) where
  data : Data
  world : σ
  config : Option InsertConfig
  err : Option Err

/-- data/insert.go:12, the condition: a configuration, a target, and the last computed size not below it. -/
def overTarget (dt : Data) : Bool :=
  match dt.config with
  | some c => !c.noTarget && decide (dt.n ≥ c.targetN)
  | none => false

/-- data/insert.go:11-51 `Insert`.  `order` is the iteration order of the sources, `now` the clock. -/
def insert {σ : Type} (now : Int64) (order : List SourceId) (call : RemoteInsert σ) (dt : Data) (w : σ)
    (datum : Option Datum) (config : Option InsertConfig) : Res (InsertOut σ) :=
  -- lines 12-14
  if dt.overTarget then
    .ok ⟨dt, w, config, some .overTarget⟩
  else
    -- lines 15-17
    let dt := dt.initData
    -- lines 18-22
    (Store.insertBDMap now dt.dbMap datum config).bind fun (dbMap, isNew) =>
    let dt := { dt with
      dbMap := dbMap
      recentInsertCount := if isNew then dt.recentInsertCount + 1 else dt.recentInsertCount
      dirty := true }
    -- lines 23-28
    let c := config.getD ⟨0, 0⟩
    -- line 30
    (Res.ofOption dt.config).bind fun dc =>
    if dc.enforceReplicationOnInsert = true ∧ c.count = 0 then
      -- line 31: the caller's struct is changed if there is one
      let c := { c with count := c.count + 1 }
      let config := config.map fun _ => c
      -- line 33: a nil `Sources` panics; a nil datum has panicked before
      (Res.ofOption dt.sources).bind fun _ =>
      (Res.ofOption datum).bind fun d =>
      let ((w, counter), _) := runOnSources (replicate call d c dc.replicationOnInsert) 5 order (w, 1)
      .ok ⟨dt, w, config, if counter < dc.replicationOnInsert then some .tooFewReplicas else none⟩
    else
      .ok ⟨dt, w, config, none⟩

/-- data/delete.go:8-10 `Delete`. -/
def delete (dt : Data) (datum : Option Datum) : Res Data :=
  (Store.deleteBDMap dt.dbMap datum).bind fun m => .ok { dt with dbMap := m }

/-- node/nodeservice.go:35-51 `Node.Insert`, given the data set that `Dataset.Get` returned;
`drain` is `state.Drain`. -/
def nodeInsert {σ : Type} (drain : Bool) (now : Int64) (order : List SourceId) (call : RemoteInsert σ) (dt : Data)
    (w : σ) (datum : Option Datum) (config : Option InsertConfig) : Res (InsertOut σ) :=
  if drain then .ok ⟨dt, w, config, some .drain⟩
  else insert now order call dt w datum config

end Data
end Veri
