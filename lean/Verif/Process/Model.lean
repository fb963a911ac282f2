import Verif.Search.Props
import Verif.Process.Stats
/-
Maintenance of a data set: data/newsync.go:93-227 `Process`, data/sync.go, data/data.go:108-118 `Close` and 170-195
`DataSourceDiffMap`.

A run has two goroutines, the scan and the consumer of the transfer queue, and the consumer may go on after the run has
returned; runs may overlap (`Run` and `Close` both start them).  So maintenance is a machine: `step` executes one atomic
step, chosen by a label that also carries everything that is not determined by the state (map orders, random numbers,
replies of peers, the clock).
-/
set_option autoImplicit false
namespace Veri

/-- Go's `a <= b` on float64. -/
def F64.le (a b : F64) : Bool := !F64.isNaN a && !F64.isNaN b && decide (F64.key a ≤ F64.key b)

namespace Proc
open Gencoder Store

/-- What maintenance uses from outside the repository. -/
structure PEnv where
  o : FOps F32 F64
  s : SOps F32 F64
  /-- data/sync.go:8 `uint64(float64(targetN) * utilization)` -/
  mark : UInt64 → F64 → UInt64

/-- The float64 constant 0.01. -/
def c001 : F64 := 0x3F847AE147AE147B

/-! ### Planning -/

/-- data/data.go:185: the statistics of the two sides are close enough. -/
def closeStats (P : PEnv) (loc info : DataInfo) : Bool :=
  F64.le (P.o.addD (Vec.vectorDistance P.o loc.avg info.avg) (Vec.vectorDistance P.o loc.hist info.hist))
    (P.o.mulD c001 loc.maxDistance)

/-- data/data.go:180-190: the number of transfers planned for one peer (uint64 arithmetic wraps). -/
def diffFor (P : PEnv) (loc info : DataInfo) : UInt64 :=
  let d := (loc.n - info.n) / 2 + 1
  let diff := if d < 1000 then d else 1000
  let fraction := P.o.divD (P.o.ofNatD diff.toNat) (P.o.ofNatD (loc.n + 1).toNat)
  let diff := if info.n > loc.n then 1 else diff
  if closeStats P loc info then (if P.o.ltD fraction c001 then 0 else 1) else diff

/-- data/data.go:177-193, the function run on each source. -/
def planSource (P : PEnv) (infos : SourceId → Option DataInfo) (loc : DataInfo) (id : SourceId)
    (t : AMap SourceId UInt64 × UInt64) : (AMap SourceId UInt64 × UInt64) × Option Err :=
  match infos id with
  | none => (t, none)
  | some info => ((t.1.set id (diffFor P loc info), t.2 + diffFor P loc info), none)

/-- data/data.go:170-195 `DataSourceDiffMap`; `order` is the iteration order over the sources, `infos` what they answer
to `GetDataInfo`. -/
def dataSourceDiffMap (P : PEnv) (infos : SourceId → Option DataInfo) (order : List SourceId) (loc : DataInfo) :
    AMap SourceId UInt64 × UInt64 :=
  (Data.runOnSources (planSource P infos loc) 5 order ([], 0)).1

/-- data/newsync.go:98-100: whether the run does anything (uint64 subtraction wraps). -/
def gate (force : Bool) (now last : UInt64) (recent limit localN : UInt64) : Bool :=
  let timeDiff := now - last
  (decide (timeDiff ≥ 60) && (decide (recent > 0) || decide (limit > localN / 10) || decide (timeDiff ≥ 600))) || force

/-- data/sync.go:7-13 `isEvictionOn` (uint64 subtraction wraps). -/
def isEvictionOn (P : PEnv) (localInfo : DataInfo) (config : DataConfig) (deleted : UInt64) : Bool :=
  let lowerThreshold := P.mark localInfo.targetN config.targetUtilization
  !config.noTarget && decide (localInfo.n - deleted ≥ lowerThreshold)

/-- data/sync.go:25-36 `InsertConfigFromExpireAt` (uint64 subtraction wraps). -/
def insertConfigFromExpireAt (now : UInt64) (expiresAt : UInt64) : InsertConfig :=
  ⟨if expiresAt > 0 then expiresAt - now else 0, 1⟩

/-! ### One run -/

/-- veriservice/veriservice.pb.go `InsertDatumWithConfig`, an element of the transfer queue. -/
structure Item where
  datum : Datum
  config : InsertConfig
  deriving DecidableEq, Repr

/-- Where the scan is. -/
inductive Phase where
  /-- between two entries -/
  | scanning
  /-- data/newsync.go:151-182 done for this entry, line 183 to come -/
  | met (e : Entry)
  /-- data/newsync.go:186: sending to the queue -/
  | sending (x : Item)
  /-- `Process` has returned -/
  | finished
  deriving DecidableEq, Repr

/-- The consumer goroutine, data/newsync.go:110-135: the element it works on with the sources still to ask, and its
variables. -/
structure Consumer where
  cur : Option (Item × List (SourceId × UInt64))
  countMap : AMap SourceId UInt64
  deleted : UInt64
  deriving DecidableEq, Repr

/-- A run of `Process` past its gate.  `began`, `met`, `sent` and `evicted` record its history: the clock at its start, the
live entries the scan met, what it queued, and the keys the consumer deleted.  Nothing depends on them. -/
structure Inst where
  began : Int64
  config : DataConfig
  localInfo : DataInfo
  diffMap : AMap SourceId UInt64
  /-- the capacity of the queue and the bound on what is queued -/
  limit : UInt64
  fraction : F64
  nFloat : F32
  /-- `len(newDataIndex)` -/
  size : Nat
  phase : Phase
  /-- keys the `Range` is past -/
  seen : List Bytes
  met : List Entry
  stats : Stats.Acc F32 F64
  /-- the non-nil elements of `newDataIndex`, with their positions, latest first -/
  slots : List (Nat × Datum)
  /-- `datumStream` -/
  chan : List Item
  /-- `insertionCounter` -/
  counter : UInt64
  sent : List Item
  consumer : Option Consumer
  evicted : List Bytes
  deriving DecidableEq, Repr

/-- go-cache `Get` and `Items` see items that have not expired. -/
def liveSource (now : Int64) (m : AMap SourceId Int) (id : SourceId) : Bool :=
  match m.get? id with
  | none => false
  | some e => decide (now.toInt * 1000000000 ≤ e)

def liveSources (now : Int64) (m : AMap SourceId Int) : List SourceId := (m.map (·.1)).filter (liveSource now m)

/-- data/newsync.go:93-149: up to the scan.  If the gate is closed, data/newsync.go:224-226.
Panics: nil `Sources` (data/data.go:240) and nil configuration (data/data.go:213).  Simplification: one atomic step. -/
def begin (P : PEnv) (now : Int64) (force : Bool) (infos : SourceId → Option DataInfo) (order : List SourceId)
    (dt : Data) : Res (Data × Option Inst) :=
  dt.getDataInfo.bind fun localInfo =>
  (Res.ofOption dt.sources).bind fun _ =>
  (Res.ofOption dt.config).bind fun config =>
  let (diffMap, limit) := dataSourceDiffMap P infos order localInfo
  if gate force now.toUInt64 dt.lastRunTimestamp dt.recentInsertCount limit localInfo.n then
    .ok ({ dt with recentInsertCount := 0 }, some
      { began := now
        config := config
        localInfo := localInfo
        diffMap := diffMap
        limit := limit
        fraction := if localInfo.n > 0 then P.o.divD (P.o.ofNatD limit.toNat) (P.o.ofNatD localInfo.n.toNat) else 0
        nFloat := Stats.nFloat P.o P.s dt.n
        size := if dt.n.toNat < 2 ^ 63 then max 1000 dt.n.toNat else 1000
        phase := .scanning
        seen := []
        met := []
        stats := Stats.fresh P.o
        slots := []
        chan := []
        counter := 0
        sent := []
        consumer := if localInfo.n > 0 then some ⟨none, [], 0⟩ else none
        evicted := [] })
  else .ok ({ dt with timestamp := now.toUInt64, dirty := false }, none)

/-- data/newsync.go:151-182, what the scan does with a live entry, up to the transfer decision. -/
def meetEntry (P : PEnv) (dt : Data) (i : Inst) (e : Entry) (k : DatumKey) : Inst :=
  let pos := i.stats.n.toNat
  let stats := Stats.meet P.o P.s dt.avg dt.maxDistance i.nFloat i.stats k.feature
  { i with
    stats := stats
    slots := if dt.alive && decide (pos < i.size) then (pos, e.datum) :: i.slots else i.slots
    met := i.met ++ [e]
    phase := .met e }

/-- data/newsync.go:147, 181: the slice behind the index. -/
def dataIndex (i : Inst) : List (Option Datum) := (List.range i.size).map fun j => i.slots.lookup j

/-- data/newsync.go:180: what was added to the index. -/
def indexItems (i : Inst) : List (Nat × List F32) := i.slots.filterMap fun s => s.2.key.map fun k => (s.1, k.feature)

/-- data/newsync.go:198-226, after the scan. -/
def finish (now : Int64) (dt : Data) (i : Inst) : Data :=
  { dt with
    avg := i.stats.avg
    hist := i.stats.hist
    maxDistance := i.stats.maxDistance
    n := i.stats.n
    lastRunTimestamp := now.toUInt64
    annoyer := if i.slots.isEmpty then dt.annoyer else some ⟨dataIndex i, indexItems i⟩
    timestamp := now.toUInt64
    dirty := false }

/-- A copy accepted by a peer. -/
structure Ack where
  source : SourceId
  item : Item
  deriving DecidableEq, Repr

/-- The steps of a run. -/
inductive Act where
  /-- data/newsync.go:78-80: the scan comes to an expired entry -/
  | purge (k : Bytes)
  /-- the scan comes to a live entry -/
  | meet (k : Bytes)
  /-- data/newsync.go:183-192 with the random number `rnd` -/
  | offer (rnd : F64)
  /-- the element goes into the buffer of the queue -/
  | send
  /-- the element goes to the waiting consumer (queue without buffer), which iterates over `diffMap` in this order -/
  | handover (order : List (SourceId × UInt64))
  /-- the `Range` is over -/
  | endScan
  /-- data/newsync.go:113-114: the consumer takes an element; `order` is its iteration order over `diffMap` -/
  | recv (order : List (SourceId × UInt64))
  /-- data/newsync.go:114-133 for the next source; `accepted` is its answer if it is asked -/
  | contact (accepted : Bool)
  /-- the consumer is through with the element -/
  | next

/-- data/newsync.go:114-133: the consumer offers its element to a source.  `none`: a panic, or no such step. -/
def contact (P : PEnv) (now : Int64) (dt : Data) (acks : List Ack) (i : Inst) (c : Consumer) (x : Item) (id : SourceId)
    (count : UInt64) (rest : List (SourceId × UInt64)) (accepted : Bool) : Option (Data × List Ack × Inst) :=
  let c := { c with cur := some (x, rest) }
  if (c.countMap.get? id).getD 0 < count && liveSource now (dt.sources.getD []) id && accepted then
    let acks := acks ++ [⟨id, x⟩]
    if !dt.alive || isEvictionOn P i.localInfo i.config c.deleted then
      match getKeyAsBytes x.datum with
      | none => none
      | some k => some ({ dt with dbMap := dt.dbMap.erase k }, acks,
          { i with
            consumer := some { c with
              countMap := c.countMap.set id ((c.countMap.get? id).getD 0 + 1)
              deleted := c.deleted + 1 }
            evicted := i.evicted ++ [k] })
    else some (dt, acks, { i with consumer := some c })
  else some (dt, acks, { i with consumer := some c })

/-- One step of a run on the data set and the log of acknowledgements.  `W`: other goroutines write to the data set
during the scan, so that the `Range` need not come to every key. -/
def instStep (P : PEnv) (W : Bool) (now : Int64) (dt : Data) (acks : List Ack) (i : Inst) :
    Act → Option (Data × List Ack × Inst)
  | .purge k =>
    match i.phase, dt.dbMap.get? k with
    | .scanning, some e =>
      if k ∉ i.seen ∧ isExpired e now = true then
        some ({ dt with dbMap := dt.dbMap.erase k }, acks, { i with seen := k :: i.seen })
      else none
    | _, _ => none
  | .meet k =>
    match i.phase, dt.dbMap.get? k with
    | .scanning, some e =>
      if k ∉ i.seen ∧ isExpired e now = false then
        match e.datum.key with
        | some key => some (dt, acks, { meetEntry P dt i e key with seen := k :: i.seen })
        | none => none
      else none
    | _, _ => none
  | .offer rnd =>
    match i.phase with
    | .met e =>
      if F64.le 0 rnd = true ∧ F64.lt rnd F64.one = true then
        let config := insertConfigFromExpireAt now.toUInt64 e.expireAt.toUInt64
        if (!dt.alive || (decide (i.counter < i.limit) && P.o.ltD rnd i.fraction)) && decide (config.ttl > 10) then
          some (dt, acks, { i with phase := .sending ⟨e.datum, config⟩ })
        else some (dt, acks, { i with phase := .scanning })
      else none
    | _ => none
  | .send =>
    match i.phase with
    | .sending x =>
      if i.chan.length < i.limit.toNat then
        some (dt, acks, { i with phase := .scanning, chan := i.chan ++ [x], counter := i.counter + 1, sent := i.sent ++ [x] })
      else none
    | _ => none
  | .handover order =>
    match i.phase, i.consumer with
    | .sending x, some c =>
      if i.limit = 0 ∧ c.cur = none ∧ order.isPerm i.diffMap = true then
        some (dt, acks, { i with
          phase := .scanning
          counter := i.counter + 1
          sent := i.sent ++ [x]
          consumer := some { c with cur := some (x, order) } })
      else none
    | _, _ => none
  | .endScan =>
    match i.phase with
    | .scanning =>
      if W = true ∨ dt.dbMap.all (fun p => i.seen.contains p.1) = true then
        some (finish now dt i, acks, { i with phase := .finished })
      else none
    | _ => none
  | .recv order =>
    match i.consumer, i.chan with
    | some c, x :: xs =>
      if c.cur = none ∧ order.isPerm i.diffMap = true then
        some (dt, acks, { i with chan := xs, consumer := some { c with cur := some (x, order) } })
      else none
    | _, _ => none
  | .contact accepted =>
    match i.consumer with
    | some c =>
      match c.cur with
      | some (x, (id, count) :: rest) => contact P now dt acks i c x id count rest accepted
      | _ => none
    | none => none
  | .next =>
    match i.consumer with
    | some c =>
      match c.cur with
      | some (_, []) => some (dt, acks, { i with consumer := some { c with cur := none } })
      | _ => none
    | none => none

/-! ### The data set with all its runs -/

/-- data/data.go:108-118 `Close`. -/
inductive Closer where
  | idle
  /-- at the loop condition -/
  | loop
  /-- in `Process(true)`, the run with this number -/
  | running (j : Nat)
  /-- returned -/
  | done
  deriving DecidableEq, Repr

structure PS where
  dt : Data
  now : Int64
  insts : List Inst
  acks : List Ack
  closer : Closer
  deriving DecidableEq, Repr

inductive Label where
  /-- the clock advances -/
  | tick (now : Int64)
  /-- sources are added (data/data.go:222-233 `AddSource`) or forgotten -/
  | setSources (m : AMap SourceId Int)
  /-- data/data.go:160: `Run` calls `Process(false)` -/
  | run (infos : SourceId → Option DataInfo) (order : List SourceId)
  | closeBegin
  /-- the loop condition, and `Process(true)` if it holds -/
  | closeCheck (infos : SourceId → Option DataInfo) (order : List SourceId)
  | closeReturn
  /-- a step of run number `j` -/
  | act (j : Nat) (a : Act)
  /-- an insert by a client or a peer, or a delete -/
  | write (datum : Datum) (config : Option InsertConfig)
  | delete (datum : Datum)

/-- One step of the data set. -/
def step (P : PEnv) (W : Bool) (s : PS) : Label → Option PS
  | .tick now => if s.now ≤ now then some { s with now := now } else none
  | .setSources m => some { s with dt := { s.dt.initData with sources := some m } }
  | .run infos order =>
    if order.isPerm (liveSources s.now (s.dt.sources.getD [])) then
      match begin P s.now false infos order s.dt with
      | .ok (dt, i) => some { s with dt := dt, insts := s.insts ++ i.toList }
      | _ => none
    else none
  | .closeBegin =>
    if s.closer = .idle then
      some { s with
        dt := { s.dt with alive := false }
        closer := if (liveSources s.now (s.dt.sources.getD [])).isEmpty then .done else .loop }
    else none
  | .closeCheck infos order =>
    if s.closer = .loop then
      if s.dt.n = 0 then some { s with closer := .done }
      else if order.isPerm (liveSources s.now (s.dt.sources.getD [])) then
        match begin P s.now true infos order s.dt with
        | .ok (dt, some i) => some { s with dt := dt, insts := s.insts ++ [i], closer := .running s.insts.length }
        | _ => none
      else none
    else none
  | .closeReturn =>
    match s.closer with
    | .running j =>
      match s.insts[j]? with
      | some i => if i.phase = .finished then some { s with closer := .loop } else none
      | none => none
    | _ => none
  | .act j a =>
    match s.insts[j]? with
    | some i =>
      match instStep P W s.now s.dt s.acks i a with
      | some (dt, acks, i') => some { s with dt := dt, acks := acks, insts := s.insts.set j i' }
      | none => none
    | none => none
  | .write datum config =>
    -- the calls to peers that an insert makes have no effect on this data set
    if W then
      match Data.insert s.now [] (fun _ _ _ w => (w, none)) s.dt () (some datum) config with
      | .ok out => some { s with dt := out.data }
      | _ => none
    else none
  | .delete datum =>
    if W then
      match Data.delete s.dt (some datum) with
      | .ok dt => some { s with dt := dt }
      | _ => none
    else none

/-- A data set before any maintenance. -/
def initial (dt : Data) (now : Int64) : PS := ⟨dt, now, [], [], .idle⟩

def exec (P : PEnv) (W : Bool) (s : PS) : List Label → Option PS
  | [] => some s
  | l :: ls => (step P W s l).bind fun s => exec P W s ls

/-- Reachable states. -/
inductive Reach (P : PEnv) (W : Bool) (s0 : PS) : PS → Prop
  | refl : Reach P W s0 s0
  | step {s s' : PS} (l : Label) : Reach P W s0 s → step P W s l = some s' → Reach P W s0 s'

theorem reach_exec {P : PEnv} {W : Bool} {s0 : PS} : ∀ (ls : List Label) {s s' : PS}, Reach P W s0 s →
    exec P W s ls = some s' → Reach P W s0 s' := by
  intro ls
  induction ls with
  | nil => intro s s' h he; simp only [exec, Option.some.injEq] at he; exact he ▸ h
  | cons l ls ih =>
    intro s s' h he
    simp only [exec] at he
    cases hs : step P W s l with
    | none => simp [hs] at he
    | some t => rw [hs] at he; exact ih (.step l h hs) he

end Proc
end Veri
