import Verif.Cluster.Model
import Verif.Search.Aggregator
/-
The messages between nodes and clients: veriservice/veriservice.proto as compiled into veriservice/veriservice.pb.go, in the wire format of
proto3 (library google.golang.org/protobuf v1.30.0, go.mod:27, which is not in the repository: see "Trusted base" in DESIGN.md).
-/
set_option autoImplicit false
namespace Veri
namespace Wire

/-! ### The wire format -/

/-- A number in groups of 7 bits, the lowest first; ten bytes hold 64 bits. -/
def varintN : Nat → Nat → Bytes
  | 0, _ => []
  | fuel + 1, n => if n < 128 then [UInt8.ofNat n] else UInt8.ofNat (n % 128 + 128) :: varintN fuel (n / 128)

def varint (n : Nat) : Bytes := varintN 10 n

/-- Reads a number of at most `fuel` bytes; of ten bytes the last is 0 or 1.  `none`: there are not enough bytes, or it has more than 64 bits. -/
def readVarintN : Nat → Bytes → Option (Nat × Bytes)
  | 0, _ => none
  | _, [] => none
  | 1, b :: r => if b.toNat < 2 then some (b.toNat, r) else none
  | fuel + 2, b :: r =>
    if b.toNat < 128 then some (b.toNat, r)
    else (readVarintN (fuel + 1) r).map fun p => (b.toNat - 128 + 128 * p.1, p.2)

def readVarint (b : Bytes) : Option (Nat × Bytes) := readVarintN 10 b

/-- `n` in `k` bytes, the lowest first. -/
def le : Nat → Nat → Bytes
  | 0, _ => []
  | k + 1, n => UInt8.ofNat (n % 256) :: le k (n / 256)

def unle : Bytes → Nat
  | [] => 0
  | b :: r => b.toNat + 256 * unle r

/-- A field on the wire: its number, and its contents by wire type.  Simplification: groups (wire types 3 and 4), which no message of
veriservice.proto has, are not modelled. -/
inductive Tok where
  /-- wire type 0 -/
  | varint (num n : Nat)
  /-- wire type 1 -/
  | fixed64 (num n : Nat)
  /-- wire type 2 -/
  | bytes (num : Nat) (b : Bytes)
  /-- wire type 5 -/
  | fixed32 (num n : Nat)
  deriving DecidableEq, Repr

def Tok.num : Tok → Nat
  | .varint k _ | .fixed64 k _ | .bytes k _ | .fixed32 k _ => k

def Tok.write : Tok → Bytes
  | .varint k n => Wire.varint (8 * k) ++ Wire.varint n
  | .fixed64 k n => Wire.varint (8 * k + 1) ++ le 8 n
  | .bytes k b => Wire.varint (8 * k + 2) ++ Wire.varint b.length ++ b
  | .fixed32 k n => Wire.varint (8 * k + 5) ++ le 4 n

def writeAll (ts : List Tok) : Bytes := ts.flatMap Tok.write

/-- Takes `n` bytes, if there are as many. -/
def takeBytes (n : Nat) (b : Bytes) : Option (Bytes × Bytes) := if n ≤ b.length then some (b.take n, b.drop n) else none

/-- One field.  `none`: an error. -/
def readTok (b : Bytes) : Option (Tok × Bytes) :=
  (readVarint b).bind fun (tag, r) =>
    let num := tag / 8
    if num < 1 ∨ 536870911 < num then none
    else
      match tag % 8 with
      | 0 => (readVarint r).map fun (n, r) => (.varint num n, r)
      | 1 => (takeBytes 8 r).map fun (b, r) => (.fixed64 num (unle b), r)
      | 2 => (readVarint r).bind fun (n, r) => (takeBytes n r).map fun (b, r) => (.bytes num b, r)
      | 5 => (takeBytes 4 r).map fun (b, r) => (.fixed32 num (unle b), r)
      | _ => none

def readAllN : Nat → Bytes → Option (List Tok)
  | _, [] => some []
  | 0, _ :: _ => none
  | fuel + 1, b :: r => (readTok (b :: r)).bind fun (t, r) => (readAllN fuel r).map fun ts => t :: ts

/-- The fields of a message (every field has at least one byte). -/
def readAll (b : Bytes) : Option (List Tok) := readAllN b.length b

/-! ### Kinds of fields -/

/-- What the description of a field says of it: the number of its type in descriptor.proto, whether it is repeated, and the name of the
message if it is one. -/
structure Desc where
  type : Nat
  repeated : Bool
  typeName : String
  deriving DecidableEq, Repr

/-- How values of a type are written as the fields of one number, and what a field of this number does to the value: the library leaves
out what is zero, nil or empty, takes the last of several fields, appends to lists and merges messages; a field with another wire
type is skipped as if its number were not known.  `none`: an error. -/
structure Kind (V : Type) where
  desc : Desc
  zero : V
  toks : Nat → V → List Tok
  put : V → Tok → Option V

/-- `bool` -/
def bool : Kind Bool where
  desc := ⟨8, false, ""⟩
  zero := false
  toks k v := if v then [.varint k 1] else []
  put v | .varint _ n => some (n != 0) | _ => some v

/-- `uint32` -/
def uint32 : Kind UInt32 where
  desc := ⟨13, false, ""⟩
  zero := 0
  toks k v := if v = 0 then [] else [.varint k v.toNat]
  put v | .varint _ n => some (UInt32.ofNat n) | _ => some v

/-- `uint64` -/
def uint64 : Kind UInt64 where
  desc := ⟨4, false, ""⟩
  zero := 0
  toks k v := if v = 0 then [] else [.varint k v.toNat]
  put v | .varint _ n => some (UInt64.ofNat n) | _ => some v

/-- `double`: what is left out is `+0`, not `-0`. -/
def double : Kind F64 where
  desc := ⟨1, false, ""⟩
  zero := 0
  toks k v := if v = 0 then [] else [.fixed64 k v.toNat]
  put v | .fixed64 _ n => some (UInt64.ofNat n) | _ => some v

/-- `bytes` -/
def bytes : Kind Bytes where
  desc := ⟨12, false, ""⟩
  zero := []
  toks k v := if v = [] then [] else [.bytes k v]
  put v | .bytes _ b => some b | _ => some v

/-- The bytes of a string. -/
def ofString (s : String) : Bytes := s.toUTF8.data.toList

/-- A string has to be valid UTF-8. -/
def toString? (b : Bytes) : Option String := String.fromUTF8? ⟨b.toArray⟩

/-- `string`.  Simplification: a Go string that is not valid UTF-8, which the library does not send, is not a `String`. -/
def string : Kind String where
  desc := ⟨9, false, ""⟩
  zero := ""
  toks k v := if v = "" then [] else [.bytes k (ofString v)]
  put v | .bytes _ b => toString? b | _ => some v

/-- `repeated string` -/
def strings : Kind (List String) where
  desc := ⟨9, true, ""⟩
  zero := []
  toks k v := v.map fun s => .bytes k (ofString s)
  put v | .bytes _ b => (toString? b).map fun s => v ++ [s] | _ => some v

/-- The values of a packed list of `float`. -/
def readFloats : Bytes → Option (List F32)
  | [] => some []
  | a :: b :: c :: d :: r => (readFloats r).map fun vs => UInt32.ofNat (unle [a, b, c, d]) :: vs
  | _ => none

/-- `repeated float`: written packed, read packed or not. -/
def floats : Kind (List F32) where
  desc := ⟨2, true, ""⟩
  zero := []
  toks k v := if v = [] then [] else [.bytes k (v.flatMap fun x => le 4 x.toNat)]
  put v
    | .bytes _ b => (readFloats b).map fun vs => v ++ vs
    | .fixed32 _ n => some (v ++ [UInt32.ofNat n])
    | _ => some v

/-! ### Messages -/

/-- A field of a message. -/
structure Field (α : Type) where
  num : Nat
  name : String
  V : Type
  kind : Kind V
  get : α → V
  set : α → V → α

/-- A message: its value without any field, and its fields in the order of their numbers, which is the order on the wire. -/
structure Msg (α : Type) where
  name : String
  empty : α
  fields : List (Field α)

variable {α : Type}

def Field.toks (f : Field α) (a : α) : List Tok := f.kind.toks f.num (f.get a)

def Field.put (f : Field α) (a : α) (t : Tok) : Option α := (f.kind.put (f.get a) t).map (f.set a)

def Msg.toks (M : Msg α) (a : α) : List Tok := M.fields.flatMap fun f => f.toks a

/-- A field that is not known is skipped.  (The library keeps its bytes beside the message; data/newsync.go:32 and veriservice/extra.go:5-27
`Clean` drop those of a datum that is stored.) -/
def Msg.put (M : Msg α) (a : α) (t : Tok) : Option α :=
  match M.fields.find? fun f => f.num == t.num with
  | none => some a
  | some f => f.put a t

/-- What is sent. -/
def Msg.write (M : Msg α) (a : α) : Bytes := writeAll (M.toks a)

/-- Bytes onto a message. -/
def Msg.merge (M : Msg α) (a : α) (b : Bytes) : Option α := (readAll b).bind fun ts => ts.foldlM M.put a

/-- What is received; `none`: the call fails. -/
def Msg.read (M : Msg α) (b : Bytes) : Option α := M.merge M.empty b

/-- A message as a field: the pointer may be nil, and a second field of the number is merged into the first. -/
def Msg.opt (M : Msg α) : Kind (Option α) where
  desc := ⟨11, false, ".veriservice." ++ M.name⟩
  zero := none
  toks k v := match v with | none => [] | some a => [.bytes k (M.write a)]
  put v | .bytes _ b => (M.merge (v.getD M.empty) b).map some | _ => some v

/-- A list of messages.  Simplification: no pointer of the list is nil. -/
def Msg.rep (M : Msg α) : Kind (List α) where
  desc := ⟨11, true, ".veriservice." ++ M.name⟩
  zero := []
  toks k v := v.map fun a => .bytes k (M.write a)
  put v | .bytes _ b => (M.read b).map fun a => v ++ [a] | _ => some v

/-! ### The messages of veriservice.proto -/

/-- veriservice.proto `DatumKey`; veriservice/veriservice.pb.go:396-407. -/
def datumKey : Msg DatumKey where
  name := "DatumKey"
  empty := ⟨[], [], 0, 0, 0, 0⟩
  fields := [
    ⟨1, "feature", _, floats, (·.feature), fun m v => { m with feature := v }⟩,
    ⟨2, "groupLabel", _, bytes, (·.groupLabel), fun m v => { m with groupLabel := v }⟩,
    ⟨3, "size1", _, uint32, (·.size1), fun m v => { m with size1 := v }⟩,
    ⟨4, "size2", _, uint32, (·.size2), fun m v => { m with size2 := v }⟩,
    ⟨5, "dim1", _, uint32, (·.dim1), fun m v => { m with dim1 := v }⟩,
    ⟨6, "dim2", _, uint32, (·.dim2), fun m v => { m with dim2 := v }⟩]

/-- veriservice.proto `DatumValue`; veriservice/veriservice.pb.go:483-490. -/
def datumValue : Msg DatumValue where
  name := "DatumValue"
  empty := ⟨0, []⟩
  fields := [
    ⟨1, "version", _, uint64, (·.version), fun m v => { m with version := v }⟩,
    ⟨2, "label", _, bytes, (·.label), fun m v => { m with label := v }⟩]

/-- veriservice.proto `Datum`; veriservice/veriservice.pb.go:341-348. -/
def datum : Msg Datum where
  name := "Datum"
  empty := ⟨none, none⟩
  fields := [
    ⟨1, "key", _, datumKey.opt, (·.key), fun m v => { m with key := v }⟩,
    ⟨2, "value", _, datumValue.opt, (·.value), fun m v => { m with value := v }⟩]

/-- `ScoredDatum` with its pointer (`Veri.ScoredDatum` is one with a datum). -/
structure Scored where
  score : F64
  datum : Option Datum
  deriving DecidableEq, Repr

/-- veriservice.proto `ScoredDatum`; veriservice/veriservice.pb.go:538-545. -/
def scoredDatum : Msg Scored where
  name := "ScoredDatum"
  empty := ⟨0, none⟩
  fields := [
    ⟨1, "score", _, double, (·.score), fun m v => { m with score := v }⟩,
    ⟨2, "datum", _, datum.opt, (·.datum), fun m v => { m with datum := v }⟩]

/-- veriservice.proto `InsertConfig`; veriservice/veriservice.pb.go:758-765. -/
def insertConfig : Msg InsertConfig where
  name := "InsertConfig"
  empty := ⟨0, 0⟩
  fields := [
    ⟨1, "tTL", _, uint64, (·.ttl), fun m v => { m with ttl := v }⟩,
    ⟨2, "count", _, uint64, (·.count), fun m v => { m with count := v }⟩]

/-- veriservice.proto `InsertDatumWithConfig`. -/
structure InsertDatumWithConfig where
  config : Option InsertConfig
  datum : Option Datum
  deriving DecidableEq, Repr

/-- veriservice/veriservice.pb.go:593-600. -/
def insertDatumWithConfig : Msg InsertDatumWithConfig where
  name := "InsertDatumWithConfig"
  empty := ⟨none, none⟩
  fields := [
    ⟨1, "config", _, insertConfig.opt, (·.config), fun m v => { m with config := v }⟩,
    ⟨2, "datum", _, datum.opt, (·.datum), fun m v => { m with datum := v }⟩]

/-- veriservice.proto `InsertionRequest`. -/
structure InsertionRequest where
  config : Option InsertConfig
  datum : Option Datum
  dataName : String
  deriving DecidableEq, Repr

/-- veriservice/veriservice.pb.go:695-703. -/
def insertionRequest : Msg InsertionRequest where
  name := "InsertionRequest"
  empty := ⟨none, none, ""⟩
  fields := [
    ⟨1, "config", _, insertConfig.opt, (·.config), fun m v => { m with config := v }⟩,
    ⟨2, "datum", _, datum.opt, (·.datum), fun m v => { m with datum := v }⟩,
    ⟨3, "dataName", _, string, (·.dataName), fun m v => { m with dataName := v }⟩]

/-- `int32`, as its 32 bits: the library writes a negative number with the 64 bits of its sign extension. -/
def int32 : Kind Int32 where
  desc := ⟨5, false, ""⟩
  zero := 0
  toks k v := if v = 0 then [] else [.varint k v.toInt64.toUInt64.toNat]
  put v | .varint _ n => some (UInt32.ofNat n).toInt32 | _ => some v

/-- veriservice.proto `InsertionResponse`; veriservice/veriservice.pb.go:813-819.  The message is its code. -/
def insertionResponse : Msg Int32 where
  name := "InsertionResponse"
  empty := 0
  fields := [⟨1, "code", _, int32, id, fun _ v => v⟩]

/-- veriservice.proto `SearchConfig`; veriservice/veriservice.pb.go:96-114. -/
def searchConfig : Msg SearchConfig where
  name := "SearchConfig"
  empty := ⟨"", false, 0, 0, 0, 0, "", 0, "", [], 0, [], ""⟩
  fields := [
    ⟨1, "scoreFuncName", _, string, (·.scoreFuncName), fun m v => { m with scoreFuncName := v }⟩,
    ⟨2, "higherIsBetter", _, bool, (·.higherIsBetter), fun m v => { m with higherIsBetter := v }⟩,
    ⟨3, "timestamp", _, uint64, (·.timestamp), fun m v => { m with timestamp := v }⟩,
    ⟨4, "timeout", _, uint64, (·.timeout), fun m v => { m with timeout := v }⟩,
    ⟨5, "limit", _, uint32, (·.limit), fun m v => { m with limit := v }⟩,
    ⟨6, "cacheDuration", _, uint64, (·.cacheDuration), fun m v => { m with cacheDuration := v }⟩,
    ⟨7, "dataName", _, string, (·.dataName), fun m v => { m with dataName := v }⟩,
    ⟨8, "groupLimit", _, uint32, (·.groupLimit), fun m v => { m with groupLimit := v }⟩,
    ⟨9, "groupScoreFuncName", _, string, (·.groupScoreFuncName), fun m v => { m with groupScoreFuncName := v }⟩,
    ⟨10, "filters", _, strings, (·.filters), fun m v => { m with filters := v }⟩,
    ⟨11, "resultLimit", _, uint64, (·.resultLimit), fun m v => { m with resultLimit := v }⟩,
    ⟨12, "groupFilters", _, strings, (·.groupFilters), fun m v => { m with groupFilters := v }⟩,
    ⟨13, "uuid", _, string, (·.uuid), fun m v => { m with uuid := v }⟩]

/-- veriservice.proto `SearchContext`; veriservice/veriservice.pb.go:239-246. -/
def searchContext : Msg SearchContext where
  name := "SearchContext"
  empty := ⟨[], false⟩
  fields := [
    ⟨1, "datum", _, datum.rep, (·.datum), fun m v => { m with datum := v }⟩,
    ⟨2, "prioritize", _, bool, (·.prioritize), fun m v => { m with prioritize := v }⟩]

/-- veriservice.proto `SearchRequest`. -/
structure SearchRequest where
  config : Option SearchConfig
  datum : List Datum
  context : Option SearchContext
  deriving DecidableEq, Repr

/-- veriservice/veriservice.pb.go:33-41. -/
def searchRequest : Msg SearchRequest where
  name := "SearchRequest"
  empty := ⟨none, [], none⟩
  fields := [
    ⟨1, "config", _, searchConfig.opt, (·.config), fun m v => { m with config := v }⟩,
    ⟨2, "datum", _, datum.rep, (·.datum), fun m v => { m with datum := v }⟩,
    ⟨3, "context", _, searchContext.opt, (·.context), fun m v => { m with context := v }⟩]

/-- veriservice.proto `SearchResponse`; veriservice/veriservice.pb.go:648-654.  The message is its list. -/
def searchResponse : Msg (List Scored) where
  name := "SearchResponse"
  empty := []
  fields := [⟨1, "result", _, scoredDatum.rep, id, fun _ v => v⟩]

/-- veriservice.proto `GetDataRequest`; veriservice/veriservice.pb.go:294-300.  The message is the name. -/
def getDataRequest : Msg String where
  name := "GetDataRequest"
  empty := ""
  fields := [⟨1, "name", _, string, id, fun _ v => v⟩]

/-- veriservice.proto `DataInfo`; veriservice/veriservice.pb.go:860-878. -/
def dataInfo : Msg DataInfo where
  name := "DataInfo"
  empty := ⟨"", 0, 0, [], [], 0, 0, 0, 0, false, 0, false, 0⟩
  fields := [
    ⟨1, "name", _, string, (·.name), fun m v => { m with name := v }⟩,
    ⟨2, "timestamp", _, uint64, (·.timestamp), fun m v => { m with timestamp := v }⟩,
    ⟨3, "version", _, uint64, (·.version), fun m v => { m with version := v }⟩,
    ⟨4, "avg", _, floats, (·.avg), fun m v => { m with avg := v }⟩,
    ⟨5, "hist", _, floats, (·.hist), fun m v => { m with hist := v }⟩,
    ⟨6, "n", _, uint64, (·.n), fun m v => { m with n := v }⟩,
    ⟨7, "maxDistance", _, double, (·.maxDistance), fun m v => { m with maxDistance := v }⟩,
    ⟨8, "targetN", _, uint64, (·.targetN), fun m v => { m with targetN := v }⟩,
    ⟨9, "targetUtilization", _, double, (·.targetUtilization), fun m v => { m with targetUtilization := v }⟩,
    ⟨10, "noTarget", _, bool, (·.noTarget), fun m v => { m with noTarget := v }⟩,
    ⟨11, "replicationOnInsert", _, uint32, (·.replicationOnInsert), fun m v => { m with replicationOnInsert := v }⟩,
    ⟨12, "enforceReplicationOnInsert", _, bool, (·.enforceReplicationOnInsert), fun m v => { m with enforceReplicationOnInsert := v }⟩,
    ⟨13, "retention", _, uint64, (·.retention), fun m v => { m with retention := v }⟩]

/-- veriservice.proto `DataConfig`; veriservice/veriservice.pb.go:1003-1016. -/
def dataConfig : Msg DataConfig where
  name := "DataConfig"
  empty := ⟨"", 0, 0, 0, false, 0, false, 0⟩
  fields := [
    ⟨1, "name", _, string, (·.name), fun m v => { m with name := v }⟩,
    ⟨2, "version", _, uint64, (·.version), fun m v => { m with version := v }⟩,
    ⟨3, "targetN", _, uint64, (·.targetN), fun m v => { m with targetN := v }⟩,
    ⟨4, "targetUtilization", _, double, (·.targetUtilization), fun m v => { m with targetUtilization := v }⟩,
    ⟨5, "noTarget", _, bool, (·.noTarget), fun m v => { m with noTarget := v }⟩,
    ⟨6, "replicationOnInsert", _, uint32, (·.replicationOnInsert), fun m v => { m with replicationOnInsert := v }⟩,
    ⟨7, "enforceReplicationOnInsert", _, bool, (·.enforceReplicationOnInsert), fun m v => { m with enforceReplicationOnInsert := v }⟩,
    ⟨8, "retention", _, uint64, (·.retention), fun m v => { m with retention := v }⟩]

/-- veriservice.proto `Peer` (`Veri.Net.Peer` is this without the field `ping`, which the code does not use). -/
structure Peer where
  addressList : List String
  version : String
  timestamp : UInt64
  dataList : List DataConfig
  serviceList : List String
  ping : UInt64
  deriving DecidableEq, Repr

/-- veriservice/veriservice.pb.go:1106-1117. -/
def peer : Msg Peer where
  name := "Peer"
  empty := ⟨[], "", 0, [], [], 0⟩
  fields := [
    ⟨1, "addressList", _, strings, (·.addressList), fun m v => { m with addressList := v }⟩,
    ⟨2, "version", _, string, (·.version), fun m v => { m with version := v }⟩,
    ⟨3, "timestamp", _, uint64, (·.timestamp), fun m v => { m with timestamp := v }⟩,
    ⟨4, "dataList", _, dataConfig.rep, (·.dataList), fun m v => { m with dataList := v }⟩,
    ⟨5, "serviceList", _, strings, (·.serviceList), fun m v => { m with serviceList := v }⟩,
    ⟨6, "ping", _, uint64, (·.ping), fun m v => { m with ping := v }⟩]

/-- veriservice.proto `JoinRequest`; veriservice/veriservice.pb.go:1193-1199.  The message is its peer. -/
def joinRequest : Msg (Option Peer) where
  name := "JoinRequest"
  empty := none
  fields := [⟨1, "peer", _, peer.opt, id, fun _ v => v⟩]

/-- veriservice.proto `AddPeerRequest`; veriservice/veriservice.pb.go:1287-1293.  The message is its peer. -/
def addPeerRequest : Msg (Option Peer) where
  name := "AddPeerRequest"
  empty := none
  fields := [⟨1, "peer", _, peer.opt, id, fun _ v => v⟩]

/-- veriservice.proto `JoinResponse`; veriservice/veriservice.pb.go:1240-1246.  The message is its address. -/
def joinResponse : Msg String where
  name := "JoinResponse"
  empty := ""
  fields := [⟨1, "address", _, string, id, fun _ v => v⟩]

/-- veriservice.proto `AddPeerResponse`; veriservice/veriservice.pb.go:1334-1338. -/
def addPeerResponse : Msg Unit where
  name := "AddPeerResponse"
  empty := ()
  fields := []

/-- veriservice.proto `PingRequest`; veriservice/veriservice.pb.go:1372-1378.  The message is its timestamp. -/
def pingRequest : Msg UInt64 where
  name := "PingRequest"
  empty := 0
  fields := [⟨1, "timestamp", _, uint64, id, fun _ v => v⟩]

/-- veriservice.proto `PingResponse`. -/
structure PingResponse where
  timestamp : UInt64
  duration : UInt64
  deriving DecidableEq, Repr

/-- veriservice/veriservice.pb.go:1419-1426. -/
def pingResponse : Msg PingResponse where
  name := "PingResponse"
  empty := ⟨0, 0⟩
  fields := [
    ⟨1, "timestamp", _, uint64, (·.timestamp), fun m v => { m with timestamp := v }⟩,
    ⟨2, "duration", _, uint64, (·.duration), fun m v => { m with duration := v }⟩]

end Wire
end Veri
