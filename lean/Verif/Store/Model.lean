import Verif.Gencoder.Model
import Verif.AMap
/-
The per-node key/value store of a data set: data/newsync.go:17-91, 229-237 and data/delete.go.
-/
set_option autoImplicit false
namespace Veri

/-- data/newsync.go:17-20 `DBMapEntry`.  The datum pointer is never nil in a stored entry
(`datum.Clean()` on line 32 dereferences it first), so it is not an `Option` here. -/
structure Entry where
  expireAt : Int64
  datum : Datum
  deriving DecidableEq, Repr

/-- data/data.go:52 `DBMap sync.Map`, keyed by the encoded datum key. -/
abbrev DBMap := AMap Bytes Entry

/-- veriservice/veriservice.pb.go:758-765 `InsertConfig`. -/
structure InsertConfig where
  ttl : UInt64
  count : UInt64
  deriving DecidableEq, Repr

namespace Store

/-- data/newsync.go:22-25 `CloseEnough` (int64 subtraction wraps). -/
def closeEnough (a b : Int64) : Bool :=
  let c := a - b
  decide (c < 10) && decide (c > -10)

/-- data/newsync.go:28-31: `exprireAt`, with the clock value `now` read on line 30
(`int64(config.TTL)` re-interprets the bits; the sum wraps). -/
def expireAtOf (now : Int64) (config : Option InsertConfig) : Int64 :=
  match config with
  | none => 0
  | some c => if c.ttl = 0 then 0 else now + c.ttl.toInt64

/-- data/newsync.go:27-63 `InsertBDMap`.  Returns the new map and whether the entry counted as new
(lines 58-61: stored and `RecentInsertCount` incremented).  `datum = none` is a nil pointer:
`datum.Clean()` panics; a nil key panics in `MarshalKey`; a nil value (here or stored) panics in
`MarshalValue` but only if the key is already present. -/
def insertBDMap (now : Int64) (m : DBMap) (datum : Option Datum) (config : Option InsertConfig) :
    Res (DBMap × Bool) := do
  let d ← Res.ofOption datum
  let entry : Entry := { expireAt := expireAtOf now config, datum := d }
  let keyByte ← Res.ofOption (getKeyAsBytes d)
  let mapKey := encodeToString keyByte
  match m.get? mapKey with
  | some oldEntry =>
    let valueByte ← Res.ofOption (getValueAsBytes d)
    let oldValueByte ← Res.ofOption (getValueAsBytes oldEntry.datum)
    if valueByte = oldValueByte ∧ closeEnough entry.expireAt oldEntry.expireAt = true then
      pure (m, false)
    else
      pure (m.set mapKey entry, true)
  | none => pure (m.set mapKey entry, true)

/-- data/newsync.go:65-72 `DeleteBDMap` (and data/delete.go:8-10 `Delete`). -/
def deleteBDMap (m : DBMap) (datum : Option Datum) : Res DBMap := do
  let d ← Res.ofOption datum
  let keyByte ← Res.ofOption (getKeyAsBytes d)
  pure (m.erase keyByte)

/-- One step of a `Range`: the visited key, the entry read for it, and the value the clock had when
this entry was examined (the clock is read only if the entry has an expiry). -/
structure Visit where
  key : Bytes
  entry : Entry
  now : Int64
  deriving Repr

/-- data/newsync.go:78: `mapEntry.ExprireAt != 0 && mapEntry.ExprireAt <= time.Now().Unix()`. -/
def isExpired (e : Entry) (now : Int64) : Bool := decide (e.expireAt ≠ 0) && decide (e.expireAt ≤ now)

/-- data/newsync.go:74-91 `LoopDBMap` over the given visits (`sync.Map.Range`, in its unspecified
order).  The callback works on a state `σ`; it may panic, return nil (`none`) or an error.
Returns the map, the callback's state and `lastError`. -/
def loopDBMap {σ : Type} (cb : σ → Entry → Res (σ × Option Err)) :
    List Visit → DBMap → σ → Res (DBMap × σ × Option Err)
  | [], m, s => .ok (m, s, none)
  | v :: vs, m, s =>
    if isExpired v.entry v.now then
      loopDBMap cb vs (m.erase v.key) s
    else
      (cb s v.entry).bind fun (s', e) =>
        match e with
        | some err => .ok (m, s', some err)
        | none => loopDBMap cb vs m s'

/-- The visits of an undisturbed `Range` over `m`: every entry once, in some order, at some clock
values. -/
def IsRange (m : DBMap) (vs : List Visit) : Prop := (vs.map fun v => (v.key, v.entry)).Perm m

/-- data/newsync.go:229-237 `StreamAll`: the callback sends the datum to the channel; here the
channel's content is the list of data sent so far. -/
def streamAllCb (sent : List Datum) (e : Entry) : Res (List Datum × Option Err) :=
  .ok (sent ++ [e.datum], none)

/-- data/newsync.go:229-237 `StreamAll`. -/
def streamAll (vs : List Visit) (m : DBMap) : Res (DBMap × List Datum × Option Err) :=
  loopDBMap streamAllCb vs m []

end Store
end Veri
