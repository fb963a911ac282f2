import Verif.Search.Props
/-
Merging results: data/aggregator.go.
-/
set_option autoImplicit false
namespace Veri

/-- veriservice/veriservice.pb.go:239-246 `SearchContext`. -/
structure SearchContext where
  datum : List Datum
  prioritize : Bool
  deriving DecidableEq, Repr

namespace Agg
open Gencoder Store Search

/-- data/aggregator.go:19-37, an aggregator with `Grouped == false`: `seen` is the `DeDuplicationMap`, whose values are
then scores.  (The cache entries have no expiry.) -/
structure Flat where
  config : SearchConfig
  context : Option SearchContext
  list : List ScoredDatum
  seen : AMap Bytes F64
  deriving DecidableEq, Repr

/-- data/aggregator.go:28-37 `NewAggrator(config, false, context)`. -/
def newFlat (config : SearchConfig) (context : Option SearchContext) : Flat := ⟨config, context, [], []⟩

/-- data/aggregator.go:39-54 `IsNewScoredBetter`: `new > old` if higher is better, otherwise `old < new`. -/
def isNewScoredBetter (o : FOps F32 F64) (config : SearchConfig) (old new : F64) : Bool :=
  if config.higherIsBetter then o.ltD old new else o.ltD old new

/-- data/aggregator.go:65-71, the loop over the context data; `current = none` stands for `isSet == false`. -/
def bestLoop (o : FOps F32 F64) (config : SearchConfig) (f : List F32) : Option F64 → List Datum → Res (Option F64)
  | current, [] => .ok current
  | current, d :: ds =>
    (Res.ofOption d.key).bind fun k =>
    let newScore := (Vec.getVectorComparisonFunction config.scoreFuncName).eval o f k.feature
    match current with
    | none => bestLoop o config f (some newScore) ds
    | some cur =>
      if isNewScoredBetter o config cur newScore then bestLoop o config f (some newScore) ds
      else bestLoop o config f (some cur) ds

/-- data/aggregator.go:56-76 `BestScore`. -/
def bestScore (o : FOps F32 F64) (config : SearchConfig) (context : Option SearchContext) (sd : ScoredDatum) : Res F64 :=
  match context with
  | none => .ok sd.score
  | some ctx =>
    if ctx.datum.isEmpty then .ok sd.score
    else
      (Res.ofOption sd.datum.key).bind fun k =>
      (bestLoop o config k.feature (if ctx.prioritize then none else some sd.score) ctx.datum).bind fun cur =>
      .ok (cur.getD 0)

/-- data/aggregator.go:78-101 `InsertToList`. -/
def Flat.insertToList (E : Env) (a : Flat) (sd : ScoredDatum) : Res Flat :=
  if UInt32.ofNat a.list.length < a.config.limit then
    .ok { a with list := E.sort (lessFor E.o a.config.higherIsBetter) (a.list ++ [sd]) }
  else
    (Res.ofOption a.list.getLast?).bind fun last =>
    if isNewScoredBetter E.o a.config last.score sd.score then
      .ok { a with list := E.sort (lessFor E.o a.config.higherIsBetter) (a.list.dropLast ++ [sd]) }
    else .ok a

/-- data/aggregator.go:118-133, `Insert` with `Grouped == false`, after the score has been set. -/
def Flat.insertScored (E : Env) (a : Flat) (sd : ScoredDatum) : Res Flat :=
  (Res.ofOption (getKeyAsBytes sd.datum)).bind fun keyByte =>
  let keyString := encodeToString keyByte
  match a.seen.get? keyString with
  | some previousScore =>
    if isNewScoredBetter E.o a.config previousScore sd.score then
      { a with seen := a.seen.set keyString sd.score }.insertToList E sd
    else .ok a
  | none => { a with seen := a.seen.set keyString sd.score }.insertToList E sd

/-- data/aggregator.go:103-136 `Insert` with `Grouped == false`. -/
def Flat.insert (E : Env) (a : Flat) (sd : ScoredDatum) : Res Flat :=
  (bestScore E.o a.config a.context sd).bind fun score => a.insertScored E { sd with score := score }

/-- data/aggregator.go:148-151 `Result` with `Grouped == false`: `int(ResultLimit)` is negative from 2^63 on. -/
def Flat.result (a : Flat) : Res (List ScoredDatum) :=
  if 0 < a.config.resultLimit ∧ a.config.resultLimit.toInt64.toInt < a.list.length then
    -- `a.List[:a.Config.ResultLimit]` panics beyond the length
    if a.config.resultLimit.toNat ≤ a.list.length then .ok (a.list.take a.config.resultLimit.toNat) else .panic
  else .ok a.list

/-- data/aggregator.go:155-180 `One`: the group's score and representative; nil for an empty list. -/
def Flat.one (o : FOps F32 F64) (a : Flat) : Option ScoredDatum :=
  match a.list with
  | [] => none
  | x :: _ =>
    let sumScore := a.list.foldl (fun s sd => o.addD s sd.score) o.zeroD
    if a.config.higherIsBetter then some ⟨sumScore, x.datum⟩
    else some ⟨o.divD sumScore (o.mulD (o.ofNatD a.list.length) (o.ofNatD a.list.length)), x.datum⟩

/-- An aggregator with `Grouped == true`: the values of the `DeDuplicationMap` are aggregators. -/
structure Grouped where
  config : SearchConfig
  context : Option SearchContext
  groups : AMap Bytes Flat
  deriving DecidableEq, Repr

/-- data/aggregator.go:28-37 `NewAggrator(config, true, context)`. -/
def newGrouped (config : SearchConfig) (context : Option SearchContext) : Grouped := ⟨config, context, []⟩

/-- data/aggregator.go:107-115: the aggregator of a group, a new one if there is none. -/
def Grouped.group (a : Grouped) (keyString : Bytes) : Flat :=
  match a.groups.get? keyString with
  | some g => g
  | none => newFlat { a.config with limit := a.config.groupLimit } none

/-- data/aggregator.go:103-117 `Insert` with `Grouped == true`. -/
def Grouped.insert (E : Env) (a : Grouped) (sd : ScoredDatum) : Res Grouped :=
  (bestScore E.o a.config a.context sd).bind fun score =>
  let sd := { sd with score := score }
  (Res.ofOption sd.datum.key).bind fun k =>
  let keyString := encodeToString k.groupLabel
  ((a.group keyString).insert E sd).bind fun g => .ok { a with groups := a.groups.set keyString g }

/-- data/aggregator.go:142-145: insert the representatives of the groups, in the iteration order `gs` of the map. -/
def insertOnes (E : Env) : Flat → List Flat → Res Flat
  | agg, [] => .ok agg
  | agg, g :: gs =>
    (Res.ofOption (g.one E.o)).bind fun sd => (agg.insert E sd).bind fun agg => insertOnes E agg gs

/-- data/aggregator.go:138-146 `Result` with `Grouped == true`; `order` is the iteration order over the groups. -/
def Grouped.result (E : Env) (a : Grouped) (order : List (Bytes × Flat)) : Res (List ScoredDatum) :=
  (insertOnes E (newFlat a.config a.context) (order.map (·.2))).bind fun agg => agg.result

/-- Merge a stream of arrivals. -/
def Flat.insertAll (E : Env) : Flat → List ScoredDatum → Res Flat
  | a, [] => .ok a
  | a, sd :: sds => (a.insert E sd).bind fun a => insertAll E a sds

def Grouped.insertAll (E : Env) : Grouped → List ScoredDatum → Res Grouped
  | a, [] => .ok a
  | a, sd :: sds => (a.insert E sd).bind fun a => insertAll E a sds

end Agg
end Veri
