import Verif.Sort
import Verif.Data.Props
/-
Local search on one data set: data/search.go.
-/
set_option autoImplicit false
namespace Veri

/-- veriservice/veriservice.pb.go:96-114 `SearchConfig`. -/
structure SearchConfig where
  scoreFuncName : String
  higherIsBetter : Bool
  timestamp : UInt64
  timeout : UInt64
  limit : UInt32
  cacheDuration : UInt64
  dataName : String
  groupLimit : UInt32
  groupScoreFuncName : String
  filters : List String
  resultLimit : UInt64
  groupFilters : List String
  uuid : String
  deriving DecidableEq, Repr

/-- veriservice/veriservice.pb.go `ScoredDatum`.  Simplification: the datum pointer is never nil (its key and value may be). -/
structure ScoredDatum where
  score : F64
  datum : Datum
  deriving DecidableEq, Repr

/-- The code outside the repository that a search uses. -/
structure Env where
  /-- float arithmetic -/
  o : FOps F32 F64
  /-- `sort.Slice` on scored data -/
  sort : SortFn ScoredDatum
  /-- `gjson.Get(label, path).Exists()` -/
  jsonHas : Bytes → String → Bool

/-- What is assumed of that code. -/
structure Env.Ok (E : Env) : Prop where
  bits : Bits E.o
  sort : IsSort E.sort

namespace Search
open Gencoder Store

/-- data/search.go:26-34 `DefaultSearchConfig`. -/
def defaultSearchConfig : SearchConfig where
  scoreFuncName := "VectorDistance"
  higherIsBetter := false
  timestamp := 0
  timeout := 1000
  limit := 10
  cacheDuration := 0
  dataName := ""
  groupLimit := 0
  groupScoreFuncName := ""
  filters := []
  resultLimit := 0
  groupFilters := []
  uuid := ""

/-- data/search.go:46-55 `Collector`, without `DatumKey` and `MaxScore`, which nothing reads. -/
structure Collector where
  list : List ScoredDatum
  scoreFunc : Vec.ScoreFn
  n : UInt32
  higherIsBetter : Bool
  filters : List String
  groupFilters : List String
  deriving DecidableEq, Repr

/-- Go's `a > b` and `a < b` on float64 scores, as `less` of the two `sort.Slice` calls
(data/search.go:76-82 and data/aggregator.go:90-96). -/
def lessFor (o : FOps F32 F64) (higherIsBetter : Bool) (a b : ScoredDatum) : Bool :=
  if higherIsBetter then o.ltD b.score a.score else o.ltD a.score b.score

/-- data/search.go:64-86 `Collector.Insert`.  An index of -1 panics. -/
def Collector.insert (E : Env) (c : Collector) (sd : ScoredDatum) : Res Collector :=
  if UInt32.ofNat c.list.length < c.n then
    .ok { c with list := E.sort (lessFor E.o c.higherIsBetter) (c.list ++ [sd]) }
  else
    (Res.ofOption c.list.getLast?).bind fun last =>
    if (c.higherIsBetter && E.o.ltD last.score sd.score) || (!c.higherIsBetter && E.o.ltD sd.score last.score) then
      .ok { c with list := E.sort (lessFor E.o c.higherIsBetter) (c.list.dropLast ++ [sd]) }
    else .ok c

/-- data/search.go:88-109 `PassesFilters`. -/
def Collector.passesFilters (E : Env) (c : Collector) (d : Datum) : Res Bool :=
  (if c.groupFilters.isEmpty then .ok true
   else (Res.ofOption d.key).bind fun k => .ok (c.groupFilters.all fun f => E.jsonHas k.groupLabel f)).bind fun g =>
  if g then
    if c.filters.isEmpty then .ok true
    else (Res.ofOption d.value).bind fun v => .ok (c.filters.all fun f => E.jsonHas v.label f)
  else .ok false

/-- data/search.go:349-361 and 305-312: a fresh collector for a request. -/
def newCollector (config : SearchConfig) : Collector where
  list := []
  scoreFunc := Vec.getVectorComparisonFunction config.scoreFuncName
  n := config.limit
  higherIsBetter := config.higherIsBetter
  filters := config.filters
  groupFilters := config.groupFilters

/-- data/search.go:363-374, the function `Search` runs on every live entry; `datum` is the query. -/
def searchCb (E : Env) (datum : Datum) (c : Collector) (e : Entry) : Res (Collector × Option Err) :=
  (c.passesFilters E e.datum).bind fun pass =>
  if pass then
    (Res.ofOption e.datum.key).bind fun k =>
    (Res.ofOption datum.key).bind fun q =>
    (c.insert E ⟨c.scoreFunc.eval E.o k.feature q.feature, e.datum⟩).bind fun c => .ok (c, none)
  else .ok (c, none)

/-- data/search.go:347-377 `Search` with `c == nil`, over the visits `vs` of the scan.  The scan purges expired
entries, so the data set is returned too.  Not modelled: the memory needed for a slice of capacity `Limit`. -/
def search (E : Env) (vs : List Visit) (dt : Data) (datum : Datum) (config : Option SearchConfig) :
    Res (Data × Collector) :=
  let config := config.getD defaultSearchConfig
  (loopDBMap (searchCb E datum) vs dt.dbMap (newCollector config)).bind fun (m, c, _) =>
  .ok ({ dt with dbMap := m }, c)

/-- data/search.go:319-336, the loop over the index answer `result`. -/
def annoyLoop (E : Env) (q : Datum) (index : List (Option Datum)) : Collector → UInt32 → List Nat → Res Collector
  | c, _, [] => .ok c
  | c, counter, r :: rs =>
    match index[r]? with
    | none => .panic
    | some none => annoyLoop E q index c counter rs
    | some (some d) =>
      (c.passesFilters E d).bind fun pass =>
      if pass then
        (Res.ofOption q.key).bind fun qk =>
        (Res.ofOption d.key).bind fun k =>
        let c := { c with list := c.list ++ [⟨c.scoreFunc.eval E.o qk.feature k.feature, d⟩] }
        let counter := counter + 1
        if counter ≥ c.n then .ok c else annoyLoop E q index c counter rs
      else annoyLoop E q index c counter rs

/-- data/search.go:301-344 `SearchAnnoy`.  `answer` is what the Annoy library returns for this query
(`GetNnsByVector`): positions, best first.  The index is built with its snapshot (data/newsync.go:203-218), so both
are there or neither is. -/
def searchAnnoy (E : Env) (vs : List Visit) (answer : List Nat) (dt : Data) (datum : Datum)
    (config : Option SearchConfig) : Res (Data × Collector) :=
  let cfg := config.getD defaultSearchConfig
  match dt.annoyer with
  | none => search E vs dt datum config
  | some a =>
    if a.dataIndex.isEmpty then search E vs dt datum config
    else
      -- line 318: `datum.Key.Feature`
      (Res.ofOption datum.key).bind fun _ =>
      (annoyLoop E datum a.dataIndex (newCollector cfg) 0 answer).bind fun c => .ok (dt, c)

/-- data/search.go:130-149 `StreamSearch`, up to the sends: the list of scored data to be sent. -/
def streamSearch (E : Env) (vs : List Visit) (answer : List Nat) (dt : Data) (datum : Datum)
    (config : Option SearchConfig) : Res (Data × List ScoredDatum) :=
  let cfg := config.getD defaultSearchConfig
  (if Vec.isAnnoyName cfg.scoreFuncName then searchAnnoy E vs answer dt datum (some cfg)
   else search E vs dt datum (some cfg)).bind fun (dt, c) => .ok (dt, c.list)

end Search
end Veri
