import Verif.Node.Lemmas
import Verif.Search.Model
/-
Several nodes: what one client request causes in a cluster.  node/nodeservice.go:35-51, 118-154, node/datasourceclient.go,
data/insert.go, data/search.go:161-298.

A call of another node is given to any node at all, or fails; so every topology, every mapping of addresses to nodes and every
change of it is covered.
-/
set_option autoImplicit false
namespace Veri

namespace Net

/-- node/nodeservice.go:119-135: what `SearchStream` does with the id of the query.  `fresh` is `uuid.NewRandom()`; `none`:
the query has been here already, the handler returns.  go-cache `Add` succeeds if there is no live item. -/
def queryEntry (now : Int) (fresh : String) (n : Node) (uid : String) : Option (Node × String) :=
  if uid = "" then some (n, fresh)
  else
    match n.queries.get? uid with
    | some e => if alive now e then none else some ({ n with queries := n.queries.set uid (some (now + 5 * minute)) }, uid)
    | none => some ({ n with queries := n.queries.set uid (some (now + 5 * minute)) }, uid)

/-- node/nodeservice.go:118-154 `SearchStream` up to line 143: `ok none`: nothing to do.  Without a configuration line 126
writes through a nil pointer (`GetUuid` of nil is ""). -/
def searchEntry (now : Int) (fresh : String) (n : Node) (config : Option SearchConfig) : Res (Node × Option (Data × SearchConfig)) :=
  match config with
  | none => .panic
  | some c =>
    match queryEntry now fresh n c.uuid with
    | none => .ok (n, none)
    | some (n, u) =>
      match DS.getNoCreate now n.dataset c.dataName with
      | .ok dt => .ok (n, some (dt, { c with uuid := u }))
      | .err e => .err e
      | .panic => .panic

end Net

namespace Clu
open Net

/-! ### Inserts -/

/-- Where a handler of an insert is. -/
inductive Phase where
  | begun
  /-- in the loop of data/data.go:241-251, `limit` being `sourceLimit`, before the next source -/
  | sending (order : List SourceId) (limit : Int) (counter : UInt32)
  /-- data/insert.go:34, the call is under way -/
  | waiting (child : Nat) (order : List SourceId) (limit : Int) (counter : UInt32)
  | over (err : Option Err)
  deriving Repr

/-- An insert request at a node.  `config.count` is what the request carries. -/
structure Task where
  node : Nat
  name : String
  datum : Datum
  config : InsertConfig
  /-- the handler that made the call; `none`: a client -/
  parent : Option Nat
  phase : Phase
  deriving Repr

structure IState where
  nodes : List Node
  tasks : List Task
  deriving Repr

inductive ILabel where
  /-- a client sends an insert to node `i` -/
  | client (i : Nat) (name : String) (datum : Datum) (config : InsertConfig)
  /-- the handler runs up to the loop over the sources, which come in this order -/
  | serve (j : Nat) (now : Int) (order : List SourceId)
  /-- the next call, which reaches node `dst`, or none -/
  | send (j : Nat) (dst : Option Nat)
  /-- the call returns -/
  | back (j : Nat)
  /-- any other activity of a node -/
  | other (i : Nat) (n : Node)

def setPhase (s : IState) (j : Nat) (t : Task) (p : Phase) : IState := { s with tasks := s.tasks.set j { t with phase := p } }

/-- The local part of an insert: data/insert.go:12-30 is `Data.insert` without sources (`insert_local`).  The second component
says whether the loop over the sources is next, with the replication number. -/
def localInsert (now : Int64) (dt : Data) (datum : Datum) (config : InsertConfig) : Res (Data × Option Err × Bool) :=
  (Data.insert now [] (fun _ _ _ (w : Unit) => (w, none)) dt () (some datum) (some config)).bind fun out =>
  .ok (out.data, out.err, decide (dt.overTarget = false ∧ dt.config.any (·.enforceReplicationOnInsert) = true ∧ config.count = 0))

/-- data/insert.go:35-44 after a call: `ok` says whether it returned nil. -/
def afterCall (repl : UInt32) (ok : Bool) (order : List SourceId) (limit : Int) (counter : UInt32) : Phase :=
  let counter := if ok then counter + 1 else counter
  if counter ≥ repl then .over (if counter < repl then some .tooFewReplicas else none)
  else .sending order limit counter

/-- The replication number of the data set, as the handler sees it now (data/insert.go:41, 46). -/
def replication (s : IState) (t : Task) : UInt32 :=
  match s.nodes[t.node]? with
  | some n =>
    match n.dataset.get? t.name with
    | some x => (x.data.config.map (·.replicationOnInsert)).getD 0
    | none => 0
  | none => 0

def istep (X : DS.XEnv) (s : IState) : ILabel → Option IState
  | .client i name datum config => some { s with tasks := s.tasks ++ [⟨i, name, datum, config, none, .begun⟩] }
  | .serve j now order =>
    match s.tasks[j]? with
    | some t =>
      match t.phase, s.nodes[t.node]? with
      | .begun, some n =>
        -- node/nodeservice.go:36-38
        if n.drain then some (setPhase s j t (.over (some .drain)))
        else
          -- node/nodeservice.go:42-45
          match DS.get X now n.dataset t.name with
          | .ok (m, dt) =>
            match localInsert (Int64.ofInt (now / 1000000000)) dt t.datum t.config with
            | .ok (dt, err, loop) =>
              match m.get? t.name with
              | some x =>
                let s := { s with nodes := s.nodes.set t.node { n with dataset := m.set t.name { x with data := dt } } }
                some (setPhase s j t (if loop then .sending order 5 1 else .over err))
              | none => none
            | _ => none
          | .err e => some (setPhase s j t (.over (some e)))
          | .panic => none
      | _, _ => none
    | none => none
  | .send j dst =>
    match s.tasks[j]? with
    | some t =>
      match t.phase with
      | .sending [] _ counter => some (setPhase s j t (.over (if counter < replication s t then some .tooFewReplicas else none)))
      | .sending (_ :: order) limit counter =>
        if limit < 0 then some (setPhase s j t (.over (if counter < replication s t then some .tooFewReplicas else none)))
        else
          match dst with
          -- node/datasourceclient.go:61-77: the request carries the configuration of line 31
          | some i =>
            let child : Task := ⟨i, t.name, t.datum, { t.config with count := t.config.count + 1 }, some j, .begun⟩
            let s := setPhase s j t (.waiting s.tasks.length order (limit - 1) counter)
            some { s with tasks := s.tasks ++ [child] }
          | none => some (setPhase s j t (afterCall (replication s t) false order (limit - 1) counter))
      | _ => none
    | none => none
  | .back j =>
    match s.tasks[j]? with
    | some t =>
      match t.phase with
      | .waiting k order limit counter =>
        match s.tasks[k]? with
        | some c =>
          match c.phase with
          | .over err => some (setPhase s j t (afterCall (replication s t) err.isNone order limit counter))
          -- the caller gives up after ten seconds (node/datasourceclient.go:63)
          | _ => some (setPhase s j t (afterCall (replication s t) false order limit counter))
        | none => none
      | _ => none
    | none => none
  | .other i n => some { s with nodes := s.nodes.set i n }

def iexec (X : DS.XEnv) (s : IState) : List ILabel → Option IState
  | [] => some s
  | l :: ls => (istep X s l).bind fun s => iexec X s ls

/-! ### Queries -/

/-- A search request on its way to node `dst`.  Of its configuration only the id and the data set matter here; the timeout, which
data/search.go:165 lowers on the way, is as it was. -/
structure QMsg where
  dst : Nat
  config : SearchConfig
  /-- the number of data in the request -/
  data : Nat
  /-- whether it comes from a client (ghost) -/
  client : Bool
  deriving Repr

/-- A search carried out (ghost). -/
structure Exec where
  time : Int
  node : Nat
  uuid : String
  /-- the request came without an id -/
  entry : Bool
  /-- the requests it sent to other nodes -/
  sent : Nat
  /-- the number of data in the request -/
  data : Nat
  /-- the request came from a client -/
  client : Bool
  deriving DecidableEq, Repr

structure QState where
  now : Int
  nodes : List Node
  msgs : List QMsg
  execs : List Exec
  /-- the ids that have been used, by clients or by `uuid.NewRandom` -/
  used : List String
  deriving Repr

inductive QLabel where
  | tick (now : Int)
  /-- a client sends a request -/
  | client (m : QMsg)
  /-- message `k` is handled; the requests sent on go to these nodes -/
  | handle (k : Nat) (fresh : String) (dsts : List Nat)
  /-- a message is lost -/
  | lose (k : Nat)
  /-- go-cache janitor of `QueryUUIDCache` -/
  | janitor (i : Nat) (uid : String)
  /-- any other activity of a node -/
  | other (i : Nat) (n : Node)

/-- A request with an id of "" gets an id that nobody has used.  Each datum of the request is sent to at most six sources
(data/search.go:189-199 with data/data.go:239-253); a request that is answered from the query cache is sent to none. -/
def qstep (s : QState) : QLabel → Option QState
  | .tick now => if s.now ≤ now then some { s with now := now } else none
  | .client m => some { s with msgs := s.msgs ++ [{ m with client := true }], used := m.config.uuid :: s.used }
  | .handle k fresh dsts =>
    match s.msgs[k]? with
    | some m =>
      match s.nodes[m.dst]? with
      | some n =>
        if fresh = "" ∨ fresh ∈ s.used ∨ dsts.length > 6 * m.data then none
        else
          match searchEntry s.now fresh n (some m.config) with
          | .ok (n', some (_, c)) =>
            some { s with
              nodes := s.nodes.set m.dst n'
              msgs := s.msgs.eraseIdx k ++ dsts.map fun d => ⟨d, c, 1, false⟩
              execs := s.execs ++ [⟨s.now, m.dst, c.uuid, decide (m.config.uuid = ""), dsts.length, m.data, m.client⟩]
              used := c.uuid :: s.used }
          | .ok (n', none) => some { s with nodes := s.nodes.set m.dst n', msgs := s.msgs.eraseIdx k }
          -- an unknown data set: the id has been noted all the same
          | .err _ =>
            some { s with
              nodes := s.nodes.set m.dst ((queryEntry s.now fresh n m.config.uuid).map (·.1) |>.getD n)
              msgs := s.msgs.eraseIdx k }
          | .panic => none
      | none => none
    | none => none
  | .lose k => some { s with msgs := s.msgs.eraseIdx k }
  | .janitor i uid =>
    match s.nodes[i]? with
    | some n =>
      match n.queries.get? uid with
      | some e => if alive s.now e then none else some { s with nodes := s.nodes.set i { n with queries := n.queries.erase uid } }
      | none => none
    | none => none
  | .other i n =>
    match s.nodes[i]? with
    | some n0 => if n.queries = n0.queries then some { s with nodes := s.nodes.set i n } else none
    | none => none

def qexec (s : QState) : List QLabel → Option QState
  | [] => some s
  | l :: ls => (qstep s l).bind fun s => qexec s ls

end Clu
end Veri
