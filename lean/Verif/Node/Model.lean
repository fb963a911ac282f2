import Verif.Dataset.Model
import Verif.Sort
/-
`Node`: one process.  node/node.go, node/nodeservice.go, state/state.go, server/.
-/
set_option autoImplicit false
namespace Veri
namespace Net

/-! ### Strings -/

/-- `strings.Join(list, ",")`. -/
def join : List String → String
  | [] => ""
  | [a] => a
  | a :: b :: l => a ++ "," ++ join (b :: l)

/-- `strings.Split(s, ",")`, on the characters. -/
def splitChars : List Char → List Char → List (List Char)
  | acc, [] => [acc]
  | acc, c :: cs => if c = ',' then acc :: splitChars [] cs else splitChars (acc ++ [c]) cs

def split (s : String) : List String := (splitChars [] s.toList).map String.ofList

/-- `sort.Strings`.  Go compares bytes and Lean compares code points, which is the same order on UTF-8 text; equal strings
are the same string, so every sorting algorithm gives this result (`sorted_unique`). -/
def sortStrings (l : List String) : List String := ISort.sort (fun a b => decide (a < b)) l

/-- node/node.go:26-29 `SerializeStringArray`, the result.  The list is also sorted in place; where that is visible the
model stores the sorted list. -/
def serialize (l : List String) : String := join (sortStrings l)

/-- node/node.go:151-161 `unique`; `keys` is the map of what has been seen. -/
def uniqueGo : List String → List String → List String
  | _, [] => []
  | keys, e :: l => if e ∈ keys then uniqueGo keys l else e :: uniqueGo (e :: keys) l

def unique (l : List String) : List String := uniqueGo [] l

/-- node/node.go:190-204 `FirstDifferent`: the first of `list1` that is not in `list0`. -/
def firstDifferent (list0 : List String) : List String → String
  | [] => ""
  | e :: l => if e ∈ list0 then firstDifferent list0 l else e

/-! ### Records -/

/-- veriservice/veriservice.pb.go `Peer`. -/
structure Peer where
  version : String
  addressList : List String
  timestamp : UInt64
  serviceList : List String
  dataList : List DataConfig
  deriving DecidableEq, Repr

/-- node/node.go:22-24 `GetIdOfPeer`. -/
def idOfPeer (p : Peer) : String := serialize p.addressList

/-- What a call of `GetIdOfPeer` leaves in the record: line 27 sorts the list in place. -/
def sortedPeer (p : Peer) : Peer := { p with addressList := sortStrings p.addressList }

/-- An item of `PeerList`. -/
structure PSlot where
  peer : Peer
  expires : Option Int
  deriving DecidableEq, Repr

abbrev PeerTable := AMap String PSlot

/-- go-cache: found until the expiry time; `none`: never expires. -/
def alive (now : Int) (e : Option Int) : Bool :=
  match e with
  | none => true
  | some e => decide (now ≤ e)

/-- node/node.go:39-52 `Node` with the flags of state/state.go (one node per process).  Not here: `Folder`, the ticker, the
connection cache (Verif/Pool). -/
structure Node where
  version : String
  port : UInt32
  knownIds : List String
  advertisedIds : List String
  dataset : DS.DL
  services : AMap String (Option Int)
  peers : PeerTable
  /-- `QueryUUIDCache` -/
  queries : AMap String (Option Int)
  health : Bool
  ready : Bool
  drain : Bool
  deriving DecidableEq, Repr

def minute : Int := 60000000000

/-- node/node.go:127-129 `getCurrentTime`, from nanoseconds since 1970. -/
def seconds (now : Int) : UInt64 := UInt64.ofInt (now / 1000000000)

/-- node/node.go:92-94 `IsRecent`: the sum is a `uint64`. -/
def isRecent (now : Int) (timestamp : UInt64) : Bool := decide (timestamp + 300 > seconds now)

/-! ### The node's own addresses -/

/-- The address list of node/node.go:163-176 `GetNodeInfo`. -/
def addresses (n : Node) : List String := unique (n.knownIds ++ n.advertisedIds)

/-- node/node.go:131-138 `ServiceListKeys`, up to order. -/
def serviceKeys (now : Int) (n : Node) : List String := (n.services.filter fun p => alive now p.2).map (·.1)

/-- node/node.go:163-176 `GetNodeInfo`: `order` is the iteration order over the data sets.  Listing them prolongs them. -/
def nodeInfo (X : DS.XEnv) (now : Int) (order : List String) (n : Node) : Res (Node × Peer) :=
  (DS.walk X now order n.dataset).bind fun (m, cs) =>
  .ok ({ n with dataset := m }, ⟨n.version, addresses n, seconds now, serviceKeys now n, cs⟩)

/-- node/node.go:206-211 `isPeerSimilarToNode`.  Here and below, of the two effects of `GetNodeInfo` only the address list
matters; the prolonging of the data sets is a background walk of Verif/Dataset. -/
def similar (n : Node) (p : Peer) : Bool := decide (serialize (addresses n) = idOfPeer p)

/-- node/node.go:213-216 `GetDifferentAddressOf`. -/
def differentAddress (n : Node) (p : Peer) : String := firstDifferent (addresses n) p.addressList

/-- node/nodeservice.go:205: `fmt.Sprintf("%v:%v", address, n.Port)`. -/
def feedback (address : String) (port : UInt32) : String := address ++ ":" ++ Nat.repr port.toNat

/-- node/nodeservice.go:204-217, the end of `SendJoinRequest`: the address of the reply is learned. -/
def learn (n : Node) (address : String) : Node :=
  if address = "" then n
  else if feedback address n.port ∈ n.knownIds then n
  else { n with knownIds := n.knownIds ++ [feedback address n.port] }

/-! ### Announcements -/

/-- go-cache `Get` on the peer table. -/
def peerAt (now : Int) (t : PeerTable) (id : String) : Option Peer :=
  ((t.get? id).filter fun s => alive now s.expires).map (·.peer)

/-- node/node.go:120-121: `Set` with the default five minutes, then ten minutes more. -/
def putPeer (X : DS.XEnv) (now : Int) (t : PeerTable) (id : String) (p : Peer) : PeerTable :=
  t.set id ⟨p, X.extend (some (now + 5 * minute)) now (10 * minute)⟩

/-- node/node.go:108-118 with 119: what `AddPeerElement` decides to do.  `none`: nothing. -/
def announceCheck (now : Int) (n : Node) (p : Peer) : Option (String × Peer) :=
  if similar n p then none
  else
    match peerAt now n.peers (idOfPeer p) with
    | some old => if old.timestamp ≥ p.timestamp then none else if isRecent now p.timestamp then some (idOfPeer p, sortedPeer p) else none
    | none => if isRecent now p.timestamp then some (idOfPeer p, sortedPeer p) else none

/-- node/node.go:108-125 `AddPeerElement`, run without interference (Verif/Node/Conc has the other case). -/
def announce (X : DS.XEnv) (now : Int) (n : Node) (p : Peer) : Node :=
  match announceCheck now n p with
  | none => n
  | some (id, p) => { n with peers := putPeer X now n.peers id p }

/-- The same with the pointer as it comes from the request (node/nodeservice.go:54-55, 242): line 113 reads the timestamp of
the record without looking for nil.  (While `isRecent now 0`, in the first five minutes of 1970, the code would store the nil
record, which the next report dereferences; the model panics at once.) -/
def announcePtr (X : DS.XEnv) (now : Int) (n : Node) : Option Peer → Res Node
  | some p => .ok (announce X now n p)
  | none =>
    if serialize (addresses n) = serialize [] then .ok n
    else
      match peerAt now n.peers (serialize []) with
      | some _ => .panic
      | none => if isRecent now 0 then .panic else .ok n

/-- node/nodeservice.go:56-77: the address that `Join` answers.  `remote` is `p.Addr.String()`, if the context has it;
`loopback` is `net.ParseIP` (without brackets) followed by `IsLoopback`. -/
def joinAddress (loopback : String → Bool) : Option String → String
  | none => ""
  | some remote =>
    let cs := remote.toList
    let address :=
      match (cs.reverse.dropWhile (· ≠ ':')).drop 1 with
      | [] => remote
      | rest => String.ofList rest.reverse
    let address := if loopback (String.ofList (address.toList.filter fun c => c ≠ '[' ∧ c ≠ ']')) then "localhost" else address
    if address.utf8ByteSize ≤ 1 then "" else address

/-- node/nodeservice.go:53-78 `Join`. -/
def joinRpc (X : DS.XEnv) (now : Int) (loopback : String → Bool) (remote : Option String) (n : Node) (p : Option Peer) :
    Res (Node × String) :=
  (announcePtr X now n p).bind fun n => .ok (n, joinAddress loopback remote)

/-! ### Synchronisation -/

/-- node/node.go:96-106 `CheckPeer`. -/
def checkPeer (now : Int) (n : Node) (p : Peer) : Node × Bool :=
  if similar n p then (n, false)
  else if isRecent now p.timestamp then (n, true)
  else ({ n with peers := n.peers.erase (idOfPeer p) }, false)

/-- node/node.go:86-90 `AddService`. -/
def addService (X : DS.XEnv) (now : Int) (n : Node) (s : String) : Node :=
  let e := match n.services.get? s with
    | some e => if alive now e then e else some (now + 5 * minute)
    | none => some (now + 5 * minute)
  { n with services := n.services.set s (X.extend e now (10 * minute)) }

/-- data/data.go:222-233 `AddSource`: go-cache `Add` leaves a live item as it is. -/
def addSource (now : Int) (dt : Data) (id : SourceId) : Data :=
  let dt := if dt.sources = none then dt.initData else dt
  match dt.sources with
  | none => dt
  | some m =>
    if ((m.get? id).any fun e => decide (now ≤ e)) = true then dt
    else { dt with sources := some (m.set id (now + 10 * minute)) }

/-- node/node.go:254-262 for one configuration of the peer. -/
def syncData (X : DS.XEnv) (now : Int) (id : String) (m : DS.DL) (c : DataConfig) : Res DS.DL :=
  match DS.getOrCreate X now m c with
  | .ok (m, _) =>
    match m.get? c.name with
    | some s => .ok (m.set c.name { s with data := addSource now s.data id })
    | none => .panic
  | .err _ => .ok m
  | .panic => .panic

def syncDatas (X : DS.XEnv) (now : Int) (id : String) : List DataConfig → DS.DL → Res DS.DL
  | [], m => .ok m
  | c :: cs, m => (syncData X now id m c).bind fun m => syncDatas X now id cs m

/-- node/nodeservice.go:245-249: whether `SendAddPeerRequest` sends the record. -/
def sends (id : String) (p : Peer) : Bool := decide (firstDifferent p.addressList [id] ≠ "")

/-- node/node.go:236-263, one turn of the loop: `inner` is the iteration order of line 250.  The second component is the list
of the records sent, each with its target. -/
def syncPeer (X : DS.XEnv) (now : Int) (inner : List Peer) (n : Node) (p : Peer) : Res (Node × List (String × Peer)) :=
  let (n, ok) := checkPeer now n p
  if ok = false then .ok (n, [])
  else
    let id := differentAddress n (sortedPeer p)
    if id = "" then .ok (n, [])
    else
      let n := p.serviceList.foldl (addService X now) n
      (syncDatas X now id p.dataList n.dataset).bind fun m =>
      .ok ({ n with dataset := m }, ((inner.filter (sends id)).map fun q => (id, q)))

/-- node/node.go:235-263, the loop over the peers taken by `Items()`, in iteration order, each with the inner order. -/
def syncLoop (X : DS.XEnv) (now : Int) : List (Peer × List Peer) → Node → Res (Node × List (String × Peer))
  | [], n => .ok (n, [])
  | (p, inner) :: ps, n =>
    (syncPeer X now inner n p).bind fun (n, out) =>
    (syncLoop X now ps n).bind fun (n, outs) => .ok (n, out ++ outs)

/-- node/node.go:218-267 `SyncWithPeers`, with one reading of the clock. -/
def syncWithPeers (X : DS.XEnv) (now : Int) (ps : List (Peer × List Peer)) (n : Node) : Res (Node × List (String × Peer)) :=
  (syncLoop X now ps n).bind fun (n, out) => .ok ({ n with ready := true }, out)

/-- `n.PeerList.Items()`. -/
def peerItems (now : Int) (n : Node) : List Peer := (n.peers.filter fun s => alive now s.2.expires).map (·.2.peer)

/-- node/node.go:278-294 `JoinToPeers`: whom the join requests go to, in order. -/
def joinTargets (services : List String) (ps : List Peer) (n : Node) : List String :=
  services ++ (ps.map fun p => p.addressList.filter fun id => decide (id ∉ addresses n)).flatten

/-! ### Shutdown and health -/

/-- node/node.go:79-82 `Close`, the flags. -/
def close (n : Node) : Node := { n with ready := false, drain := true }

/-- server/httpservice.go:17-27 `GetReady`: the status and the body. -/
def getReady (n : Node) : Nat × String :=
  if n.ready then (200, "{\"alive\": true}") else (503, "{\"alive\": false}")

/-- server/httpservice.go:29-39 `GetHeath`. -/
def getHealth (n : Node) : Nat × String :=
  if n.health then (200, "{\"alive\": true}") else (500, "{\"alive\": true}")

/-! ### Start -/

/-- `strings.Contains(address, ":")`. -/
def hasColon (s : String) : Bool := s.toList.contains ':'

/-- server/veriserviceserver.go:59-68: the advertised addresses from the command line. -/
def advertised (broadcast : String) (port : Int) : List String :=
  (if broadcast = "" then [] else split broadcast).map fun a => if hasColon a then a else a ++ ":" ++ toString port

/-- node/node.go:54-72 `NewNode` and the flags set by `RunServer`; the background tasks it starts are separate. -/
def newNode (port : UInt32) (advertisedIds services : List String) (index : DS.DL) : Node where
  version := ""
  port := port
  knownIds := []
  advertisedIds := advertisedIds
  dataset := index
  services := services.foldl (fun m s => m.set s none) []
  peers := []
  queries := []
  health := true
  ready := false
  drain := false

end Net
end Veri
