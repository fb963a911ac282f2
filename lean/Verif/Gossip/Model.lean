import Verif.Node.Sync
/-
Several nodes that tell each other about themselves and about the others: node/node.go:218-294, 296-330 and node/nodeservice.go:53-78,
174-219, 241-267.

Taken as one step each: one run of `JoinToPeers` and one run of `SyncWithPeers` (the code starts both in goroutines of their own,
node/node.go:323-330); a message to a node that answers arrives at once, a message to an address where nobody answers is lost.
What clients and the other background tasks do to the data sets of a node (inserts, searches, deletions, expiry, `ReloadRuns`,
`SaveIndex`) is an event after which the list of data sets is any list that the operations keep (`Good`).
-/
set_option autoImplicit false
namespace Veri
namespace Gossip
open Net

variable {ι : Type} [DecidableEq ι]

/-- The network: who answers at an address, and the address under which a node is seen by another one (what `Join` answers,
node/nodeservice.go:56-77). -/
structure World (ι : Type) where
  dial : String → Option ι
  seen : ι → ι → String

/-- The orders in which the maps are iterated over. -/
structure Orders where
  names : List String → List String
  peers : List Peer → List Peer
  inner : Peer → List Peer → List Peer

/-- What a node does. -/
inductive Kind where
  /-- node/node.go:278-294 `JoinToPeers` -/
  | join
  /-- node/node.go:218-267 `SyncWithPeers` -/
  | sync
  /-- node/nodeservice.go:221-229 `CreateDataIfNotExists` -/
  | create (c : DataConfig)
  /-- anything else that happens to the node's data sets, data/dataset.go:65-227: this is the list afterwards -/
  | change (m : DS.DL)
  | idle

/-- An event: `wait` nanoseconds after the one before. -/
structure Ev (ι : Type) where
  wait : Nat
  who : ι
  kind : Kind
  orders : Orders

def upd (σ : ι → Node) (i : ι) (n : Node) : ι → Node := fun k => if k = i then n else σ k

/-- node/nodeservice.go:174-219 `SendJoinRequest` of `i` to the address `id`, with the `Join` of the node there. -/
def joinOne (X : DS.XEnv) (W : World ι) (t : Int) (o : Orders) (i : ι) (σ : ι → Node) (id : String) : Res (ι → Node) :=
  (nodeInfo X t (o.names (DS.names t (σ i).dataset)) (σ i)).bind fun (n, p) =>
  match W.dial id with
  | none => .ok (upd σ i n)
  | some j =>
    let σ := upd σ i n
    let σ := upd σ j (announce X t (σ j) p)
    .ok (upd σ i (learn (σ i) (W.seen i j)))

def joinAll (X : DS.XEnv) (W : World ι) (t : Int) (o : Orders) (i : ι) : List String → (ι → Node) → Res (ι → Node)
  | [], σ => .ok σ
  | id :: ids, σ => (joinOne X W t o i σ id).bind fun σ => joinAll X W t o i ids σ

/-- node/node.go:278-294 `JoinToPeers`; the information taken for line 279 prolongs the data sets. -/
def join (X : DS.XEnv) (W : World ι) (t : Int) (o : Orders) (i : ι) (σ : ι → Node) : Res (ι → Node) :=
  (nodeInfo X t (o.names (DS.names t (σ i).dataset)) (σ i)).bind fun (n, _) =>
  joinAll X W t o i (joinTargets (o.names (serviceKeys t (σ i))) (o.peers (peerItems t (σ i))) (σ i)) (upd σ i n)

/-- node/nodeservice.go:241-267: the records sent by `SendAddPeerRequest`, each with the address it is sent to, and the `AddPeer` of the
nodes there. -/
def deliver (X : DS.XEnv) (W : World ι) (t : Int) : List (String × Peer) → (ι → Node) → (ι → Node)
  | [], σ => σ
  | (id, p) :: out, σ =>
    match W.dial id with
    | none => deliver X W t out σ
    | some j => deliver X W t out (upd σ j (announce X t (σ j) p))

/-- node/node.go:218-267 `SyncWithPeers`. -/
def sync (X : DS.XEnv) (W : World ι) (t : Int) (o : Orders) (i : ι) (σ : ι → Node) : Res (ι → Node) :=
  (syncWithPeers X t ((o.peers (peerItems t (σ i))).map fun p => (p, o.inner p (peerItems t (σ i)))) (σ i)).bind fun (n, out) =>
  .ok (deliver X W t out (upd σ i n))

def step (X : DS.XEnv) (W : World ι) (t : Int) (e : Ev ι) (σ : ι → Node) : Res (ι → Node) :=
  match e.kind with
  | .join => join X W t e.orders e.who σ
  | .sync => sync X W t e.orders e.who σ
  | .create c => (DS.getOrCreate X t (σ e.who).dataset c).bind fun (m, _) => .ok (upd σ e.who { σ e.who with dataset := m })
  | .change m => .ok (upd σ e.who { σ e.who with dataset := m })
  | .idle => .ok σ

/-- The events one after the other, from a time and the states of the nodes. -/
def exec (X : DS.XEnv) (W : World ι) : List (Ev ι) → Int × (ι → Node) → Res (Int × (ι → Node))
  | [], s => .ok s
  | e :: es, (t, σ) => (step X W (t + e.wait) e σ).bind fun σ => exec X W es (t + e.wait, σ)

/-- The time that the events take. -/
def duration (es : List (Ev ι)) : Int := (es.map fun e => (e.wait : Int)).sum

/-! ### Specification -/

structure Orders.Ok (o : Orders) : Prop where
  names : ∀ l, (o.names l).Perm l
  peers : ∀ l, (o.peers l).Perm l
  inner : ∀ p l, (o.inner p l).Perm l

/-- Each node has its addresses: a message to one of them reaches it, and it is seen under no other. -/
structure World.Ok (W : World ι) (addr : ι → List String) (port : ι → UInt32) : Prop where
  nonempty : ∀ i, addr i ≠ []
  ok : ∀ i, ∀ a ∈ addr i, AddressOk a
  dial : ∀ i, ∀ a ∈ addr i, W.dial a = some i
  seen : ∀ i j, W.seen i j = "" ∨ feedback (W.seen i j) (port i) ∈ addr i

/-- A record of the node `k` that is not from the future, and whose data sets can be kept. -/
structure RecOf (addr : ι → List String) (t : Int) (k : ι) (p : Peer) : Prop where
  list : p.addressList.Perm (addr k)
  past : (p.timestamp.toNat : Int) ≤ t / 1000000000
  keep : ∀ c ∈ p.dataList, Keepable c

/-- A node with its addresses, whose records (it may have none) are of nodes in this world. -/
structure Settled (addr : ι → List String) (port : ι → UInt32) (t : Int) (i : ι) (n : Node) : Prop where
  own : (addresses n).Perm (addr i)
  port : n.port = port i
  data : Good n.dataset
  nodup : AMap.Nodup n.peers
  recs : ∀ id s, n.peers.get? id = some s → ∃ k, id = serialize (addr k) ∧ RecOf addr t k s.peer ∧
    ∃ e, s.expires = some e ∧ (s.peer.timestamp.toNat : Int) * 1000000000 + 10 * minute ≤ e

/-- The clock does not overflow. -/
def Clock (t : Int) : Prop := 0 ≤ t ∧ t / 1000000000 + 300 < 18446744073709551616

/-- A stretch of at most 99 seconds in which each of these nodes does its periodic work (node/node.go:296-330: every 60 seconds). -/
structure Window (acts : ι → Prop) (w : List (Ev ι)) : Prop where
  short : duration w ≤ 99000000000
  joins : ∀ i, acts i → ∃ e ∈ w, e.who = i ∧ e.kind = .join
  syncs : ∀ i, acts i → ∃ e ∈ w, e.who = i ∧ e.kind = .sync
  orders : ∀ e ∈ w, e.orders.Ok
  creates : ∀ e ∈ w, ∀ c, e.kind = .create c → Keepable c
  changes : ∀ e ∈ w, ∀ m, e.kind = .change m → Good m

/-- The first thing that each does is to join (node/node.go:67). -/
def Begins (acts : ι → Prop) (w : List (Ev ι)) : Prop := ∀ i, acts i →
  ∃ pre e post, w = pre ++ e :: post ∧ e.who = i ∧ e.kind = .join ∧ ∀ e' ∈ pre, ¬ (e'.who = i ∧ e'.kind = .sync)

/-- `i` has an address of `j` in its configuration. -/
def Link (W : World ι) (σ : ι → Node) (i j : ι) : Prop := ∃ s, (σ i).services.get? s = some none ∧ W.dial s = some j

/-- A chain of `n` links, in whichever direction, over nodes that act. -/
inductive Chain (acts : ι → Prop) (link : ι → ι → Prop) : Nat → ι → ι → Prop where
  | refl (i : ι) : acts i → Chain acts link 0 i i
  | step {n : Nat} {i k j : ι} : Chain acts link n i k → acts j → link k j ∨ link j k → Chain acts link (n + 1) i j

/-- `n` has a live record of the node with these addresses, at most 99 seconds old. -/
def KnownTo (t : Int) (n : Node) (l : List String) : Prop :=
  ∃ p ∈ peerItems t n, p.addressList.Perm l ∧ t / 1000000000 ≤ (p.timestamp.toNat : Int) + 99

end Gossip
end Veri
