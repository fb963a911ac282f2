import Verif.Go
/-
`ConnectionCache`, `ConnectionPool`: the connections to one address.  util/connpool.go.

The caches of different addresses do not share anything, except that the cache of pools drops some of them when there are
too many; dropping can happen at any time here.
-/
set_option autoImplicit false
namespace Veri
namespace Pool

/-- google.golang.org/grpc/connectivity `State`. -/
inductive CState where
  | idle | connecting | ready | transientFailure | shutdown
  deriving DecidableEq, Repr

/-- util/connpool.go:87-91 `Connection`; the counter is an `int64`, here unbounded (fewer than 2^63 requests at a time).
`returned` counts the times the connection was put back by a request that was done with it; the program does not have it, it
is there for C65. -/
structure Conn where
  state : CState
  counter : Int
  returned : Nat
  deriving DecidableEq, Repr

/-- util/connpool.go:82-85 `ConnectionPool`: what is in the `sync.Pool`, by number of connection, copies included. -/
structure CPool where
  content : List Nat
  closed : Bool
  deriving DecidableEq, Repr

/-- What `sync.Pool.Get` does: it gives any of its items, or calls `New` (also when it is not empty: items are kept per
processor); then the dial may fail. -/
inductive Pick where
  | item (i : Nat)
  | new (dial : Bool)
  deriving DecidableEq, Repr

/-- Closing a connection. -/
def shut (conns : List Conn) (c : Nat) : List Conn :=
  match conns[c]? with
  | some x => conns.set c { x with state := .shutdown }
  | none => conns

/-- One `Pool.Get` (util/connpool.go:137) with `NewConnection` (99-120): the connection, if it is not nil.  `none`: there is no
such item. -/
def fetch (conns : List Conn) (p : CPool) : Pick → Option (List Conn × CPool × Option Nat)
  | .item i =>
    match p.content[i]? with
    | some c => some (conns, { p with content := p.content.eraseIdx i }, some c)
    | none => none
  | .new dial =>
    if p.closed = true ∨ dial = false then some (conns, p, none)
    else some (conns ++ [⟨.idle, 0, 0⟩], p, some conns.length)

/-- One turn of `GetWithRetry` (util/connpool.go:137-153): the connection to be returned, or none for another try. -/
def attempt (conns : List Conn) (p : CPool) (k : Pick) : Option (List Conn × CPool × Option Nat) :=
  match fetch conns p k with
  | none => none
  | some (conns, p, none) => some (conns, p, none)
  | some (conns, p, some c) =>
    match conns[c]? with
    | none => none
    | some x => if x.state ≠ .shutdown then some (conns, p, some c) else some (shut conns c, p, none)

/-- util/connpool.go:133-157 `GetWithRetry`, run without interference: `count` tries have been made; the picks are used one
after the other.  The result has the number of tries. -/
def getWithRetry (count : Nat) (conns : List Conn) (p : CPool) : List Pick → Option (List Conn × CPool × Option Nat × Nat)
  | [] => if count > 3 then some (conns, p, none, count) else none
  | k :: ks =>
    if count > 3 then some (conns, p, none, count)
    else
      match attempt conns p k with
      | none => none
      | some (conns, p, some c) => some (conns, p, some c, count + 1)
      | some (conns, p, none) => getWithRetry (count + 1) conns p ks

/-! ### All requests together -/

/-- Where a goroutine is.  `p` is the number of the pool it works with, `c` the number of the connection. -/
inductive T where
  /-- ConnectionCache.Get, line 46 -/
  | start
  /-- GetWithRetry, with the number of tries made -/
  | trying (p count : Nat)
  /-- line 124: before the increment -/
  | got (p c : Nat)
  /-- line 126: before the load -/
  | counted (p c : Nat)
  /-- line 127: before the put -/
  | toPut (p c : Nat)
  /-- the request uses the connection -/
  | holding (c : Nat)
  /-- ConnectionCache.Put, line 57: before the decrement -/
  | putting (p c : Nat)
  /-- PutIfHealthy, line 165 -/
  | returning (p c : Nat)
  /-- CloseAll, line 186 -/
  | evicting (p : Nat)
  /-- CloseAll, line 187, with the turns left -/
  | closing (p left : Nat)
  | done
  deriving DecidableEq, Repr

structure PState where
  conns : List Conn
  pools : List CPool
  /-- the pool that the cache of pools gives for the address -/
  current : Option Nat
  threads : List T
  deriving DecidableEq, Repr

def init : PState := ⟨[], [], none, []⟩

inductive Label where
  /-- a new request -/
  | arrive
  /-- one turn of GetWithRetry -/
  | try (j : Nat) (k : Pick)
  /-- any other step of a goroutine -/
  | go (j : Nat)
  /-- one turn of the loop of CloseAll -/
  | close (j : Nat) (k : Pick)
  /-- the state of a connection changes by itself (only closing leads to `shutdown`) -/
  | net (c : Nat) (s : CState)
  /-- `sync.Pool` drops an item, as it may -/
  | drop (p i : Nat)
  /-- the pool is dropped from the cache of pools; `notify`: line 26 is called with it -/
  | evict (notify : Bool)
  deriving DecidableEq, Repr

/-- `cc.Provider.Get`: the current pool, or a new one (line 23). -/
def provider (s : PState) : PState × Nat :=
  match s.current with
  | some p => (s, p)
  | none => ({ s with pools := s.pools ++ [⟨[], false⟩], current := some s.pools.length }, s.pools.length)

def setCounter (s : PState) (c : Nat) (f : Int → Int) : Option PState :=
  match s.conns[c]? with
  | some x => some { s with conns := s.conns.set c { x with counter := f x.counter } }
  | none => none

/-- `cp.Pool.Put`. -/
def poolPut (s : PState) (p c : Nat) : Option PState :=
  match s.pools[p]? with
  | some q => some { s with pools := s.pools.set p { q with content := q.content ++ [c] } }
  | none => none

def setT (j : Nat) (t : T) (s : PState) : PState := { s with threads := s.threads.set j t }

def step (s : PState) : Label → Option PState
  | .arrive => some { s with threads := s.threads ++ [.start] }
  | .try j k =>
    match s.threads[j]? with
    | some (.trying p count) =>
      if count > 3 then none
      else
        match s.pools[p]? with
        | none => none
        | some q =>
          match attempt s.conns q k with
          | none => none
          | some (conns, q, some c) => some (setT j (.got p c) { s with conns := conns, pools := s.pools.set p q })
          | some (conns, q, none) => some (setT j (.trying p (count + 1)) { s with conns := conns, pools := s.pools.set p q })
    | _ => none
  | .go j =>
    match s.threads[j]? with
    | some .start => let (s, p) := provider s; some (setT j (.trying p 0) s)
    | some (.trying _ count) => if count > 3 then some (setT j .done s) else none
    | some (.got p c) => (setCounter s c (· + 1)).map (setT j (.counted p c))
    | some (.counted p c) =>
      match s.conns[c]? with
      | some x => some (setT j (if x.counter ≤ 20 then .toPut p c else .holding c) s)
      | none => none
    | some (.toPut p c) => (poolPut s p c).map (setT j (.holding c))
    | some (.holding c) => let (s, p) := provider s; some (setT j (.putting p c) s)
    | some (.putting p c) => (setCounter s c (· - 1)).map (setT j (.returning p c))
    | some (.returning p c) =>
      match s.conns[c]? with
      | some x =>
        if x.state = .ready then
          (poolPut { s with conns := s.conns.set c { x with returned := x.returned + 1 } } p c).map (setT j .done)
        else some (setT j .done { s with conns := shut s.conns c })
      | none => none
    | some (.evicting p) =>
      match s.pools[p]? with
      | some q => some (setT j (.closing p 1000) { s with pools := s.pools.set p { q with closed := true } })
      | none => none
    | some (.closing _ 0) => some (setT j .done s)
    | _ => none
  | .close j k =>
    match s.threads[j]? with
    | some (.closing p (left + 1)) =>
      match s.pools[p]? with
      | none => none
      | some q =>
        match fetch s.conns q k with
        | none => none
        | some (conns, q, some c) => some (setT j (.closing p left) { s with conns := shut conns c, pools := s.pools.set p q })
        | some (conns, q, none) => some (setT j (.closing p left) { s with conns := conns, pools := s.pools.set p q })
    | _ => none
  | .net c st =>
    match s.conns[c]? with
    | some x => if x.state = .shutdown ∨ st = .shutdown then none else some { s with conns := s.conns.set c { x with state := st } }
    | none => none
  | .drop p i =>
    match s.pools[p]? with
    | some q => some { s with pools := s.pools.set p { q with content := q.content.eraseIdx i } }
    | none => none
  | .evict notify =>
    match s.current with
    | some p => some { s with current := none, threads := s.threads ++ (if notify then [.evicting p] else []) }
    | none => none

def exec (s : PState) : List Label → Option PState
  | [] => some s
  | l :: ls => (step s l).bind fun s => exec s ls

inductive Reach : PState → Prop
  | init : Reach init
  | step {s s' : PState} (l : Label) : Reach s → step s l = some s' → Reach s'

/-- The request uses connection `c`: it has it from `Get` and has not begun to give it back. -/
def Uses (c : Nat) : T → Bool
  | .holding c' => c = c'
  | _ => false

/-- Number of requests that use the connection. -/
def users (s : PState) (c : Nat) : Nat := s.threads.countP (Uses c)

end Pool
end Veri
