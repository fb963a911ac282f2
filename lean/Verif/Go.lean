/-
Go primitives shared by the whole model: outcomes (value / error / panic), errors, byte strings.
-/
set_option autoImplicit false
universe u v
namespace Veri

/-- A Go `[]byte`, or a Go `string` seen as its bytes. -/
abbrev Bytes := List UInt8

/-- The error values that the modelled functions return, one constructor per message.
The Go code compares errors by message text only in `data/dataset.go:117`
("Item %s already exists"), `data/data.go:198` and `node/nodeservice.go:130`. -/
inductive Err where
  /-- data/insert.go:13 "Number of elements is over the target" -/
  | overTarget
  /-- data/insert.go:42 "Replication number reached" (internal, stops the source loop) -/
  | replicationReached
  /-- data/insert.go:47 "Replicas is less then Replication Config" -/
  | tooFewReplicas
  /-- node/nodeservice.go:37 "Node is in drain mode" -/
  | drain
  /-- node/datasourceclient.go:37,66 and node/nodeservice.go "Connection failure" -/
  | connection
  /-- data/dataset.go:91 "Data %v does not exist. Retry recomended", data/dataset.go:135 -/
  | notExist
  /-- go-cache `Add`: "Item %s already exists" -/
  | alreadyExists
  /-- node/nodeservice.go:247 "Peer and target node is the same node" -/
  | sameNode
  /-- data/data.go:148 "Another instance of processor is running for data" -/
  | alreadyRunning
  /-- data/data.go:224 "DataSource is nil" -/
  | nilSource
  /-- any other error, e.g. one coming back from gRPC -/
  | other (code : Nat)
  deriving DecidableEq, Repr

/-- Outcome of a Go call: normal return, error return, or panic (which ends the process:
there is no `recover` anywhere in the repository). -/
inductive Res (α : Type u) where
  | ok (a : α)
  | err (e : Err)
  | panic
  deriving Repr

namespace Res
variable {α : Type u} {β : Type v}

/-- Sequencing: errors and panics propagate (`if err != nil { return err }`). -/
def bind (x : Res α) (f : α → Res β) : Res β :=
  match x with
  | ok a => f a
  | err e => err e
  | panic => panic

def map (f : α → β) (x : Res α) : Res β :=
  match x with
  | ok a => ok (f a)
  | err e => err e
  | panic => panic

instance : Monad Res where
  pure := ok
  bind := bind

/-- A panic-only computation (`Option`, `none` = panic) seen as an outcome. -/
def ofOption : Option α → Res α
  | some a => ok a
  | none => panic

def isPanic : Res α → Bool
  | panic => true
  | _ => false

@[simp] theorem bind_ok (a : α) (f : α → Res β) : (Res.ok a).bind f = f a := rfl
@[simp] theorem bind_err (e : Err) (f : α → Res β) : (Res.err e : Res α).bind f = .err e := rfl
@[simp] theorem bind_panic (f : α → Res β) : (Res.panic : Res α).bind f = .panic := rfl
@[simp] theorem pure_eq (a : α) : (pure a : Res α) = .ok a := rfl
@[simp] theorem bind_eq {α β : Type u} (x : Res α) (f : α → Res β) : (x >>= f) = x.bind f := rfl
@[simp] theorem ofOption_some (a : α) : ofOption (some a) = .ok a := rfl
@[simp] theorem ofOption_none : (ofOption none : Res α) = .panic := rfl

end Res
end Veri
