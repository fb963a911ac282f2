import Verif.Node.Model
import Verif.Process.Props
/-
The process around a node: the HTTP answers, the settings, the signals
(server/httpservice.go, server/veriserviceserver.go, cmd/serve.go, cmd/root.go).
-/
set_option autoImplicit false
namespace Veri

/-! ### HTTP answers -/

namespace Http

/-- net/http `ResponseWriter`: the header map, the status and header already sent, the body. -/
structure RW where
  header : AMap String String
  sent : Option (Nat × AMap String String)
  body : String
  deriving DecidableEq, Repr

def RW.new : RW := ⟨[], none, ""⟩

/-- `w.Header().Set(k, v)`. -/
def RW.set (w : RW) (k v : String) : RW := { w with header := w.header.set k v }

/-- `w.WriteHeader(code)`: "changing the header map after a call to WriteHeader has no effect"; a second call has none either. -/
def RW.writeHeader (w : RW) (code : Nat) : RW :=
  match w.sent with
  | none => { w with sent := some (code, w.header) }
  | some _ => w

/-- `w.Write`: "if WriteHeader has not yet been called, Write calls WriteHeader(http.StatusOK)". -/
def RW.write (w : RW) (s : String) : RW :=
  let w := w.writeHeader 200
  { w with body := w.body ++ s }

/-- What the client gets: status, Content-Type, body.  `sniff` is `DetectContentType`: "if the header does not contain a
Content-Type line, Write adds a Content-Type set to the result of passing the initial 512 bytes of written data to
DetectContentType". -/
def RW.answer (sniff : String → String) (w : RW) : Nat × String × String :=
  match w.sent with
  | some (code, h) => (code, (h.get? "Content-Type").getD (sniff w.body), w.body)
  | none => (200, (w.header.get? "Content-Type").getD (sniff w.body), w.body)

/-- server/httpservice.go:17-27 `GetReady`. -/
def getReady (ready : Bool) (w : RW) : RW :=
  if ready then ((w.writeHeader 200).set "Content-Type" "application/json").write "{\"alive\": true}"
  else ((w.writeHeader 503).set "Content-Type" "application/json").write "{\"alive\": false}"

/-- server/httpservice.go:29-39 `GetHeath`. -/
def getHealth (health : Bool) (w : RW) : RW :=
  if health then ((w.writeHeader 200).set "Content-Type" "application/json").write "{\"alive\": true}"
  else ((w.writeHeader 500).set "Content-Type" "application/json").write "{\"alive\": true}"

/-- server/httpservice.go:45-50 `respondWithJSON`, which nothing calls; `json` is the marshalled payload. -/
def respondWithJSON (w : RW) (code : Nat) (json : String) : RW :=
  ((w.set "Content-Type" "application/json").writeHeader code).write json

/-- What is assumed of `DetectContentType`: the two bodies have no signature it knows and no control characters, so they are
plain text. -/
def SniffOk (sniff : String → String) : Prop :=
  sniff "{\"alive\": true}" = "text/plain; charset=utf-8" ∧ sniff "{\"alive\": false}" = "text/plain; charset=utf-8"

end Http

/-! ### Settings -/

namespace Settings

/-- A value in the configuration file: a text, or something else (a number, a list, ...). -/
inductive Val where
  | text (s : String)
  | other
  deriving DecidableEq, Repr

/-- Where a setting may be given: on the command line, in the environment, in the configuration file.  `port` on the command
line is a number; `τ` is the type of the command line value. -/
structure Given (τ : Type) where
  flag : Option τ
  env : Option String
  file : Option Val

/-- What the user gives. -/
structure Input where
  services : Given String
  port : Given Int
  broadcast : Given String
  directory : Given String

/-- What the server runs with (cmd/serve.go:28-41, `configMap`). -/
structure Config where
  services : String
  port : Int
  broadcast : String
  directory : String
  deriving DecidableEq, Repr

/-- viper `Get` for a key bound to a text flag, with `AutomaticEnv` (cmd/root.go:62, cmd/serve.go:51): the flag if it was given,
else the environment variable if it is not empty, else the configuration file, else the default of the flag. -/
def viperGet (g : Given String) : Val :=
  match g.flag with
  | some s => .text s
  | none =>
    match g.env with
    | some s => if s = "" then g.file.getD (.text "") else .text s
    | none => g.file.getD (.text "")

/-- cmd/serve.go:27-43, with the flags of 48-52. -/
def serve (i : Input) : Config :=
  let broadcastAdresses := i.broadcast.flag.getD ""
  { services := i.services.flag.getD ""
    port := i.port.flag.getD 10000
    broadcast := match viperGet i.broadcast with
      | .text ba => ba
      | .other => broadcastAdresses
    directory := i.directory.flag.getD "" }

end Settings

/-! ### Signals -/

namespace Sig
open Proc

inductive Signal where
  | interrupt
  | term
  deriving DecidableEq, Repr

/-- The goroutine of server/veriserviceserver.go:83-97. -/
inductive Handler where
  /-- before line 87: no signal is caught -/
  | starting
  /-- between lines 87 and 89: interrupts are caught -/
  | half
  /-- line 91 -/
  | waiting
  /-- line 95 -/
  | closing
  deriving DecidableEq, Repr

/-- The process: the goroutine, the channel of one signal, the node with one data set (Process/Model.lean), and whether it has
ended. -/
structure Server where
  handler : Handler
  pending : Option Signal
  node : PS
  ended : Bool

inductive Label where
  | signal (x : Signal)
  /-- the goroutine registers for the next signal -/
  | register
  /-- lines 91-95: it takes the signal and calls `Close`, which first closes the data set (node/node.go:79-82) -/
  | receive
  /-- lines 95-96: `Close` has returned, the process exits -/
  | exit
  /-- line 100: `Listen` returns, `main` returns -/
  | listenReturns
  /-- anything else happens in the node -/
  | node (l : Proc.Label)

/-- Is the signal caught?  Otherwise it ends the process. -/
def caught : Handler → Signal → Bool
  | .starting, _ => false
  | .half, x => decide (x = .interrupt)
  | _, _ => true

/-- `signal.Notify`: "package signal will not block sending to c". -/
def step (P : PEnv) (s : Server) : Label → Option Server
  | .signal x =>
    if s.ended then none
    else if caught s.handler x then some { s with pending := some (s.pending.getD x) }
    else some { s with ended := true }
  | .register =>
    if s.ended then none
    else
      match s.handler with
      | .starting => some { s with handler := .half }
      | .half => some { s with handler := .waiting }
      | _ => none
  | .receive =>
    if s.ended then none
    else
      match s.handler, s.pending with
      | .waiting, some _ => (Proc.step P false s.node .closeBegin).map fun n => { s with handler := .closing, pending := none, node := n }
      | _, _ => none
  | .exit =>
    if s.ended then none
    else if s.handler = .closing ∧ s.node.closer = .done then some { s with ended := true } else none
  | .listenReturns => if s.ended then none else some { s with ended := true }
  | .node l =>
    if s.ended then none
    else
      match l with
      | .closeBegin => none
      | l => (Proc.step P false s.node l).map fun n => { s with node := n }

def exec (P : PEnv) (s : Server) : List Label → Option Server
  | [] => some s
  | l :: ls => (step P s l).bind fun s => exec P s ls

/-- The server has just been started. -/
def start (dt : Data) (now : Int64) : Server := ⟨.starting, none, initial dt now, false⟩

end Sig
end Veri
