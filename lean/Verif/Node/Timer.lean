import Verif.Node.Model
/-
The periodic task of a node in time: node/node.go:67-69, 278-330.

A `time.Ticker` of 60 s puts a tick into a channel with room for one; a tick that finds it occupied is dropped.  The loop of
`SetPeriodicTask` takes a tick, carries out the report (`Info`), which asks every source of every data set in turn
(node/node.go:356-367), and starts a round of tasks: `JoinToPeers`, `SyncWithPeers`, `ReloadRuns`, `SaveIndex`.
`JoinToPeers` asks every address in turn (node/node.go:278-294), `SyncWithPeers` each peer for each peer
(node/node.go:218-267).  Every call has a time limit of 10 s (node/nodeservice.go:196, 259, node/datasourceclient.go:80).

Simplifications: work inside the node takes no time, nor does an idle loop that finds a tick; `grpc.Dial` returns at once
(it is used without `WithBlock`).  One task that makes calls is followed; `JoinToPeers` and `SyncWithPeers` both are
instances.  Time is in nanoseconds since the start of the node.
-/
set_option autoImplicit false
namespace Veri
namespace Timer

/-- node/node.go:297 -/
def period : Nat := 60000000000

/-- node/nodeservice.go:196, 259, node/datasourceclient.go:80 -/
def limit : Nat := 10000000000

/-- A sequence of `calls` calls begun at `began`: `left` are not answered, the current one began at `since`. -/
structure Job where
  began : Nat
  calls : Nat
  left : Nat
  since : Nat
  deriving DecidableEq, Repr

def Job.new (now calls : Nat) : Job := ⟨now, calls, calls, now⟩

/-- When the job must have made its next step. -/
def Job.deadline (j : Job) : Nat := if j.left = 0 then j.since else j.since + limit

/-- The current call is answered or fails. -/
def Job.answer (now : Nat) (j : Job) : Job := { j with left := j.left - 1, since := now }

/-- A round: the time of its tick, when the loop took it, how many sources the report asked, when the tasks started. -/
structure Round where
  tick : Nat
  take : Nat
  calls : Nat
  start : Nat
  deriving DecidableEq, Repr

structure TS where
  now : Nat
  /-- the next tick of the ticker -/
  next : Nat
  /-- the tick in the channel -/
  buf : Option Nat
  /-- the report under way, with its tick -/
  report : Option (Nat × Job)
  /-- history, latest first; nothing depends on it -/
  rounds : List Round
  /-- the running tasks, latest first -/
  tasks : List Job
  deriving DecidableEq, Repr

/-- node/node.go:67-69: the first tasks are started by `NewNode`; `calls` is the number of calls of the task followed. -/
def start (calls : Nat) : TS := ⟨0, period, none, none, [⟨0, 0, 0, 0⟩], [Job.new 0 calls]⟩

inductive Label where
  /-- time passes until `t` -/
  | advance (t : Nat)
  | tick
  /-- node/node.go:304-305, 324: the loop takes the tick and begins a report that asks `calls` sources -/
  | take (calls : Nat)
  | reportAnswer
  /-- node/node.go:324-328: the report is done, the tasks start -/
  | launch (calls : Nat)
  /-- the call of the task at this position is answered or fails -/
  | answer (i : Nat)
  | finish (i : Nat)
  deriving DecidableEq, Repr

/-- All jobs under way. -/
def TS.jobs (s : TS) : List Job := (s.report.map (·.2)).toList ++ s.tasks

/-- Time may pass until `t`: no tick is missed, no job overdue, and the loop is not idle beside a tick. -/
def mayPass (s : TS) (t : Nat) : Bool :=
  decide (s.now ≤ t) && decide (t ≤ s.next) && s.jobs.all (fun j => decide (t ≤ j.deadline)) &&
    (s.report.isSome || s.buf.isNone || decide (t = s.now))

def step (s : TS) : Label → Option TS
  | .advance t => if mayPass s t then some { s with now := t } else none
  | .tick =>
    if s.now = s.next then some { s with next := s.next + period, buf := some (s.buf.getD s.next) } else none
  | .take calls =>
    match s.report, s.buf with
    | none, some tick => some { s with buf := none, report := some (tick, Job.new s.now calls) }
    | _, _ => none
  | .reportAnswer =>
    match s.report with
    | some (tick, j) => if j.left = 0 then none else some { s with report := some (tick, j.answer s.now) }
    | none => none
  | .launch calls =>
    match s.report with
    | some (tick, j) =>
      if j.left = 0 then
        some { s with report := none, rounds := ⟨tick, j.began, j.calls, s.now⟩ :: s.rounds
                      tasks := Job.new s.now calls :: s.tasks }
      else none
    | none => none
  | .answer i =>
    match s.tasks[i]? with
    | some j => if j.left = 0 then none else some { s with tasks := s.tasks.set i (j.answer s.now) }
    | none => none
  | .finish i =>
    match s.tasks[i]? with
    | some j => if j.left = 0 then some { s with tasks := s.tasks.eraseIdx i } else none
    | none => none

def exec (s : TS) : List Label → Option TS
  | [] => some s
  | l :: ls => (step s l).bind fun s => exec s ls

/-- Reachable states, for any numbers of calls. -/
inductive Reach : TS → Prop
  | start (calls : Nat) : Reach (start calls)
  | step {s s' : TS} (l : Label) : Reach s → step s l = some s' → Reach s'

theorem reach_exec : ∀ (ls : List Label) {s s' : TS}, Reach s → exec s ls = some s' → Reach s' := by
  intro ls
  induction ls with
  | nil => intro s s' h he; simp only [exec, Option.some.injEq] at he; exact he ▸ h
  | cons l ls ih =>
    intro s s' h he
    simp only [exec] at he
    cases hs : Timer.step s l with
    | none => simp [hs] at he
    | some t => rw [hs] at he; exact ih (.step l h hs) he

end Timer
end Veri
