import Verif.Search.Stream
/-
C160, C161: the calls a search makes to other nodes.  The collecting loop of `AggregatedSearch` (data/search.go:185-224) with
its sources in detail: node/datasourceclient.go:31-59 `StreamSearch` for a peer, data/search.go:130-149 for the local search.

A call to a peer has a connection from the pool (`Get`, util/connpool.go:45-52) until it returns (`Put`, 54-61, deferred).
It receives from the stream of the peer, with a time limit of ten seconds on the whole call, and passes on what it receives to
the channel of the search, without a time limit.
-/
set_option autoImplicit false
namespace Veri.Calls

variable {α : Type}

/-- Where the goroutine of a source is. -/
inductive Stage where
  /-- started; a peer: before `Get`, node/datasourceclient.go:35 -/
  | start
  /-- a peer: in `stream.Recv`, lines 45-50 (opening the stream included); local: in the loop of data/search.go:143 -/
  | ready
  /-- in the send to the channel, node/datasourceclient.go:56 and data/search.go:145 -/
  | passing
  /-- returned: `Put` and `Done` are done -/
  | over
  deriving DecidableEq

/-- A source.  `answer` is what it is going to send if nothing goes wrong: the results of the local search, or what the peer
sends before it ends the stream.  `sent` counts what has been passed on; `failed`: the call ended with an error. -/
structure Src (α : Type) where
  remote : Bool
  answer : List α
  stage : Stage
  sent : Nat
  failed : Bool
  deriving DecidableEq

/-- The collecting goroutine, as in `Stream.Main`. -/
inductive Main (α : Type) where
  | spawning (pending : List (Bool × List α))
  | merging
  | draining
  | finished (timedOut : Bool)
  deriving DecidableEq

structure State (α : Type) where
  main : Main α
  waiter : Stream.Waiter
  srcs : List (Src α)
  /-- the counter of `queryWaitGroup` -/
  wg : Nat
  /-- the buffer of `scoredDatumStream` -/
  buf : List α
  closed : Bool
  /-- handed to `temp.Insert` -/
  got : List α
  /-- connections got from the pools and not put back: the sum over all connections of what this search has added to
  `Counter` (util/connpool.go:124, 57) -/
  leases : Nat
  deriving DecidableEq

/-- The sources: for each whether it is a peer, and its answer. -/
def init (inputs : List (Bool × List α)) : State α := ⟨.spawning inputs, .notStarted, [], 0, [], false, [], 0⟩

/-- A source just started. -/
def fresh (p : Bool × List α) : Src α := ⟨p.1, p.2, .start, 0, false⟩

/-- One connection for a peer, none for the local search. -/
def lease (remote : Bool) : Nat := if remote then 1 else 0

/-- One atomic step of some goroutine; `cap` is the capacity of the channel (100 in the code).  Each error of a call, the end
of its ten seconds included, is `cut`. -/
inductive Step (cap : Nat) : State α → State α → Prop
  /-- data/search.go:189-199: `Add(1)` and start of a source -/
  | spawn (s : State α) (p : Bool × List α) (ps : List (Bool × List α)) : s.main = .spawning (p :: ps) →
      Step cap s { s with main := .spawning ps, srcs := s.srcs ++ [fresh p], wg := s.wg + 1 }
  /-- data/search.go:200-203: start the waiter and enter the loop -/
  | enter (s : State α) : s.main = .spawning [] → Step cap s { s with main := .merging, waiter := .waiting }
  /-- node/datasourceclient.go:35 with a connection, or the end of the local search -/
  | get (s : State α) (l r : List (Src α)) (x : Src α) : s.srcs = l ++ x :: r → x.stage = .start →
      Step cap s { s with srcs := l ++ { x with stage := .ready } :: r, leases := s.leases + lease x.remote }
  /-- node/datasourceclient.go:36-38: no connection -/
  | refuse (s : State α) (l r : List (Src α)) (x : Src α) : s.srcs = l ++ x :: r → x.stage = .start → x.remote = true →
      Step cap s { s with srcs := l ++ { x with stage := .over, failed := true } :: r, wg := s.wg - 1 }
  /-- `stream.Recv` returns a result; the next turn of the local loop -/
  | take (s : State α) (l r : List (Src α)) (x : Src α) : s.srcs = l ++ x :: r → x.stage = .ready →
      x.sent < x.answer.length → Step cap s { s with srcs := l ++ { x with stage := .passing } :: r }
  /-- the send to the channel -/
  | pass (s : State α) (l r : List (Src α)) (x : Src α) (a : α) : s.srcs = l ++ x :: r → x.stage = .passing →
      x.answer[x.sent]? = some a → s.closed = false → s.buf.length < cap →
      Step cap s { s with srcs := l ++ { x with stage := .ready, sent := x.sent + 1 } :: r, buf := s.buf ++ [a] }
  /-- node/datasourceclient.go:46-48, 51-54: an error of the stream before its end; `Put`, `Done` -/
  | cut (s : State α) (l r : List (Src α)) (x : Src α) : s.srcs = l ++ x :: r → x.stage = .ready → x.remote = true →
      Step cap s { s with srcs := l ++ { x with stage := .over, failed := true } :: r, wg := s.wg - 1, leases := s.leases - 1 }
  /-- the end of the stream, or of the local loop -/
  | finish (s : State α) (l r : List (Src α)) (x : Src α) : s.srcs = l ++ x :: r → x.stage = .ready →
      x.sent = x.answer.length →
      Step cap s { s with srcs := l ++ { x with stage := .over } :: r, wg := s.wg - 1, leases := s.leases - lease x.remote }
  /-- data/search.go:200-203 -/
  | wait (s : State α) : s.waiter = .waiting → s.wg = 0 → Step cap s { s with waiter := .done }
  /-- data/search.go:209-210 -/
  | recv (s : State α) (x : α) (xs : List α) : s.main = .merging → s.buf = x :: xs →
      Step cap s { s with buf := xs, got := s.got ++ [x] }
  /-- data/search.go:211-213 -/
  | allDone (s : State α) : s.main = .merging → s.waiter = .done → Step cap s { s with main := .draining, closed := true }
  /-- data/search.go:214-216 -/
  | drain (s : State α) (x : α) (xs : List α) : s.main = .draining → s.buf = x :: xs →
      Step cap s { s with buf := xs, got := s.got ++ [x] }
  | drained (s : State α) : s.main = .draining → s.buf = [] → Step cap s { s with main := .finished false }
  /-- data/search.go:219-222 -/
  | timeout (s : State α) : s.main = .merging → Step cap s { s with main := .finished true }

inductive Reach (cap : Nat) (inputs : List (Bool × List α)) : State α → Prop
  | init : Reach cap inputs (init inputs)
  | step {s s' : State α} : Reach cap inputs s → Step cap s s' → Reach cap inputs s'

/-- Nothing more happens: every call has returned, or will never return. -/
def Settled (cap : Nat) (s : State α) : Prop := ∀ s', ¬ Step cap s s'

/-! ### The invariant -/

/-- The source has a connection. -/
def has (x : Src α) : Nat :=
  match x.stage with
  | .ready => lease x.remote
  | .passing => lease x.remote
  | _ => 0

def live (x : Src α) : Nat := if x.stage = .over then 0 else 1

def total {β : Type} (w : β → Nat) (l : List β) : Nat := (l.map w).sum

theorem total_append {β : Type} (w : β → Nat) (l r : List β) : total w (l ++ r) = total w l + total w r := by
  simp [total]

theorem total_cons {β : Type} (w : β → Nat) (x : β) (r : List β) : total w (x :: r) = w x + total w r := by
  simp [total]

theorem total_nil {β : Type} (w : β → Nat) : total w [] = 0 := rfl

theorem total_zero {β : Type} {w : β → Nat} {l : List β} (h : total w l = 0) : ∀ x ∈ l, w x = 0 := by
  intro x hx
  obtain ⟨a, b, rfl⟩ := List.append_of_mem hx
  rw [total_append, total_cons] at h
  omega

theorem total_of_zero {β : Type} {w : β → Nat} {l : List β} (h : ∀ x ∈ l, w x = 0) : total w l = 0 := by
  induction l with
  | nil => rfl
  | cons a l ih =>
    rw [total_cons, h a (by simp), ih fun x hx => h x (by simp [hx])]

/-- What the source has passed on. -/
def passed (x : Src α) : List α := x.answer.take x.sent

/-- What holds of each source. -/
structure Src.Good (x : Src α) : Prop where
  le : x.sent ≤ x.answer.length
  more : x.stage = .passing → x.sent < x.answer.length
  all : x.stage = .over → x.failed = false → x.sent = x.answer.length
  peer : x.failed = true → x.remote = true

def pendingOf : Main α → List (Bool × List α)
  | .spawning ps => ps
  | _ => []

def input (x : Src α) : Bool × List α := (x.remote, x.answer)

structure Inv (cap : Nat) (inputs : List (Bool × List α)) (s : State α) : Prop where
  inputs : s.srcs.map input ++ pendingOf s.main = inputs
  perm : (s.buf ++ s.got).Perm (s.srcs.flatMap passed)
  leases : s.leases = total has s.srcs
  wg : s.wg = total live s.srcs
  room : s.buf.length ≤ cap
  good : ∀ x ∈ s.srcs, x.Good
  started : s.waiter = .notStarted ↔ ∃ ps, s.main = .spawning ps
  waited : s.waiter = .done → ∀ x ∈ s.srcs, x.stage = .over
  closed : s.closed = true ↔ s.main = .draining ∨ s.main = .finished false
  drained : s.closed = true → s.waiter = .done
  emptied : s.main = .finished false → s.buf = []

theorem inv_init (cap : Nat) (inputs : List (Bool × List α)) : Inv cap inputs (init inputs) := by
  constructor <;> simp [init, pendingOf, total]

/-- A step of one source that sends nothing. -/
theorem inv_src {cap : Nat} {inputs : List (Bool × List α)} {s : State α} (h : Inv cap inputs s) {l r : List (Src α)}
    {x y : Src α} (hs : s.srcs = l ++ x :: r) (hx : x.stage ≠ .over) (hi : input y = input x) (hsent : y.sent = x.sent)
    (hg : y.Good) {leases wg : Nat} (hl : leases + has x = s.leases + has y) (hw : wg + live x = s.wg + live y) :
    Inv cap inputs { s with srcs := l ++ y :: r, wg := wg, leases := leases } := by
  have ha : y.answer = x.answer := congrArg Prod.snd hi
  refine ⟨?_, ?_, ?_, ?_, h.room, ?_, h.started, ?_, h.closed, h.drained, h.emptied⟩
  · have := h.inputs
    rw [hs] at this
    simpa [hi] using this
  · have := h.perm
    rw [hs] at this
    have hp : passed y = passed x := by simp [passed, ha, hsent]
    simpa [hp] using this
  · have := h.leases
    rw [hs, total_append, total_cons] at this
    simp only [total_append, total_cons]
    omega
  · have := h.wg
    rw [hs, total_append, total_cons] at this
    simp only [total_append, total_cons]
    omega
  · intro z hz
    simp only [List.mem_append, List.mem_cons] at hz
    have := h.good
    rw [hs] at this
    rcases hz with hz | rfl | hz
    · exact this z (by simp [hz])
    · exact hg
    · exact this z (by simp [hz])
  · intro hd
    exact absurd (h.waited hd x (by rw [hs]; simp)) hx

theorem inv_step {cap : Nat} {inputs : List (Bool × List α)} {s s' : State α} (h : Inv cap inputs s) (hst : Step cap s s') :
    Inv cap inputs s' := by
  cases hst with
  | spawn p ps hm =>
    refine ⟨?_, ?_, ?_, ?_, h.room, ?_, ?_, ?_, ?_, h.drained, ?_⟩
    · have := h.inputs
      rw [hm] at this
      simpa [pendingOf, input, fresh] using this
    · have := h.perm
      simpa [passed, fresh] using this
    · have := h.leases
      simp only [total_append, total_cons, total_nil, has, fresh]
      omega
    · have := h.wg
      simp only [total_append, total_cons, total_nil, live, fresh]
      simp; omega
    · intro z hz
      simp only [List.mem_append, List.mem_singleton] at hz
      rcases hz with hz | rfl
      · exact h.good z hz
      · constructor <;> simp [fresh]
    · have := h.started.2 ⟨_, hm⟩
      simp [this]
    · intro hw
      rw [h.started.2 ⟨_, hm⟩] at hw; cases hw
    · have := h.closed
      rw [hm] at this
      simpa using this
    · simp
  | enter hm =>
    refine ⟨?_, h.perm, h.leases, h.wg, h.room, h.good, by simp, by simp, ?_, ?_, by simp⟩
    · have := h.inputs
      simpa [pendingOf, hm] using this
    · have := h.closed
      rw [hm] at this
      simpa using this
    · intro hc
      have := h.closed
      rw [hm] at this
      simp at this
      simp [this] at hc
  | get l r x hs hx =>
    have hg := h.good x (by rw [hs]; simp)
    exact inv_src (y := { x with stage := .ready }) (leases := s.leases + lease x.remote) (wg := s.wg) h hs
      (by rw [hx]; simp) rfl rfl ⟨hg.le, by simp, by simp, hg.peer⟩ (by simp [has, hx]) (by simp [live, hx])
  | refuse l r x hs hx hr =>
    have hg := h.good x (by rw [hs]; simp)
    refine inv_src (y := { x with stage := .over, failed := true }) (leases := s.leases) (wg := s.wg - 1) h hs
      (by rw [hx]; simp) rfl rfl ⟨hg.le, by simp, by simp, by simp [hr]⟩ (by simp [has, hx]) ?_
    have := h.wg
    rw [hs, total_append, total_cons] at this
    simp [live, hx] at this ⊢
    omega
  | take l r x hs hx hlt =>
    have hg := h.good x (by rw [hs]; simp)
    exact inv_src (y := { x with stage := .passing }) (leases := s.leases) (wg := s.wg) h hs (by rw [hx]; simp) rfl rfl
      ⟨hg.le, fun _ => hlt, by simp, hg.peer⟩ (by simp [has, hx]) (by simp [live, hx])
  | cut l r x hs hx hr =>
    have hg := h.good x (by rw [hs]; simp)
    refine inv_src (y := { x with stage := .over, failed := true }) (leases := s.leases - 1) (wg := s.wg - 1) h hs
      (by rw [hx]; simp) rfl rfl ⟨hg.le, by simp, by simp, by simp [hr]⟩ ?_ ?_
    · have := h.leases
      rw [hs, total_append, total_cons] at this
      simp [has, hx, lease, hr] at this ⊢
      omega
    · have := h.wg
      rw [hs, total_append, total_cons] at this
      simp [live, hx] at this ⊢
      omega
  | finish l r x hs hx he =>
    have hg := h.good x (by rw [hs]; simp)
    refine inv_src (y := { x with stage := .over }) (leases := s.leases - lease x.remote) (wg := s.wg - 1) h hs
      (by rw [hx]; simp) rfl rfl ⟨hg.le, by simp, fun _ _ => he, hg.peer⟩ ?_ ?_
    · have := h.leases
      rw [hs, total_append, total_cons] at this
      simp [has, hx] at this ⊢
      omega
    · have := h.wg
      rw [hs, total_append, total_cons] at this
      simp [live, hx] at this ⊢
      omega
  | pass l r x a hs hx ha hc hb =>
    have hg := h.good x (by rw [hs]; simp)
    have hlt : x.sent < x.answer.length := hg.more hx
    have hnd : ∀ y ∈ s.srcs, s.waiter = .done → y.stage = .over := fun y hy hw => h.waited hw y hy
    refine ⟨?_, ?_, ?_, ?_, ?_, ?_, h.started, ?_, h.closed, h.drained, ?_⟩
    · have := h.inputs
      rw [hs] at this
      simpa [input] using this
    · have := h.perm
      rw [hs] at this
      have hp : x.answer.take (x.sent + 1) = x.answer.take x.sent ++ [a] := by
        rw [List.take_add_one, ha]; rfl
      simp only [List.flatMap_append, List.flatMap_cons, passed, hp] at this ⊢
      generalize List.flatMap _ l = A at this ⊢
      generalize List.flatMap _ r = B at this ⊢
      have h1 : (s.buf ++ [a] ++ s.got).Perm (a :: (s.buf ++ s.got)) := by
        rw [List.append_assoc, List.singleton_append]
        exact List.perm_middle
      have h2 : (A ++ (List.take x.sent x.answer ++ [a] ++ B)).Perm (a :: (A ++ (List.take x.sent x.answer ++ B))) := by
        rw [List.append_assoc, List.singleton_append, ← List.append_assoc, ← List.append_assoc]
        exact List.perm_middle
      exact h1.trans ((this.cons a).trans h2.symm)
    · have := h.leases
      rw [hs, total_append, total_cons] at this
      simp only [total_append, total_cons]
      simp [has, hx] at this ⊢
      omega
    · have := h.wg
      rw [hs, total_append, total_cons] at this
      simp only [total_append, total_cons]
      simp [live, hx] at this ⊢
      omega
    · simp only [List.length_append, List.length_cons, List.length_nil]; omega
    · intro z hz
      simp only [List.mem_append, List.mem_cons] at hz
      have := h.good
      rw [hs] at this
      rcases hz with hz | rfl | hz
      · exact this z (by simp [hz])
      · exact ⟨hlt, by simp, by simp, hg.peer⟩
      · exact this z (by simp [hz])
    · intro hd
      have := h.waited hd x (by rw [hs]; simp)
      rw [hx] at this; cases this
    · intro hm
      have := h.closed.2 (Or.inr hm)
      rw [hc] at this; cases this
  | wait hw hz =>
    refine ⟨h.inputs, h.perm, h.leases, h.wg, h.room, h.good, ?_, ?_, h.closed, ?_, h.emptied⟩
    · have := h.started
      rw [hw] at this
      simpa using this
    · intro _ x hx
      have hr := h.wg
      rw [hz] at hr
      have := total_zero hr.symm x hx
      simp only [live] at this
      split at this
      · assumption
      · cases this
    · intro _; rfl
  | recv x xs hm hb =>
    refine ⟨h.inputs, ?_, h.leases, h.wg, ?_, h.good, h.started, h.waited, h.closed, h.drained, ?_⟩
    · have := h.perm
      rw [hb] at this
      refine List.Perm.trans ?_ this
      rw [List.cons_append, ← List.append_assoc]
      exact List.perm_append_comm
    · have := h.room
      rw [hb] at this
      simp at this ⊢
      omega
    · rw [hm]; simp
  | allDone hm hw =>
    refine ⟨?_, h.perm, h.leases, h.wg, h.room, h.good, ?_, h.waited, by simp, fun _ => hw, by simp⟩
    · have := h.inputs
      simpa [pendingOf, hm] using this
    · rw [hw]; simp
  | drain x xs hm hb =>
    refine ⟨h.inputs, ?_, h.leases, h.wg, ?_, h.good, h.started, h.waited, h.closed, h.drained, ?_⟩
    · have := h.perm
      rw [hb] at this
      refine List.Perm.trans ?_ this
      rw [List.cons_append, ← List.append_assoc]
      exact List.perm_append_comm
    · have := h.room
      rw [hb] at this
      simp at this ⊢
      omega
    · rw [hm]; simp
  | drained hm hb =>
    have hc := h.closed.2 (Or.inl hm)
    refine ⟨?_, h.perm, h.leases, h.wg, h.room, h.good, ?_, h.waited, by simp [hc], h.drained, fun _ => hb⟩
    · have := h.inputs
      simpa [pendingOf, hm] using this
    · have := h.started
      rw [hm] at this
      simpa using this
  | timeout hm =>
    refine ⟨?_, h.perm, h.leases, h.wg, h.room, h.good, ?_, h.waited, ?_, h.drained, by simp⟩
    · have := h.inputs
      simpa [pendingOf, hm] using this
    · have := h.started
      rw [hm] at this
      simpa using this
    · have := h.closed
      rw [hm] at this
      simpa using this

theorem inv_reach {cap : Nat} {inputs : List (Bool × List α)} {s : State α} (h : Reach cap inputs s) : Inv cap inputs s := by
  induction h with
  | init => exact inv_init cap inputs
  | step _ hs ih => exact inv_step ih hs

/-! ### Every run ends -/

/-- Steps a source can still make, and those of what it sends. -/
def srcWork (x : Src α) : Nat :=
  let r := x.answer.length - x.sent
  match x.stage with
  | .start => 3 * r + 3
  | .ready => 3 * r + 2
  | .passing => 3 * r + 1
  | .over => 0

def work (s : State α) : Nat :=
  total (fun p : Bool × List α => 3 * p.2.length + 4) (pendingOf s.main) + total srcWork s.srcs + s.buf.length +
    (match s.waiter with | .notStarted => 2 | .waiting => 1 | .done => 0) +
    (match s.main with | .spawning _ => 3 | .merging => 2 | .draining => 1 | .finished _ => 0)

theorem work_step {cap : Nat} {inputs : List (Bool × List α)} {s s' : State α} (h : Inv cap inputs s) (hst : Step cap s s') :
    work s' < work s := by
  cases hst with
  | spawn p ps hm =>
    simp only [work, hm, pendingOf, total_append, total_cons, total_nil, srcWork, fresh]
    omega
  | enter hm =>
    have := h.started.2 ⟨_, hm⟩
    simp only [work, hm, pendingOf, this]
    omega
  | get l r x hs hx =>
    simp only [work, hs, total_append, total_cons, srcWork, hx]
    omega
  | refuse l r x hs hx hr =>
    simp only [work, hs, total_append, total_cons, srcWork, hx]
    omega
  | take l r x hs hx hlt =>
    simp only [work, hs, total_append, total_cons, srcWork, hx]
    omega
  | pass l r x a hs hx ha hc hb =>
    have hlt := (h.good x (by rw [hs]; simp)).more hx
    simp only [work, hs, total_append, total_cons, srcWork, hx, List.length_append, List.length_cons, List.length_nil]
    omega
  | cut l r x hs hx hr =>
    simp only [work, hs, total_append, total_cons, srcWork, hx]
    omega
  | finish l r x hs hx he =>
    simp only [work, hs, total_append, total_cons, srcWork, hx]
    omega
  | wait hw hz => simp only [work, hw]; omega
  | recv x xs hm hb => simp only [work, hm, hb, List.length_cons]; omega
  | allDone hm hw => simp only [work, hm, pendingOf]; omega
  | drain x xs hm hb => simp only [work, hm, hb, List.length_cons]; omega
  | drained hm hb => simp only [work, hm, pendingOf]; omega
  | timeout hm => simp only [work, hm, pendingOf]; omega

/-! ### Settled states -/

/-- A settled search has answered, and each of its sources has returned or stands before a full channel that nobody reads. -/
theorem settled {cap : Nat} {inputs : List (Bool × List α)} {s : State α} (h : Inv cap inputs s) (hq : Settled cap s) :
    ∃ b, s.main = .finished b ∧ ∀ x ∈ s.srcs, x.stage = .over ∨ (x.stage = .passing ∧ b = true ∧ cap ≤ s.buf.length) := by
  have hfin : ∃ b, s.main = .finished b := by
    cases hm : s.main with
    | spawning ps =>
      cases ps with
      | nil => exact absurd (.enter s hm) (hq _)
      | cons p ps => exact absurd (.spawn s p ps hm) (hq _)
    | merging => exact absurd (.timeout s hm) (hq _)
    | draining =>
      cases hb : s.buf with
      | nil => exact absurd (.drained s hm hb) (hq _)
      | cons x xs => exact absurd (.drain s x xs hm hb) (hq _)
    | finished b => exact ⟨b, rfl⟩
  obtain ⟨b, hb⟩ := hfin
  refine ⟨b, hb, fun x hx => ?_⟩
  obtain ⟨l, r, hlr⟩ := List.append_of_mem hx
  have hg := h.good x hx
  cases hst : x.stage with
  | over => exact Or.inl rfl
  | start => exact absurd (.get s l r x hlr hst) (hq _)
  | ready =>
    rcases Nat.lt_or_ge x.sent x.answer.length with hlt | hge
    · exact absurd (.take s l r x hlr hst hlt) (hq _)
    · exact absurd (.finish s l r x hlr hst (Nat.le_antisymm hg.le hge)) (hq _)
  | passing =>
    right
    have hbt : b = true := by
      cases b with
      | true => rfl
      | false =>
        have := h.waited (h.drained (h.closed.2 (Or.inr hb))) x hx
        rw [hst] at this; cases this
    have hc : s.closed = false := by
      cases hcl : s.closed with
      | false => rfl
      | true =>
        have := h.waited (h.drained hcl) x hx
        rw [hst] at this; cases this
    refine ⟨rfl, hbt, ?_⟩
    have hlt := hg.more hst
    rcases Nat.lt_or_ge s.buf.length cap with hroom | hfull
    · exact absurd (.pass s l r x _ hlr hst (List.getElem?_eq_getElem hlt) hc hroom) (hq _)
    · exact hfull

theorem length_flatMap_le (l : List (Src α)) (h : ∀ x ∈ l, x.Good) :
    (l.flatMap passed).length ≤ total (fun x => x.answer.length) l := by
  induction l with
  | nil => simp [total]
  | cons a l ih =>
    have := ih fun x hx => h x (by simp [hx])
    simp only [List.flatMap_cons, List.length_append, total_cons, passed, List.length_take]
    omega

/-- A source that still has something to pass on makes the sum smaller. -/
theorem length_flatMap_lt {l : List (Src α)} (h : ∀ x ∈ l, x.Good) {x : Src α} (hx : x ∈ l) (hp : x.stage = .passing) :
    (l.flatMap passed).length < total (fun x => x.answer.length) l := by
  obtain ⟨a, b, rfl⟩ := List.append_of_mem hx
  have h1 := length_flatMap_le a fun y hy => h y (by simp [hy])
  have h2 := length_flatMap_le b fun y hy => h y (by simp [hy])
  have := (h x (by simp)).more hp
  simp only [List.flatMap_append, List.flatMap_cons, List.length_append, total_append, total_cons]
  have h3 : (passed x).length = x.sent := by simp [passed]; omega
  omega

theorem total_inputs (l : List (Src α)) :
    total (fun x : Src α => x.answer.length) l = ((l.map input).flatMap (·.2)).length := by
  induction l with
  | nil => rfl
  | cons a l ih => simp [total_cons, ih, input]

end Veri.Calls

namespace Veri
open Veri.Calls
variable {α : Type}

/-- C160, full statement: when nothing more happens in a search (its answer is given, each call has ended or reached its
limit of ten seconds), it holds no connection.  FALSE of the code. -/
def C160_connections_statement : Prop :=
  ∀ (inputs : List (Bool × List Nat)) (s : Calls.State Nat), Calls.Reach 100 inputs s → Settled 100 s → s.leases = 0

/-- C160: each search comes to such a state: no step leads back, every run is finite. -/
theorem C160_ends (cap : Nat) (inputs : List (Bool × List α)) (s s' : Calls.State α) (h : Calls.Reach cap inputs s)
    (hs : Calls.Step cap s s') : Calls.work s' < Calls.work s := Calls.work_step (Calls.inv_reach h) hs

/-- C160, exactly: in the end the connections held are those of calls that wait, for ever, to pass on a result: the search
was ended by its time limit, its channel is full and nobody reads from it. -/
theorem C160_held (cap : Nat) (inputs : List (Bool × List α)) (s : Calls.State α) (h : Calls.Reach cap inputs s)
    (hq : Settled cap s) :
    s.leases = s.srcs.countP (fun x => x.remote && decide (x.stage = .passing)) ∧
      (s.leases ≠ 0 → s.main = .finished true ∧ s.buf.length = cap) := by
  have hi := Calls.inv_reach h
  obtain ⟨b, hb, hx⟩ := Calls.settled hi hq
  have hcount : ∀ l : List (Src α), (∀ x ∈ l, x.stage = .over ∨ x.stage = .passing) →
      Calls.total has l = l.countP (fun x => x.remote && decide (x.stage = .passing)) := by
    intro l
    induction l with
    | nil => intro _; rfl
    | cons a l ih =>
      intro hl
      rw [Calls.total_cons, List.countP_cons, ih fun x hx => hl x (by simp [hx])]
      rcases hl a (by simp) with ha | ha <;> simp [has, ha, lease]
      cases a.remote <;> simp <;> omega
  refine ⟨by rw [hi.leases]; exact hcount _ fun x h' => (hx x h').imp id (·.1), fun hne => ?_⟩
  have : ∃ x ∈ s.srcs, x.stage = .passing := by
    refine Classical.byContradiction fun hno => hne ?_
    rw [hi.leases]
    refine Calls.total_of_zero fun x hxs => ?_
    rcases hx x hxs with ho | ⟨hp, _⟩
    · simp [has, ho]
    · exact absurd ⟨x, hxs, hp⟩ hno
  obtain ⟨x, hxs, hp⟩ := this
  rcases hx x hxs with ho | ⟨_, hbt, hfull⟩
  · rw [hp] at ho; cases ho
  · exact ⟨by rw [hb, hbt], Nat.le_antisymm hi.room hfull⟩

/-- C160, the part that holds: a search that was not ended by its time limit gives all its connections back, and so does one
whose sources have together not more results than the channel has room for. -/
theorem C160_connections_partial (cap : Nat) (inputs : List (Bool × List α)) (s : Calls.State α)
    (h : Calls.Reach cap inputs s) (hq : Settled cap s)
    (hs : s.main = .finished false ∨ (inputs.flatMap (·.2)).length ≤ cap) : s.leases = 0 := by
  refine Classical.byContradiction fun hne => ?_
  have hi := Calls.inv_reach h
  obtain ⟨hc, hh⟩ := C160_held cap inputs s h hq
  obtain ⟨hm, hb⟩ := hh hne
  rcases hs with hs | hs
  · rw [hm] at hs; cases hs
  · have hpos : 0 < s.srcs.countP (fun x => x.remote && decide (x.stage = .passing)) := by omega
    obtain ⟨x, hx, hp⟩ := List.countP_pos_iff.1 hpos
    have hp : x.stage = .passing := by simp at hp; exact hp.2
    have h1 := Calls.length_flatMap_lt hi.good hx hp
    have h2 := hi.perm.length_eq
    have h3 := hi.inputs
    rw [hm] at h3
    simp only [Calls.pendingOf, List.append_nil] at h3
    rw [Calls.total_inputs, h3] at h1
    simp only [List.length_append] at h2
    omega

/-- C160: a search asks at most six peers (data/data.go:239-253 with the limit 5) and itself, and each answers with at most as
many results as asked for (C31): so searches for up to fourteen results give all their connections back. -/
theorem C160_fourteen_partial (limit : Nat) (hl : limit ≤ 14) (inputs : List (Bool × List α)) (h7 : inputs.length ≤ 7)
    (hi : ∀ p ∈ inputs, p.2.length ≤ limit) (s : Calls.State α) (h : Calls.Reach 100 inputs s) (hq : Settled 100 s) :
    s.leases = 0 := by
  refine C160_connections_partial 100 inputs s h hq (Or.inr ?_)
  have aux : ∀ l : List (Bool × List α), (∀ p ∈ l, p.2.length ≤ limit) → (l.flatMap (·.2)).length ≤ l.length * limit := by
    intro l
    induction l with
    | nil => intro _; simp
    | cons a l ih =>
      intro hl
      have h1 := ih fun p hp => hl p (by simp [hp])
      have h2 := hl a (by simp)
      simp only [List.flatMap_cons, List.length_append, List.length_cons, Nat.succ_mul]
      omega
  have h1 := aux inputs hi
  have h2 := Nat.mul_le_mul h7 hl
  omega

namespace Calls

theorem reach_pass {cap : Nat} {inputs : List (Bool × List α)} (l r : List (Src α)) (x : Src α) :
    ∀ (k : Nat) (s : State α), Reach cap inputs s → s.closed = false → s.srcs = l ++ x :: r → x.stage = .ready →
      x.sent + k ≤ x.answer.length → s.buf.length + k ≤ cap →
      Reach cap inputs { s with srcs := l ++ { x with sent := x.sent + k } :: r,
                                buf := s.buf ++ (x.answer.drop x.sent).take k } := by
  intro k
  induction k with
  | zero =>
    intro s h _ hs _ _ _
    have : { s with srcs := l ++ { x with sent := x.sent + 0 } :: r,
                    buf := s.buf ++ (x.answer.drop x.sent).take 0 } = s := by
      cases s; simp at hs ⊢; exact hs.symm
    rw [this]; exact h
  | succ k ih =>
    intro s h hc hs hx hlen hb
    have h1 := ih s h hc hs hx (by omega) (by omega)
    have hlt : x.sent + k < x.answer.length := by omega
    have h2 := Reach.step h1 (.take _ l r { x with sent := x.sent + k } rfl hx hlt)
    have h3 := Reach.step h2 (.pass _ l r { x with stage := .passing, sent := x.sent + k } x.answer[x.sent + k] rfl rfl
      (List.getElem?_eq_getElem hlt) hc (by simp only [List.length_append, List.length_take]; omega))
    have e1 : (x.answer.drop x.sent).take (k + 1) = (x.answer.drop x.sent).take k ++ [x.answer[x.sent + k]] := by
      rw [List.take_add_one, List.getElem?_drop, List.getElem?_eq_getElem hlt]; rfl
    have e2 : ({ x with stage := .ready, sent := x.sent + k + 1 } : Src α) = { x with sent := x.sent + (k + 1) } := by
      rw [← hx, Nat.add_assoc]
    rw [e1, ← List.append_assoc, ← e2]
    exact h3

/-- A source that has returned with all it had. -/
def complete (p : Bool × List α) : Src α := ⟨p.1, p.2, .over, p.2.length, false⟩

/-- One after the other the sources do their work, as long as the channel has room. -/
theorem reach_complete {cap : Nat} {inputs : List (Bool × List α)} (tail : List (Src α)) :
    ∀ (todo : List (Bool × List α)) (pre : List (Src α)) (s : State α), Reach cap inputs s → s.closed = false →
      s.srcs = pre ++ (todo.map fresh ++ tail) → s.buf.length + (todo.flatMap (·.2)).length ≤ cap →
      Reach cap inputs { s with srcs := pre ++ (todo.map complete ++ tail), buf := s.buf ++ todo.flatMap (·.2),
                                wg := s.wg - todo.length } := by
  intro todo
  induction todo with
  | nil =>
    intro pre s h _ hs _
    have : { s with srcs := pre ++ (([] : List (Bool × List α)).map complete ++ tail),
                    buf := s.buf ++ ([] : List (Bool × List α)).flatMap (·.2),
                    wg := s.wg - ([] : List (Bool × List α)).length } = s := by
      cases s; simp at hs ⊢; exact hs.symm
    rw [this]; exact h
  | cons p todo ih =>
    intro pre s h hc hs hb
    simp only [List.flatMap_cons, List.length_append] at hb
    simp only [List.map_cons, List.cons_append] at hs
    have h1 := Reach.step h (.get s pre _ (fresh p) hs rfl)
    have h2 := reach_pass pre (todo.map fresh ++ tail) { fresh p with stage := .ready } p.2.length _ h1 hc rfl rfl
      (by simp [fresh]) (by simp only; omega)
    have h3 := Reach.step h2 (.finish _ pre (todo.map fresh ++ tail) _ rfl rfl (by simp [fresh]))
    have h4 := ih (pre ++ [complete p]) _ h3 hc
      (by simp [complete, fresh])
      (by simp only [fresh, List.drop_zero, List.take_length, List.length_append]; omega)
    have e : s.leases + lease (fresh p).remote - lease (fresh p).remote = s.leases := by omega
    simp only [fresh, List.drop_zero, List.take_length, e] at h4
    simpa [complete, List.append_assoc, Nat.sub_sub, Nat.add_comm] using h4

theorem reach_spawn {cap : Nat} {inputs : List (Bool × List α)} : ∀ (ps qs : List (Bool × List α)), qs ++ ps = inputs →
    Reach cap inputs ⟨.spawning ps, .notStarted, qs.map fresh, qs.length, [], false, [], 0⟩ →
    Reach cap inputs ⟨.finished true, .waiting, inputs.map fresh, inputs.length, [], false, [], 0⟩ := by
  intro ps
  induction ps with
  | nil =>
    intro qs he h
    have hq : qs = inputs := by simpa using he
    subst hq
    have h1 := Reach.step h (.enter _ rfl)
    exact Reach.step h1 (.timeout _ rfl)
  | cons p ps ih =>
    intro qs he h
    have h1 := Reach.step h (.spawn _ p ps rfl)
    exact ih (qs ++ [p]) (by rw [← he]; simp) (by simpa using h1)

/-- After the sources `pre` the last one, a peer, finds the channel full. -/
theorem reach_stuck {cap : Nat} (pre : List (Bool × List α)) (ans : List α) (k : Nat)
    (hk : (pre.flatMap (·.2)).length + k = cap) (hl : k < ans.length) :
    ∃ s : State α, Reach cap (pre ++ [(true, ans)]) s ∧ Settled cap s ∧ s.leases = 1 := by
  have h0 : Reach cap (pre ++ [(true, ans)]) _ := reach_spawn (cap := cap) (pre ++ [(true, ans)]) [] rfl .init
  have h1 := reach_complete [fresh (true, ans)] pre [] _ h0 rfl (by simp) (by simp only [List.length_nil]; omega)
  have h2 := Reach.step h1 (.get _ (pre.map complete) [] (fresh (true, ans)) (by simp) rfl)
  have h3 := reach_pass (pre.map complete) [] { fresh (true, ans) with stage := .ready } k _ h2 rfl rfl rfl
    (by simp [fresh]; omega) (by simp only [List.nil_append]; omega)
  have h4 := Reach.step h3 (.take _ (pre.map complete) [] _ rfl rfl (by simpa [fresh] using hl))
  refine ⟨_, h4, ?_, by simp [lease, fresh]⟩
  have hsrc : ∀ (l r : List (Src α)) (x : Src α), pre.map complete ++ [⟨true, ans, .passing, 0 + k, false⟩] = l ++ x :: r →
      x.stage = .over ∨ x.stage = .passing := by
    intro l r x he
    have : x ∈ pre.map complete ++ [⟨true, ans, .passing, 0 + k, false⟩] := by rw [he]; simp
    simp only [List.mem_append, List.mem_map, List.mem_singleton] at this
    rcases this with ⟨p, _, rfl⟩ | rfl
    · exact Or.inl rfl
    · exact Or.inr rfl
  intro s' hs'
  generalize hs : (State.mk _ _ _ _ _ _ _ _ : State α) = s at hs'
  have hsr : s.srcs = pre.map complete ++ [⟨true, ans, .passing, 0 + k, false⟩] := by rw [← hs]; simp [fresh]
  have hm : s.main = .finished true := by rw [← hs]
  have hw : s.waiter = .waiting := by rw [← hs]
  have hg : s.wg = 1 := by rw [← hs]; simp
  have hb : s.buf.length = cap := by
    rw [← hs]; simp [fresh]
    have : min k ans.length = k := by omega
    simp at hk
    omega
  cases hs' with
  | spawn p ps h => rw [hm] at h; cases h
  | enter h => rw [hm] at h; cases h
  | get l r x h hx => rcases hsrc l r x (hsr ▸ h) with h' | h' <;> rw [hx] at h' <;> cases h'
  | refuse l r x h hx _ => rcases hsrc l r x (hsr ▸ h) with h' | h' <;> rw [hx] at h' <;> cases h'
  | take l r x h hx _ => rcases hsrc l r x (hsr ▸ h) with h' | h' <;> rw [hx] at h' <;> cases h'
  | pass l r x a h hx _ _ h' => omega
  | cut l r x h hx _ => rcases hsrc l r x (hsr ▸ h) with h' | h' <;> rw [hx] at h' <;> cases h'
  | finish l r x h hx _ => rcases hsrc l r x (hsr ▸ h) with h' | h' <;> rw [hx] at h' <;> cases h'
  | wait _ h => omega
  | recv x xs h _ => rw [hm] at h; cases h
  | allDone h _ => rw [hm] at h; cases h
  | drain x xs h _ => rw [hm] at h; cases h
  | drained h _ => rw [hm] at h; cases h
  | timeout h => rw [hm] at h; cases h

/-- A node and six peers with fifteen results each. -/
def exFifteen : List (Bool × List Nat) := (false, List.range 15) :: List.replicate 5 (true, List.range 15)

end Calls

/-- C160, fourteen is the most: a search for fifteen results, over a node and six peers, keeps a connection for ever. -/
theorem C160_fifteen : ∃ s : Calls.State Nat, Calls.Reach 100 (exFifteen ++ [(true, List.range 15)]) s ∧ Settled 100 s ∧
    s.leases = 1 :=
  Calls.reach_stuck exFifteen (List.range 15) 10 (by decide) (by decide)

/-- C160 fails. -/
theorem C160_connections_fails : ¬ C160_connections_statement := by
  intro h
  obtain ⟨s, hr, hq, hl⟩ := C160_fifteen
  rw [h _ s hr hq] at hl
  cases hl

/-- A search of C160_fourteen_partial: a node and a peer with a stream that breaks off, after the time limit of the search. -/
theorem C160_example : ∃ s : Calls.State Nat, Calls.Reach 100 [(false, [1, 2]), (true, [3, 4])] s ∧ Settled 100 s ∧
    s.main = .finished true ∧ s.leases = 0 ∧ s.buf = [1, 2] ∧ s.got = [] := by
  have h0 : Calls.Reach 100 _ _ := Calls.reach_spawn (cap := 100) [(false, [1, 2]), (true, [3, 4])] [] rfl .init
  have h1 := Calls.reach_complete [fresh (true, [3, 4])] [(false, [1, 2])] [] _ h0 rfl rfl (by decide)
  have h2 := Calls.Reach.step h1 (.get _ [complete (false, [1, 2])] [] (fresh (true, [3, 4])) rfl rfl)
  have h3 := Calls.Reach.step h2 (.cut _ [complete (false, [1, 2])] [] _ rfl rfl rfl)
  have h4 := Calls.Reach.step h3 (.wait _ rfl rfl)
  refine ⟨_, h4, ?_, rfl, rfl, rfl, rfl⟩
  intro s' hs'
  generalize hs : (Calls.State.mk _ _ _ _ _ _ _ _ : Calls.State Nat) = s at hs'
  have hi : Calls.Inv 100 [(false, [1, 2]), (true, [3, 4])] s := by rw [← hs]; exact Calls.inv_reach h4
  have hwk : Calls.work s = 2 := by rw [← hs]; rfl
  have hm : s.main = .finished true := by rw [← hs]
  have hw : s.waiter = .done := by rw [← hs]
  have hall : ∀ (l r : List (Src Nat)) (x : Src Nat), s.srcs = l ++ x :: r → x.stage = .over :=
    fun l r x h => hi.waited hw x (by rw [h]; simp)
  cases hs' with
  | spawn p ps h => rw [hm] at h; cases h
  | enter h => rw [hm] at h; cases h
  | get l r x h hx => rw [hall l r x h] at hx; cases hx
  | refuse l r x h hx _ => rw [hall l r x h] at hx; cases hx
  | take l r x h hx _ => rw [hall l r x h] at hx; cases hx
  | pass l r x a h hx _ _ _ => rw [hall l r x h] at hx; cases hx
  | cut l r x h hx _ => rw [hall l r x h] at hx; cases hx
  | finish l r x h hx _ => rw [hall l r x h] at hx; cases hx
  | wait h _ => rw [hw] at h; cases h
  | recv x xs h _ => rw [hm] at h; cases h
  | allDone h _ => rw [hm] at h; cases h
  | drain x xs h _ => rw [hm] at h; cases h
  | drained h _ => rw [hm] at h; cases h
  | timeout h => rw [hm] at h; cases h

/-- C161, full statement: a search that ends before its time limit has the whole answer of each source it asked.  FALSE of
the code: the error of a call is dropped (data/search.go:197, node/datasourceclient.go:51-54). -/
def C161_whole_statement : Prop :=
  ∀ (inputs : List (Bool × List Nat)) (s : Calls.State Nat), Calls.Reach 100 inputs s → s.main = .finished false →
    s.got.Perm (inputs.flatMap (·.2))

/-- C161, what such a search has: of each source a first part of its answer, the whole of it unless the call failed, in
particular all results of the local search. -/
theorem C161_prefixes (cap : Nat) (inputs : List (Bool × List α)) (s : Calls.State α) (h : Calls.Reach cap inputs s)
    (hm : s.main = .finished false) :
    s.srcs.map (fun x => (x.remote, x.answer)) = inputs ∧
    s.got.Perm (s.srcs.flatMap fun x => x.answer.take x.sent) ∧
    (∀ x ∈ s.srcs, x.failed = false → x.answer.take x.sent = x.answer) ∧
    (∀ x ∈ s.srcs, x.remote = false → x.answer.take x.sent = x.answer) := by
  have hi := Calls.inv_reach h
  have hall := hi.waited (hi.drained (hi.closed.2 (Or.inr hm)))
  have hfull : ∀ x ∈ s.srcs, x.failed = false → x.answer.take x.sent = x.answer := by
    intro x hx hf
    rw [(hi.good x hx).all (hall x hx) hf, List.take_length]
  refine ⟨?_, ?_, hfull, fun x hx hr => hfull x hx ?_⟩
  · have := hi.inputs
    rw [hm] at this
    simp only [Calls.pendingOf, List.append_nil] at this
    exact this
  · have := hi.perm
    rw [hi.emptied hm] at this
    exact this
  · cases hf : x.failed with
    | false => rfl
    | true => have := (hi.good x hx).peer hf; rw [hr] at this; cases this

/-- C161, the part that holds: if no call failed. -/
theorem C161_whole_partial (cap : Nat) (inputs : List (Bool × List α)) (s : Calls.State α) (h : Calls.Reach cap inputs s)
    (hm : s.main = .finished false) (hf : ∀ x ∈ s.srcs, x.failed = false) : s.got.Perm (inputs.flatMap (·.2)) := by
  obtain ⟨h1, h2, h3, _⟩ := C161_prefixes cap inputs s h hm
  rw [← h1]
  refine h2.trans (List.Perm.of_eq ?_)
  have aux : ∀ l : List (Src α), (∀ x ∈ l, x.answer.take x.sent = x.answer) →
      l.flatMap (fun x => x.answer.take x.sent) = (l.map fun x => (x.remote, x.answer)).flatMap (·.2) := by
    intro l
    induction l with
    | nil => intro _; rfl
    | cons a l ih =>
      intro hl
      simp only [List.flatMap_cons, List.map_cons]
      rw [hl a (by simp), ih fun x hx => hl x (by simp [hx])]
  exact aux _ fun x hx => h3 x hx (hf x hx)

/-- C161 fails: a peer that breaks off is taken for one that has nothing more. -/
theorem C161_whole_fails : ¬ C161_whole_statement := by
  intro h
  have h0 : Calls.Reach 100 [(true, [1, 2])] (Calls.init [(true, [1, 2])]) := .init
  have h1 := Calls.Reach.step h0 (.spawn _ (true, [1, 2]) [] rfl)
  have h2 := Calls.Reach.step h1 (.enter _ rfl)
  have h3 := Calls.Reach.step h2 (.get _ [] [] (fresh (true, [1, 2])) rfl rfl)
  have h4 := Calls.Reach.step h3 (.take _ [] [] _ rfl rfl (by decide))
  have h5 := Calls.Reach.step h4 (.pass _ [] [] _ 1 rfl rfl rfl rfl (by decide))
  have h6 := Calls.Reach.step h5 (.cut _ [] [] _ rfl rfl rfl)
  have h7 := Calls.Reach.step h6 (.wait _ rfl rfl)
  have h8 := Calls.Reach.step h7 (.recv _ 1 [] rfl rfl)
  have h9 := Calls.Reach.step h8 (.allDone _ rfl rfl)
  have h10 := Calls.Reach.step h9 (.drained _ rfl rfl)
  have := (h _ _ h10 rfl).length_eq
  cases this

/-- A search of C161_whole_partial: both sources give all they have. -/
theorem C161_example : ∃ s : Calls.State Nat, Calls.Reach 100 [(false, [1]), (true, [2])] s ∧ s.main = .finished false ∧
    (∀ x ∈ s.srcs, x.failed = false) ∧ s.got = [1, 2] := by
  have h0 : Calls.Reach 100 [(false, [1]), (true, [2])] (Calls.init [(false, [1]), (true, [2])]) := .init
  have h1 := Calls.Reach.step h0 (.spawn _ (false, [1]) [(true, [2])] rfl)
  have h2 := Calls.Reach.step h1 (.spawn _ (true, [2]) [] rfl)
  have h3 := Calls.Reach.step h2 (.enter _ rfl)
  have h4 := Calls.reach_complete [] [(false, [1]), (true, [2])] [] _ h3 rfl rfl (by decide)
  have h5 := Calls.Reach.step h4 (.wait _ rfl rfl)
  have h6 := Calls.Reach.step h5 (.recv _ 1 [2] rfl rfl)
  have h7 := Calls.Reach.step h6 (.recv _ 2 [] rfl rfl)
  have h8 := Calls.Reach.step h7 (.allDone _ rfl rfl)
  have h9 := Calls.Reach.step h8 (.drained _ rfl rfl)
  refine ⟨_, h9, rfl, ?_, rfl⟩
  intro x hx
  simp only [List.nil_append, List.append_nil, List.map_cons, List.map_nil, List.mem_cons, List.not_mem_nil, or_false] at hx
  rcases hx with rfl | rfl <;> rfl

end Veri
