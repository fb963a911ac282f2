import Verif.Server.Model
/-
C162: the start of the server: server/veriserviceserver.go:16-101 `RunServer`, with node/node.go:54-72 `NewNode`,
node/nodeservice.go:156-172 `Listen` and server/httpservice.go:53-64 `RestApi`.
-/
set_option autoImplicit false
namespace Veri
namespace Startup

/-- Where `RunServer` is. -/
inductive Main where
  /-- server/veriserviceserver.go:17-79 -/
  | starting
  /-- line 80 is done: the node is there, with its goroutines (node/node.go:67-69) -/
  | made
  /-- line 82 is done: `RestApi` is a goroutine -/
  | rest
  /-- lines 83-97 are done: the goroutine for the signals is started; line 100: before node/nodeservice.go:157 -/
  | listen
  /-- node/nodeservice.go:157 was successful: the port takes connections, `Serve` handles them -/
  | serving
  /-- `Listen` has returned; the deferred `RemoveAll` of server/veriserviceserver.go:58 -/
  | leaving
  /-- the directory is removed -/
  | left
  deriving DecidableEq, Repr

/-- `RestApi`, server/httpservice.go:53-64. -/
inductive Web where
  | off
  /-- before `ListenAndServe`, line 63 -/
  | binding
  | up
  /-- `ListenAndServe` has returned -/
  | failed
  deriving DecidableEq, Repr

structure S where
  main : Main
  web : Web
  /-- state/state.go: `Ready` -/
  ready : Bool
  /-- the process is there -/
  alive : Bool
  /-- the directory of the node is there -/
  dir : Bool
  deriving DecidableEq, Repr

/-- server/veriserviceserver.go:17-18, the flags at the start; the directory is made on line 57. -/
def init : S := ⟨.starting, .off, false, true, true⟩

inductive Act where
  /-- `NewNode` -/
  | make
  | startRest
  | startSignals
  /-- `net.Listen` -/
  | bind (ok : Bool)
  /-- `grpcServer.Serve` returns -/
  | serveEnds
  /-- the deferred removal of the directory -/
  | remove
  /-- `main` returns -/
  | exit
  /-- `ListenAndServe` of `RestApi` gets its port, or not -/
  | web (ok : Bool)
  /-- `ListenAndServe` of `RestApi` returns -/
  | webEnds
  /-- node/node.go:264: a `SyncWithPeers` comes to its end -/
  | synced
  /-- node/node.go:80: `Close`, after a signal (`Sig`) -/
  | close
  /-- the process is ended from outside, or by `os.Exit(0)` after `Close`, or by a crash -/
  | killed
  deriving DecidableEq, Repr

/-- The node is there. -/
def Main.node : Main → Bool
  | .starting => false
  | _ => true

def step (s : S) (a : Act) : Option S :=
  if s.alive then
    match a with
    | .make => if s.main = .starting then some { s with main := .made } else none
    | .startRest => if s.main = .made then some { s with main := .rest, web := .binding } else none
    | .startSignals => if s.main = .rest then some { s with main := .listen } else none
    | .bind ok => if s.main = .listen then some { s with main := if ok then .serving else .leaving } else none
    | .serveEnds => if s.main = .serving then some { s with main := .leaving } else none
    | .remove => if s.main = .leaving then some { s with main := .left, dir := false } else none
    | .exit => if s.main = .left then some { s with alive := false } else none
    | .web ok => if s.web = .binding then some { s with web := if ok then .up else .failed } else none
    | .webEnds => if s.web = .up then some { s with web := .failed } else none
    | .synced => if s.main.node then some { s with ready := true } else none
    | .close => if s.main.node then some { s with ready := false } else none
    | .killed => some { s with alive := false }
  else none

def exec (s : S) : List Act → Option S
  | [] => some s
  | a :: as => (step s a).bind fun s => exec s as

/-- A health check gets the answer that the node is ready (`Http.getReady`). -/
def saysReady (s : S) : Bool := s.alive && decide (s.web = .up) && s.ready

/-- A call of another node or of a client is taken. -/
def takesCalls (s : S) : Bool := s.alive && decide (s.main = .serving)

/-- What holds in every state. -/
structure Inv (s : S) : Prop where
  ready : s.ready = true → s.main.node = true
  web : s.web ≠ .off → s.main ≠ .starting ∧ s.main ≠ .made
  dir : s.dir = true ↔ s.main ≠ .left

theorem inv_step {s s' : S} (h : Inv s) {a : Act} (hs : step s a = some s') : Inv s' := by
  obtain ⟨h1, h2, h3⟩ := h
  obtain ⟨main, web, ready, alive, dir⟩ := s
  unfold step at hs
  cases alive with
  | false => simp at hs
  | true =>
    simp only [if_true] at hs
    cases a <;> simp only at hs
    case killed => simp only [Option.some.injEq] at hs; subst hs; exact ⟨h1, h2, h3⟩
    all_goals
      split at hs
      · rename_i hc
        simp only [Option.some.injEq] at hs
        subst hs
        simp only at hc h1 h2 h3
        first
          | (subst hc; constructor <;> (try split) <;> simp_all [Main.node])
          | (constructor <;> (try split) <;> simp_all [Main.node])
      · cases hs

theorem inv_exec : ∀ (as : List Act) {s s' : S}, Inv s → exec s as = some s' → Inv s'
  | [], s, s', h, he => by simp only [exec, Option.some.injEq] at he; exact he ▸ h
  | a :: as, s, s', h, he => by
    simp only [exec] at he
    cases hs : step s a with
    | none => rw [hs] at he; cases he
    | some t => rw [hs] at he; exact inv_exec as (inv_step h hs) he

theorem inv_init : Inv init := by constructor <;> simp [init, Main.node]

/-- The port was got. -/
def bound (as : List Act) : Prop := .bind true ∈ as

theorem exec_append (as bs : List Act) : ∀ s, exec s (as ++ bs) = (exec s as).bind fun s => exec s bs := by
  induction as with
  | nil => intro s; rfl
  | cons a as ih =>
    intro s
    simp only [List.cons_append, exec]
    cases step s a with
    | none => rfl
    | some t => exact ih t

end Startup

open Startup

/-- C162, full statement: a server that says it is ready takes calls.  FALSE of the code. -/
def C162_ready_statement : Prop :=
  ∀ (as : List Act) (s : S), Startup.exec init as = some s → saysReady s = true → takesCalls s = true

/-- C162 fails: the first synchronisation (with no peers it takes no time) ends before the port is opened. -/
theorem C162_ready_fails : ¬ C162_ready_statement := by
  intro h
  have := h [.make, .synced, .startRest, .web true] _ rfl rfl
  revert this
  decide

/-- The position of `RunServer` only moves on. -/
def Startup.Main.rank : Startup.Main → Nat
  | .starting => 0 | .made => 1 | .rest => 2 | .listen => 3 | .serving => 4 | .leaving => 5 | .left => 6

theorem Startup.step_rank {s s' : S} {a : Act} (h : Startup.step s a = some s') :
    s.main.rank ≤ s'.main.rank ∧ s.alive = true ∧
      (s'.main.rank ≤ 4 → s.main = .serving → s'.main = .serving) ∧ (a = .bind true → s'.main = .serving) ∧
      (s'.main.rank ≥ 4 → s.main.rank ≤ 3 → ∃ ok, a = .bind ok) ∧
      (s'.main.rank ≥ 5 → s.main.rank ≤ 4 → a = .bind false ∨ a = .serveEnds) := by
  obtain ⟨main, web, ready, alive, dir⟩ := s
  unfold Startup.step at h
  cases alive with
  | false => simp at h
  | true =>
    simp only [if_true] at h
    cases a <;> simp only at h
    case killed => simp only [Option.some.injEq] at h; subst h; cases main <;> simp [Startup.Main.rank]
    all_goals
      split at h
      · rename_i hc
        simp only [Option.some.injEq] at h
        subst h
        (try simp only at hc)
        cases main <;> (try split) <;> simp_all [Startup.Main.rank, Main.node]
      · cases h

/-- C162, exactly: a server that says it is ready and takes no calls is about to open its port, or could not open it, or has
stopped serving, and ends. -/
theorem C162_ready_exact (as : List Act) (s : S) (h : Startup.exec init as = some s) (hr : saysReady s = true)
    (hn : takesCalls s = false) :
    s.main = .rest ∨ s.main = .listen ∨ ((s.main = .leaving ∨ s.main = .left) ∧ (.bind false ∈ as ∨ .serveEnds ∈ as)) := by
  have hi := inv_exec as inv_init h
  simp only [saysReady, Bool.and_eq_true, decide_eq_true_eq] at hr
  simp only [takesCalls, hr.1.1, Bool.true_and, decide_eq_false_iff_not] at hn
  obtain ⟨h1, h2⟩ := hi.web (by rw [hr.1.2]; simp)
  have hlv : s.main.rank ≥ 5 → .bind false ∈ as ∨ .serveEnds ∈ as := by
    intro hge
    have key : ∀ (as : List Act) (t : S), Startup.exec t as = some s → t.main.rank ≤ 4 → .bind false ∈ as ∨ .serveEnds ∈ as := by
      intro as
      induction as with
      | nil =>
        intro t ht hle
        simp only [Startup.exec, Option.some.injEq] at ht
        subst ht; omega
      | cons a as ih =>
        intro t ht hle
        simp only [Startup.exec] at ht
        cases hs : Startup.step t a with
        | none => rw [hs] at ht; cases ht
        | some u =>
          rw [hs] at ht
          obtain ⟨_, _, _, _, _, h6⟩ := Startup.step_rank hs
          by_cases hu : u.main.rank ≤ 4
          · rcases ih u ht hu with h | h <;> simp [h]
          · rcases h6 (by omega) hle with rfl | rfl <;> simp
    exact key as init h (by decide)
  cases hm : s.main with
  | starting => exact absurd hm h1
  | made => exact absurd hm h2
  | rest => exact Or.inl rfl
  | listen => exact Or.inr (Or.inl rfl)
  | serving => exact absurd hm hn
  | leaving => exact Or.inr (Or.inr ⟨Or.inl rfl, hlv (by rw [hm]; decide)⟩)
  | left => exact Or.inr (Or.inr ⟨Or.inr rfl, hlv (by rw [hm]; decide)⟩)

/-- C162, the part that holds: from the moment it has its port, a server that is there takes calls, ready or not, unless
`Serve` has returned. -/
theorem C162_ready_partial (as bs : List Act) (s : S) (h : Startup.exec init (as ++ .bind true :: bs) = some s)
    (hb : .serveEnds ∉ bs) (ha : s.alive = true) : takesCalls s = true := by
  rw [exec_append] at h
  cases h1 : Startup.exec init as with
  | none => rw [h1] at h; cases h
  | some t =>
    rw [h1] at h
    simp only [Option.bind_some, Startup.exec] at h
    cases h2 : Startup.step t (.bind true) with
    | none => rw [h2] at h; cases h
    | some u =>
      rw [h2] at h
      simp only [Option.bind_some] at h
      have hu := (Startup.step_rank h2).2.2.2.1 rfl
      have key : ∀ (bs : List Act) (u : S), Startup.exec u bs = some s → .serveEnds ∉ bs → u.main = .serving → s.main = .serving := by
        intro bs
        induction bs with
        | nil =>
          intro u h _ hu
          simp only [Startup.exec, Option.some.injEq] at h
          exact h ▸ hu
        | cons b bs ih =>
          intro u h hb hu
          simp only [Startup.exec] at h
          simp only [List.mem_cons, not_or] at hb
          cases hs : Startup.step u b with
          | none => rw [hs] at h; cases h
          | some v =>
            rw [hs] at h
            refine ih v h hb.2 ?_
            obtain ⟨_, _, h3, _, _, h6⟩ := Startup.step_rank hs
            refine h3 ?_ hu
            rcases Nat.lt_or_ge 4 v.main.rank with hlt | hge
            · rcases h6 hlt (by rw [hu]; decide) with rfl | rfl
              · simp [Startup.step, hu] at hs
              · exact absurd rfl hb.1
            · exact hge
      have := key bs u h hb hu
      simp [takesCalls, ha, this]

/-- C162: a server that cannot open its port removes its directory and ends: from then on this is all `RunServer` does. -/
theorem C162_refused (as bs : List Act) (s : S) (h : Startup.exec init (as ++ .bind false :: bs) = some s) :
    takesCalls s = false ∧ (s.main = .leaving ∨ (s.main = .left ∧ s.dir = false)) := by
  have hi := inv_exec _ inv_init h
  rw [exec_append] at h
  cases h1 : Startup.exec init as with
  | none => rw [h1] at h; cases h
  | some t =>
    rw [h1] at h
    simp only [Option.bind_some, Startup.exec] at h
    cases h2 : Startup.step t (.bind false) with
    | none => rw [h2] at h; cases h
    | some u =>
      rw [h2] at h
      simp only [Option.bind_some] at h
      have hu : u.main.rank ≥ 5 := by
        unfold Startup.step at h2
        split at h2
        · simp only at h2
          split at h2
          · simp only [Option.some.injEq] at h2
            subst h2; simp [Startup.Main.rank]
          · cases h2
        · cases h2
      have key : ∀ (bs : List Act) (u : S), Startup.exec u bs = some s → u.main.rank ≥ 5 → s.main.rank ≥ 5 := by
        intro bs
        induction bs with
        | nil =>
          intro u h hu
          simp only [Startup.exec, Option.some.injEq] at h
          exact h ▸ hu
        | cons b bs ih =>
          intro u h hu
          simp only [Startup.exec] at h
          cases hs : Startup.step u b with
          | none => rw [hs] at h; cases h
          | some v =>
            rw [hs] at h
            have := (Startup.step_rank hs).1
            exact ih v h (by omega)
      have hs5 := key bs u h hu
      have hd := hi.dir
      cases hm : s.main <;> rw [hm] at hs5 hd <;> simp [Startup.Main.rank] at hs5
      · exact ⟨by simp [takesCalls, hm], Or.inl rfl⟩
      · refine ⟨by simp [takesCalls, hm], Or.inr ⟨rfl, ?_⟩⟩
        simpa using hd

/-- C162, the other way round: a server that takes calls need not answer health checks, now or later, when the port 8000 is
taken; it goes on without. -/
theorem C162_no_health : ∃ s, Startup.exec init [.make, .startRest, .web false, .startSignals, .bind true, .synced] = some s ∧
    takesCalls s = true ∧ s.ready = true ∧ ∀ as s', Startup.exec s as = some s' → saysReady s' = false := by
  refine ⟨_, rfl, rfl, rfl, ?_⟩
  have key : ∀ (as : List Act) (s s' : S), s.web = .failed → s.main.rank ≥ 2 → Startup.exec s as = some s' → saysReady s' = false := by
    intro as
    induction as with
    | nil =>
      intro s s' h _ he
      simp only [Startup.exec, Option.some.injEq] at he
      subst he; simp [saysReady, h]
    | cons a as ih =>
      intro s s' h hge he
      simp only [Startup.exec] at he
      cases hs : Startup.step s a with
      | none => rw [hs] at he; cases he
      | some t =>
        rw [hs] at he
        refine ih t s' ?_ (by have := (Startup.step_rank hs).1; omega) he
        obtain ⟨main, web, ready, alive, dir⟩ := s
        simp only at h hge
        subst h
        unfold Startup.step at hs
        cases alive with
        | false => simp at hs
        | true =>
          simp only [if_true] at hs
          cases a <;> simp only at hs
          case killed => simp only [Option.some.injEq] at hs; subst hs; rfl
          case startRest => cases main <;> simp [Startup.Main.rank] at hs hge
          case web => simp at hs
          case webEnds => simp at hs
          all_goals
            split at hs
            · simp only [Option.some.injEq] at hs
              subst hs; rfl
            · cases hs
  intro as s' he
  exact key as _ s' rfl (by decide) he

/-- The ordinary start. -/
theorem C162_example : ∃ s, Startup.exec init [.make, .startRest, .startSignals, .bind true, .web true, .synced] = some s ∧
    saysReady s = true ∧ takesCalls s = true := ⟨_, rfl, rfl, rfl⟩

theorem Startup.ready_step {s s' : S} {a : Act} (h : Startup.step s a = some s') :
    s'.ready = if a = .synced then true else if a = .close then false else s.ready := by
  obtain ⟨main, web, ready, alive, dir⟩ := s
  unfold Startup.step at h
  cases alive with
  | false => simp at h
  | true =>
    simp only [if_true] at h
    cases a <;> simp only at h
    case killed => simp only [Option.some.injEq] at h; subst h; simp
    all_goals
      split at h
      · simp only [Option.some.injEq] at h
        subst h
        simp
      · cases h

/-- The last of the two was a synchronisation. -/
def Startup.Synced (as : List Act) : Prop := ∃ pre post, as = pre ++ .synced :: post ∧ .close ∉ post

theorem Startup.ready_exec : ∀ (as : List Act) {s s' : S}, Startup.exec s as = some s' →
    (s'.ready = true ↔ Synced as ∨ (s.ready = true ∧ .close ∉ as))
  | [], s, s', h => by
    simp only [Startup.exec, Option.some.injEq] at h
    subst h
    have : ¬ Synced [] := by rintro ⟨pre, post, h, -⟩; cases pre <;> cases h
    simp [this]
  | a :: as, s, s', h => by
    simp only [Startup.exec] at h
    cases hs : Startup.step s a with
    | none => rw [hs] at h; cases h
    | some t =>
      rw [hs] at h
      rw [ready_exec as h, ready_step hs]
      have hc : Synced (a :: as) ↔ Synced as ∨ (a = .synced ∧ .close ∉ as) := by
        constructor
        · rintro ⟨pre, post, h1, h2⟩
          cases pre with
          | nil =>
            simp only [List.nil_append, List.cons.injEq] at h1
            exact .inr ⟨h1.1, h1.2 ▸ h2⟩
          | cons b pre =>
            simp only [List.cons_append, List.cons.injEq] at h1
            exact .inl ⟨pre, post, h1.2, h2⟩
        · rintro (⟨pre, post, h1, h2⟩ | ⟨rfl, h⟩)
          · exact ⟨a :: pre, post, by rw [h1]; rfl, h2⟩
          · exact ⟨[], as, rfl, h⟩
      rw [hc]
      by_cases h1 : a = .synced
      · subst h1; simp; exact fun _ h => .inr h
      · by_cases h2 : a = .close
        · subst h2; simp
        · simp [h1, h2, Ne.symm h2]

/-- C162: a server says it is ready exactly if a synchronisation has come to its end after the start and after the last `Close`, and
the server for health checks is there. -/
theorem C162_synced (as : List Act) (s : S) (h : Startup.exec init as = some s) :
    saysReady s = true ↔ s.alive = true ∧ s.web = .up ∧ Synced as := by
  have := ready_exec as h
  simp only [init, Bool.false_eq_true, false_and, or_false] at this
  simp only [saysReady, Bool.and_eq_true, decide_eq_true_eq, this, and_assoc]

/-- C162: calls are taken as before when the server for health checks ends or cannot start. -/
theorem C162_web_ends (s s' : S) (a : Act) (ha : a = .webEnds ∨ ∃ ok, a = .web ok) (h : Startup.step s a = some s') :
    takesCalls s' = takesCalls s ∧ s'.main = s.main ∧ s'.dir = s.dir := by
  unfold Startup.step at h
  split at h
  · rcases ha with rfl | ⟨ok, rfl⟩
    all_goals
      simp only at h
      split at h
      · simp only [Option.some.injEq] at h
        subst h
        exact ⟨rfl, rfl, rfl⟩
      · cases h
  · cases h

theorem Startup.alive_step {s s' : S} {a : Act} (h : Startup.step s a = some s') :
    s.alive = true ∧ (s'.alive = true ↔ a ≠ .exit ∧ a ≠ .killed) := by
  unfold Startup.step at h
  split at h
  · rename_i hal
    refine ⟨hal, ?_⟩
    cases a <;> simp only at h
    case killed => simp only [Option.some.injEq] at h; subst h; simp
    all_goals
      split at h
      · simp only [Option.some.injEq] at h
        subst h
        simp [hal]
      · cases h
  · cases h

theorem Startup.alive_exec : ∀ (as : List Act) {s s' : S}, Startup.exec s as = some s' →
    (s'.alive = true ↔ s.alive = true ∧ .exit ∉ as ∧ .killed ∉ as)
  | [], s, s', h => by
    simp only [Startup.exec, Option.some.injEq] at h
    subst h
    simp
  | a :: as, s, s', h => by
    simp only [Startup.exec] at h
    cases hs : Startup.step s a with
    | none => rw [hs] at h; cases h
    | some t =>
      rw [hs] at h
      obtain ⟨h1, h2⟩ := alive_step hs
      rw [alive_exec as h, h2, h1]
      simp only [List.mem_cons, not_or, ne_eq, true_and, eq_comm (a := a)]
      constructor
      · rintro ⟨⟨h1, h2⟩, h3, h4⟩; exact ⟨⟨h1, h3⟩, h2, h4⟩
      · rintro ⟨⟨h1, h3⟩, h2, h4⟩; exact ⟨⟨h1, h2⟩, h3, h4⟩

/-- What the server for health checks does from where it is. -/
def Startup.WebUp (w : Web) (as : List Act) : Prop :=
  match w with
  | .off | .binding => .web true ∈ as ∧ .webEnds ∉ as
  | .up => .webEnds ∉ as
  | .failed => False

theorem Startup.web_step {s s' : S} {a : Act} (hi : Inv s) (h : Startup.step s a = some s') :
    (s'.web = s.web ∧ a ≠ .webEnds ∧ (∀ ok, a ≠ .web ok)) ∨ (a = .startRest ∧ s.web = .off ∧ s'.web = .binding) ∨
    (∃ ok, a = .web ok ∧ s.web = .binding ∧ s'.web = if ok then .up else .failed) ∨
    (a = .webEnds ∧ s.web = .up ∧ s'.web = .failed) := by
  unfold Startup.step at h
  split at h
  · cases a <;> simp only at h
    case killed => simp only [Option.some.injEq] at h; subst h; simp
    case startRest =>
      split at h
      · rename_i hm
        simp only [Option.some.injEq] at h
        subst h
        refine .inr (.inl ⟨rfl, ?_, rfl⟩)
        by_cases hw : s.web = .off
        · exact hw
        · exact absurd hm (hi.web hw).2
      · cases h
    all_goals
      split at h
      · rename_i hw
        simp only [Option.some.injEq] at h
        subst h
        simp [hw]
      · cases h
  · cases h

/-- It asks for its port once. -/
theorem Startup.web_once : ∀ (as : List Act) {s s' : S}, Inv s → s.web = .up ∨ s.web = .failed → Startup.exec s as = some s' →
    ∀ ok, .web ok ∉ as
  | [], _, _, _, _, _ => by simp
  | a :: as, s, s', hi, hw, h => by
    simp only [Startup.exec] at h
    cases hs : Startup.step s a with
    | none => rw [hs] at h; cases h
    | some t =>
      rw [hs] at h
      have h' : Startup.exec t as = some s' := h
      intro ok
      rcases web_step hi hs with ⟨e, n1, n2⟩ | ⟨rfl, e1, e2⟩ | ⟨ok', rfl, e1, e2⟩ | ⟨rfl, e1, e2⟩
      · have := web_once as (inv_step hi hs) (e ▸ hw) h' ok
        simp [this, Ne.symm (n2 ok)]
      · rw [e1] at hw; simp at hw
      · rw [e1] at hw; simp at hw
      · have := web_once as (inv_step hi hs) (.inr e2) h' ok
        simp [this]

theorem Startup.web_exec : ∀ (as : List Act) {s s' : S}, Inv s → Startup.exec s as = some s' → (s'.web = .up ↔ WebUp s.web as)
  | [], s, s', _, h => by
    simp only [Startup.exec, Option.some.injEq] at h
    subst h
    cases hw : s.web <;> simp [WebUp]
  | a :: as, s, s', hi, h => by
    simp only [Startup.exec] at h
    cases hs : Startup.step s a with
    | none => rw [hs] at h; cases h
    | some t =>
      rw [hs] at h
      have h' : Startup.exec t as = some s' := h
      rw [web_exec as (inv_step hi hs) h']
      rcases web_step hi hs with ⟨e, n1, n2⟩ | ⟨rfl, e1, e2⟩ | ⟨ok, rfl, e1, e2⟩ | ⟨rfl, e1, e2⟩
      · rw [e]
        cases s.web <;> simp [WebUp, Ne.symm n1, Ne.symm (n2 true)]
      · rw [e1, e2]; simp [WebUp]
      · rw [e1, e2]
        cases ok with
        | true => simp [WebUp]
        | false =>
          have := web_once as (inv_step hi hs) (.inr (by rw [e2]; rfl)) h' true
          simp [WebUp, this]
      · rw [e1, e2]; simp [WebUp]

/-- C162: the same by what has happened: the process has not ended, the server for health checks has its port and has not ended, and a
synchronisation has come to its end after the last `Close`. -/
theorem C162_history (as : List Act) (s : S) (h : Startup.exec init as = some s) :
    saysReady s = true ↔ .exit ∉ as ∧ .killed ∉ as ∧ .web true ∈ as ∧ .webEnds ∉ as ∧ Synced as := by
  rw [C162_synced as s h, alive_exec as h, web_exec as inv_init h]
  simp [WebUp, init, and_assoc]

/-- C162: the process ends by itself only when the directory of the node is removed. -/
theorem C162_exit (as : List Act) (s : S) (h : Startup.exec init as = some s) :
    Startup.step s .exit ≠ none ↔ s.alive = true ∧ s.dir = false := by
  have hi : Inv s := inv_exec as inv_init h
  unfold Startup.step
  cases hal : s.alive with
  | false => simp
  | true =>
    have : s.dir = false ↔ s.main = .left := by
      have := hi.dir
      cases hd : s.dir <;> simp_all
    rw [this]
    by_cases hm : s.main = .left <;> simp [hm]

/-- Whether calls are taken, from where `RunServer` is. -/
def Startup.Serves (m : Main) (as : List Act) : Prop :=
  match m with
  | .starting | .made | .rest | .listen => .bind true ∈ as ∧ .serveEnds ∉ as
  | .serving => .serveEnds ∉ as
  | .leaving | .left => False

theorem Startup.main_step {s s' : S} {a : Act} (h : Startup.step s a = some s') :
    (s'.main = s.main ∧ a ≠ .serveEnds ∧ (∀ ok, a ≠ .bind ok)) ∨
    (s.main.rank ≤ 2 ∧ s'.main.rank ≤ 3 ∧ a ≠ .serveEnds ∧ (∀ ok, a ≠ .bind ok)) ∨
    (∃ ok, a = .bind ok ∧ s.main = .listen ∧ s'.main = if ok then .serving else .leaving) ∨
    (a = .serveEnds ∧ s.main = .serving ∧ s'.main = .leaving) ∨ (a = .remove ∧ s.main = .leaving ∧ s'.main = .left) := by
  unfold Startup.step at h
  split at h
  · cases a <;> simp only at h
    case killed => simp only [Option.some.injEq] at h; subst h; simp
    all_goals
      split at h
      · rename_i hw
        simp only [Option.some.injEq] at h
        subst h
        simp [hw, Startup.Main.rank]
      · cases h
  · cases h

/-- The port is asked for once. -/
theorem Startup.bind_once : ∀ (as : List Act) {s s' : S}, 4 ≤ s.main.rank → Startup.exec s as = some s' → ∀ ok, .bind ok ∉ as
  | [], _, _, _, _ => by simp
  | a :: as, s, s', hw, h => by
    simp only [Startup.exec] at h
    cases hs : Startup.step s a with
    | none => rw [hs] at h; cases h
    | some t =>
      rw [hs] at h
      have h' : Startup.exec t as = some s' := h
      intro ok
      rcases main_step hs with ⟨e, n1, n2⟩ | ⟨e1, e2, n1, n2⟩ | ⟨ok', rfl, e1, e2⟩ | ⟨rfl, e1, e2⟩ | ⟨rfl, e1, e2⟩
      · have := bind_once as (by rw [e]; exact hw) h' ok
        simp [this, Ne.symm (n2 ok)]
      · omega
      · rw [e1] at hw; simp [Startup.Main.rank] at hw
      · have := bind_once as (by rw [e2]; decide) h' ok
        simp [this]
      · have := bind_once as (by rw [e2]; decide) h' ok
        simp [this]

theorem Startup.serves_low {m : Main} {as : List Act} (h : m.rank ≤ 3) : Serves m as ↔ .bind true ∈ as ∧ .serveEnds ∉ as := by
  cases m <;> simp_all [Serves, Startup.Main.rank]

theorem Startup.main_exec : ∀ (as : List Act) {s s' : S}, Startup.exec s as = some s' → (s'.main = .serving ↔ Serves s.main as)
  | [], s, s', h => by
    simp only [Startup.exec, Option.some.injEq] at h
    subst h
    cases hw : s.main <;> simp [Serves]
  | a :: as, s, s', h => by
    simp only [Startup.exec] at h
    cases hs : Startup.step s a with
    | none => rw [hs] at h; cases h
    | some t =>
      rw [hs] at h
      have h' : Startup.exec t as = some s' := h
      rw [main_exec as h']
      rcases main_step hs with ⟨e, n1, n2⟩ | ⟨e1, e2, n1, n2⟩ | ⟨ok, rfl, e1, e2⟩ | ⟨rfl, e1, e2⟩ | ⟨rfl, e1, e2⟩
      · rw [e]
        cases s.main <;> simp [Serves, Ne.symm n1, Ne.symm (n2 true)]
      · rw [serves_low e2, serves_low (by omega)]
        simp [Ne.symm n1, Ne.symm (n2 true)]
      · rw [e1, e2]
        cases ok with
        | true => simp [Serves]
        | false =>
          have := bind_once as (by rw [e2]; decide) h' true
          simp [Serves, this]
      · rw [e1, e2]; simp [Serves]
      · rw [e1, e2]; simp [Serves]

/-- C162: calls are taken by a process that has not ended, has got its port, and whose gRPC server has not ended. -/
theorem C162_takes (as : List Act) (s : S) (h : Startup.exec init as = some s) :
    takesCalls s = true ↔ .exit ∉ as ∧ .killed ∉ as ∧ .bind true ∈ as ∧ .serveEnds ∉ as := by
  unfold takesCalls
  rw [Bool.and_eq_true, decide_eq_true_eq, alive_exec as h, main_exec as h]
  simp [Serves, init, and_assoc]

/-- C162: a signal can end the node as soon as there is one. -/
theorem C162_close (as : List Act) (s : S) (h : Startup.exec init as = some s) :
    Startup.step s .close ≠ none ↔ .exit ∉ as ∧ .killed ∉ as ∧ .make ∈ as := by
  have ha := alive_exec as h
  have hm : s.main.node = true ↔ .make ∈ as := by
    have : ∀ (as : List Act) (s s' : S), Startup.exec s as = some s' → (s'.main.node = true ↔ s.main.node = true ∨ .make ∈ as) := by
      intro as
      induction as with
      | nil => intro s s' h; simp only [Startup.exec, Option.some.injEq] at h; subst h; simp
      | cons a as ih =>
        intro s s' h
        simp only [Startup.exec] at h
        cases hs : Startup.step s a with
        | none => rw [hs] at h; cases h
        | some t =>
          rw [hs] at h
          rw [ih t s' h]
          have : t.main.node = true ↔ s.main.node = true ∨ a = .make := by
            unfold Startup.step at hs
            split at hs
            · cases a <;> simp only at hs
              case killed => simp only [Option.some.injEq] at hs; subst hs; simp
              all_goals
                split at hs
                · rename_i hw
                  simp only [Option.some.injEq] at hs
                  subst hs
                  first | (simp [hw, Main.node]; done) | (split <;> simp [hw, Main.node])
                · cases hs
            · cases hs
          rw [this]
          simp [or_assoc, eq_comm (a := a)]
    rw [this as init s h]
    simp [init, Main.node]
  rw [← hm]
  have ha' : s.alive = true ↔ .exit ∉ as ∧ .killed ∉ as := by rw [ha]; simp [init]
  rw [← and_assoc, ← ha']
  unfold Startup.step
  cases s.alive <;> cases s.main.node <;> simp

end Veri
