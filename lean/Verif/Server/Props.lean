import Verif.Server.Model
/-
C127 (content type of the health answers), C128 (settings), C129 (signals).
-/
set_option autoImplicit false
namespace Veri

/-! ### C127 -/

/-- C127, full statement: every answer of the health endpoints is labelled as what it is, JSON.  FALSE of the code. -/
def C127_json_statement : Prop :=
  ∀ (sniff : String → String), Http.SniffOk sniff → ∀ (b : Bool),
    ((Http.getReady b .new).answer sniff).2.1 = "application/json" ∧ ((Http.getHealth b .new).answer sniff).2.1 = "application/json"

/-- C127, exactly: status and body are those of C94, the type is whatever `DetectContentType` makes of the body: plain text. -/
theorem C127_exact (sniff : String → String) (n : Net.Node) :
    (Http.getReady n.ready .new).answer sniff = ((Net.getReady n).1, sniff (Net.getReady n).2, (Net.getReady n).2) ∧
    (Http.getHealth n.health .new).answer sniff = ((Net.getHealth n).1, sniff (Net.getHealth n).2, (Net.getHealth n).2) ∧
    (Http.SniffOk sniff → ((Http.getReady n.ready .new).answer sniff).2.1 = "text/plain; charset=utf-8" ∧
      ((Http.getHealth n.health .new).answer sniff).2.1 = "text/plain; charset=utf-8") := by
  have e1 : (Http.getReady n.ready .new).answer sniff = ((Net.getReady n).1, sniff (Net.getReady n).2, (Net.getReady n).2) := by
    unfold Http.getReady Net.getReady
    cases n.ready <;> rfl
  have e2 : (Http.getHealth n.health .new).answer sniff = ((Net.getHealth n).1, sniff (Net.getHealth n).2, (Net.getHealth n).2) := by
    unfold Http.getHealth Net.getHealth
    cases n.health <;> rfl
  refine ⟨e1, e2, fun h => ?_⟩
  rw [e1, e2]
  refine ⟨?_, ?_⟩
  · unfold Net.getReady; split <;> simp [h.1, h.2]
  · unfold Net.getHealth; split <;> simp [h.1]

theorem C127_json_fails : ¬ C127_json_statement := by
  intro h
  have hs : Http.SniffOk (fun _ => "text/plain; charset=utf-8") := ⟨rfl, rfl⟩
  have := (h _ hs true).1
  revert this
  decide +kernel

/-- C127: the order of `respondWithJSON`, which sets the type first, would be right, for every status and body. -/
theorem C127_right_order_partial (sniff : String → String) (code : Nat) (json : String) :
    (Http.respondWithJSON .new code json).answer sniff = (code, "application/json", json) := by
  have : "" ++ json = json := by simp
  show (code, _, "" ++ json) = _
  rw [this]
  rfl

/-! ### C128 -/

/-- C128: a text given for a setting in one place only. -/
inductive Ref.Place where
  | commandLine
  | environment
  | file

def Ref.givenOnly (p : Ref.Place) (v : String) : Settings.Given String :=
  match p with
  | .commandLine => ⟨some v, none, none⟩
  | .environment => ⟨none, some v, none⟩
  | .file => ⟨none, none, some (.text v)⟩

def Ref.nowhere {τ : Type} : Settings.Given τ := ⟨none, none, none⟩

/-- C128, full statement: a text setting given in one place takes effect, whichever place it is.  FALSE of the code. -/
def C128_settings_statement : Prop :=
  ∀ (p : Ref.Place) (v : String), v ≠ "" →
    (Settings.serve ⟨Ref.givenOnly p v, Ref.nowhere, Ref.nowhere, Ref.nowhere⟩).services = v ∧
    (Settings.serve ⟨Ref.nowhere, Ref.nowhere, Ref.givenOnly p v, Ref.nowhere⟩).broadcast = v ∧
    (Settings.serve ⟨Ref.nowhere, Ref.nowhere, Ref.nowhere, Ref.givenOnly p v⟩).directory = v

/-- C128, exactly: services, port and directory are those of the command line or the defaults; the broadcast addresses are those
of the command line, else of the environment unless empty, else the text in the configuration file, else none (also if the file
has a list of addresses). -/
theorem C128_exact (i : Settings.Input) :
    (Settings.serve i).services = i.services.flag.getD "" ∧
    (Settings.serve i).port = i.port.flag.getD 10000 ∧
    (Settings.serve i).directory = i.directory.flag.getD "" ∧
    (∀ v, i.broadcast.flag = some v → (Settings.serve i).broadcast = v) ∧
    (∀ v, i.broadcast.flag = none → i.broadcast.env = some v → v ≠ "" → (Settings.serve i).broadcast = v) ∧
    (i.broadcast.flag = none → i.broadcast.env = none ∨ i.broadcast.env = some "" →
      (∀ v, i.broadcast.file = some (.text v) → (Settings.serve i).broadcast = v) ∧
      (i.broadcast.file = none ∨ i.broadcast.file = some .other → (Settings.serve i).broadcast = "")) := by
  refine ⟨rfl, rfl, rfl, ?_, ?_, ?_⟩
  · intro v h
    simp [Settings.serve, Settings.viperGet, h]
  · intro v h1 h2 h3
    simp [Settings.serve, Settings.viperGet, h1, h2, h3]
  · intro h1 h2
    constructor
    · intro v h3
      rcases h2 with h2 | h2 <;> simp [Settings.serve, Settings.viperGet, h1, h2, h3]
    · intro h3
      rcases h2 with h2 | h2 <;> rcases h3 with h3 | h3 <;> simp [Settings.serve, Settings.viperGet, h1, h2, h3]

theorem C128_settings_fails : ¬ C128_settings_statement := by
  intro h
  have := (h .file "a:1" (by decide)).1
  revert this
  decide +kernel

/-- C128, partial: on the command line every setting takes effect; the broadcast addresses do so from all three places. -/
theorem C128_settings_partial (p : Ref.Place) (v : String) (hv : v ≠ "") :
    (Settings.serve ⟨Ref.givenOnly .commandLine v, Ref.nowhere, Ref.nowhere, Ref.nowhere⟩).services = v ∧
    (Settings.serve ⟨Ref.nowhere, Ref.nowhere, Ref.givenOnly p v, Ref.nowhere⟩).broadcast = v ∧
    (Settings.serve ⟨Ref.nowhere, Ref.nowhere, Ref.nowhere, Ref.givenOnly .commandLine v⟩).directory = v := by
  refine ⟨rfl, ?_, rfl⟩
  cases p <;> simp [Settings.serve, Settings.viperGet, Ref.givenOnly, hv]

/-! ### C129 -/

namespace Sig
open Proc

theorem exec_append (P : PEnv) : ∀ (l1 l2 : List Label) (s : Server), exec P s (l1 ++ l2) = (exec P s l1).bind fun t => exec P t l2
  | [], _, _ => rfl
  | l :: l1, l2, s => by
    simp only [List.cons_append, exec]
    cases step P s l with
    | none => rfl
    | some t => exact exec_append P l1 l2 t

/-- The node inside makes steps of its own machine; `Close` begins when the signal is taken. -/
theorem step_node {P : PEnv} {s s' : Server} {l : Label} (h : step P s l = some s') {s0 : PS} (hr : Reach P false s0 s.node) :
    Reach P false s0 s'.node := by
  cases l with
  | signal x =>
    simp only [step] at h
    split at h
    · cases h
    · split at h <;> cases h <;> exact hr
  | register =>
    simp only [step] at h
    split at h
    · cases h
    · split at h <;> cases h <;> exact hr
  | receive =>
    simp only [step] at h
    split at h
    · cases h
    · split at h
      · cases hs : Proc.step P false s.node .closeBegin with
        | none => rw [hs] at h; cases h
        | some n => rw [hs] at h; cases h; exact .step _ hr hs
      · cases h
  | exit =>
    simp only [step] at h
    split at h
    · cases h
    · split at h <;> cases h
      exact hr
  | listenReturns =>
    simp only [step] at h
    split at h <;> cases h
    exact hr
  | node l =>
    simp only [step] at h
    split at h
    · cases h
    · split at h
      · cases h
      · cases hs : Proc.step P false s.node l with
        | none => rw [hs] at h; cases h
        | some n => rw [hs] at h; cases h; exact .step _ hr hs

theorem exec_node {P : PEnv} : ∀ (ls : List Label) {s s' : Server}, exec P s ls = some s' → ∀ {s0 : PS}, Reach P false s0 s.node →
    Reach P false s0 s'.node
  | [], s, s', h, s0, hr => by cases h; exact hr
  | l :: ls, s, s', h, s0, hr => by
    rw [exec] at h
    cases hs : step P s l with
    | none => rw [hs] at h; cases h
    | some t => rw [hs] at h; exact exec_node ls h (step_node hs hr)

end Sig

open Proc Store in
/-- C129, full statement, in its weakest form: a server that has taken a signal can still end, if it is sent further signals.
FALSE of the code. -/
def C129_signal_ends_statement : Prop :=
  ∀ (P : PEnv) (dt : Data) (now : Int64), dt.initialized = true → WF0 dt.dbMap → ∀ (ls : List Sig.Label) (s : Sig.Server),
    Sig.exec P (Sig.start dt now) ls = some s → s.handler = .closing →
    ∃ ls' s', Sig.exec P s ls' = some s' ∧ .listenReturns ∉ ls' ∧ s'.ended = true

open Proc Store in
/-- C129: once a signal has been taken, further signals change nothing but the buffer that nobody reads: the process ends only
if `Close` returns or `Listen` fails. -/
theorem C129_only_close (P : PEnv) (s s' : Sig.Server) (l : Sig.Label) (hc : s.handler = .closing) (h : Sig.step P s l = some s') :
    s'.handler = .closing ∧
    (∀ x, l = .signal x → s'.node = s.node ∧ s'.ended = s.ended) ∧
    (s'.ended = true → l = .exit ∧ s.node.closer = .done ∨ l = .listenReturns) := by
  cases l with
  | signal x =>
    simp only [Sig.step, hc, Sig.caught, if_true] at h
    split at h
    · cases h
    · rename_i he
      cases h
      exact ⟨rfl, fun _ _ => ⟨rfl, rfl⟩, fun h => absurd h he⟩
  | register =>
    simp only [Sig.step, hc] at h
    split at h <;> cases h
  | receive =>
    simp only [Sig.step, hc] at h
    split at h <;> cases h
  | exit =>
    simp only [Sig.step, hc] at h
    split at h
    · cases h
    · split at h
      · rename_i hd
        cases h
        exact ⟨rfl, (fun _ hx => by cases hx), fun _ => .inl ⟨rfl, hd.2⟩⟩
      · cases h
  | listenReturns =>
    simp only [Sig.step] at h
    split at h <;> cases h
    exact ⟨hc, (fun _ hx => by cases hx), fun _ => .inr rfl⟩
  | node l =>
    simp only [Sig.step] at h
    split at h
    · cases h
    · rename_i he
      split at h
      · cases h
      · cases hs : Proc.step P false s.node l with
        | none => rw [hs] at h; cases h
        | some n => rw [hs] at h; cases h; exact ⟨hc, (fun _ hx => by cases hx), fun h => absurd h he⟩

open Proc Store in
/-- C129: so with a source and a datum without expiry no number of signals ends the server. -/
theorem C129_never_ends (P : PEnv) (dt : Data) (now : Int64) (hi : dt.initialized = true) (hwf : WF0 dt.dbMap)
    (hlen : dt.dbMap.length < 2 ^ 64) (hn : dt.n ≠ 0) (k : Bytes) (e : Entry) (hk : dt.dbMap.get? k = some e)
    (he : e.expireAt = 0) (ls : List Sig.Label) (s : Sig.Server) (h : Sig.exec P (Sig.start dt now) ls = some s)
    (hc : s.handler = .closing) (hl : s.node.closer = .loop) (h0 : s.ended = false) :
    ∀ (ls' : List Sig.Label) (s' : Sig.Server), Sig.exec P s ls' = some s' → .listenReturns ∉ ls' → s'.ended = false := by
  have hr : Proc.Reach P false (Proc.initial dt now) s.node := Sig.exec_node ls h .refl
  have key : ∀ (ls' : List Sig.Label) (t s' : Sig.Server), Proc.Reach P false s.node t.node → t.handler = .closing → t.ended = false →
      Sig.exec P t ls' = some s' → .listenReturns ∉ ls' → s'.ended = false := by
    intro ls'
    induction ls' with
    | nil => intro t s' _ _ ht hx _; cases hx; exact ht
    | cons l ls' ih =>
      intro t s' ht htc hte hx hnl
      rw [Sig.exec] at hx
      cases hs : Sig.step P t l with
      | none => rw [hs] at hx; cases hx
      | some t1 =>
        rw [hs] at hx
        obtain ⟨a1, -, a3⟩ := C129_only_close P t t1 l htc hs
        refine ih t1 s' (Sig.step_node hs ht) a1 ?_ hx (fun hm => hnl (List.mem_cons_of_mem _ hm))
        cases hb : t1.ended with
        | false => rfl
        | true =>
          rcases a3 hb with ⟨-, hd⟩ | hd
          · exact absurd hd (C42_close_never_returns P dt now hi hwf hlen hn k e hk he s.node t.node hr hl ht)
          · subst hd; exact absurd List.mem_cons_self hnl
  intro ls' s' hx hnl
  exact key ls' s s' .refl hc h0 hx hnl

namespace Sig
/-- The server is up and an interrupt comes. -/
def exStart : List Label := [.register, .register, .signal .interrupt, .receive]
end Sig

theorem C129_signal_ends_fails : ¬ C129_signal_ends_statement := by
  intro h
  have ht : (Sig.exec Proc.softP (Sig.start (Proc.exOne 0) 1000) Sig.exStart).map (fun s => (s.handler, s.node.closer, s.ended)) =
      some (.closing, .loop, false) := by decide +kernel
  cases hx : Sig.exec Proc.softP (Sig.start (Proc.exOne 0) 1000) Sig.exStart with
  | none => rw [hx] at ht; cases ht
  | some s =>
    rw [hx] at ht
    simp only [Option.map_some, Option.some.injEq, Prod.mk.injEq] at ht
    obtain ⟨h1, h2, h3⟩ := ht
    obtain ⟨ls', s', h4, h5, h6⟩ := h Proc.softP (Proc.exOne 0) 1000 rfl (Proc.exOne_wf 0) _ s hx h1
    have := C129_never_ends Proc.softP (Proc.exOne 0) 1000 rfl (Proc.exOne_wf 0) (by decide) (by decide) (Proc.exK 1) ⟨0, Proc.exD 1 1⟩
      (by simp [Proc.exOne, AMap.get?]) rfl _ s hx h1 h2 h3 ls' s' h4 h5
    rw [this] at h6
    cases h6

/-- C129: the goroutine has registered for the signal: for interrupts first, for termination after. -/
def Ref.Registered (s : Sig.Server) : Sig.Signal → Prop
  | .interrupt => s.handler ≠ .starting
  | .term => s.handler = .waiting ∨ s.handler = .closing

open Proc Store in
/-- C129, partial: a signal is never lost: one that comes after the registration is taken as soon as the goroutine runs, and
before the registration it ends the process at once; when `Close` has returned the process exits; without sources `Close`
returns at once; and the return of `Listen` ends the process at any time, whatever the handler does. -/
theorem C129_signal_ends_partial (P : PEnv) (s : Sig.Server) (h0 : s.ended = false) :
    (∀ x, ∃ s', Sig.step P s (.signal x) = some s' ∧ (¬ Ref.Registered s x → s'.ended = true) ∧
      (Ref.Registered s x → s'.pending.isSome = true ∧ s'.handler = s.handler ∧ s'.node = s.node ∧ s'.ended = false)) ∧
    (s.handler = .waiting → s.pending.isSome = true → s.node.closer = .idle →
      ∃ s', Sig.step P s .receive = some s' ∧ s'.handler = .closing ∧ s'.ended = false ∧
        (Proc.liveSources s.node.now (s.node.dt.sources.getD []) = [] → s'.node.closer = .done)) ∧
    (s.handler = .closing → s.node.closer = .done → ∃ s', Sig.step P s .exit = some s' ∧ s'.ended = true) ∧
    (∃ s', Sig.step P s .listenReturns = some s' ∧ s'.ended = true) := by
  refine ⟨fun x => ?_, fun h1 h2 h3 => ?_, fun h1 h2 => ?_, ⟨_, by simp only [Sig.step, h0]; rfl, rfl⟩⟩
  · have hreg : Sig.caught s.handler x = true ↔ Ref.Registered s x := by
      cases hh : s.handler <;> cases x <;> simp [Sig.caught, Ref.Registered, hh]
    rw [← hreg]
    simp only [Sig.step, h0]
    cases hc : Sig.caught s.handler x with
    | true => exact ⟨{ s with pending := some (s.pending.getD x) }, by simp [h0], (by intro h; exact absurd rfl h), fun _ => ⟨rfl, rfl, rfl, h0⟩⟩
    | false => exact ⟨{ s with ended := true }, by simp, fun _ => rfl, (by intro h; cases h)⟩
  · obtain ⟨x, hx⟩ := Option.isSome_iff_exists.1 h2
    simp only [Sig.step, h0, h1, hx, Proc.step, h3]
    refine ⟨_, rfl, rfl, rfl, fun hl => ?_⟩
    simp [hl]
  · simp only [Sig.step, h0, h1, h2]
    exact ⟨_, rfl, rfl⟩

/-- C129: the hypotheses can be met: a server without sources ends after one signal. -/
theorem C129_example : (Sig.exec Proc.softP (Sig.start { Proc.exOne 0 with sources := none } 1000)
    [.register, .register, .signal .term, .receive, .signal .interrupt, .exit]).map Sig.Server.ended = some true := by
  decide +kernel

end Veri
