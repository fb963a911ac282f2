import Verif.Node.Props
import Verif.Dataset.Conc
/-
C81: announcements handled at the same time.
-/
set_option autoImplicit false
namespace Veri
namespace Net

/-- Where a handler of an announcement is (node/node.go:108-125). -/
inductive Pend where
  /-- behind the checks, before line 120 -/
  | checked (id : String) (p : Peer)
  /-- between line 120 and line 121 -/
  | stored (id : String)
  | over
  deriving DecidableEq, Repr

structure AS where
  base : NS
  pending : List Pend
  deriving DecidableEq, Repr

inductive AEv where
  /-- a handler reads the clock and the table: lines 109-119 -/
  | check (p : Peer)
  /-- line 120 -/
  | store (j : Nat)
  /-- line 121 -/
  | extend (j : Nat)
  /-- anything else of the machine of C57 -/
  | other (e : Ev)

/-- Line 120: `Set` with the default of five minutes. -/
def storePeer (now : Int) (t : PeerTable) (id : String) (p : Peer) : PeerTable := t.set id ⟨p, some (now + 5 * minute)⟩

/-- Line 121, `IncrementExpiration` by ten minutes, if there is an item. -/
def extendPeer (X : DS.XEnv) (now : Int) (t : PeerTable) (id : String) : PeerTable :=
  match t.get? id with
  | some s => t.set id { s with expires := X.extend s.expires now (10 * minute) }
  | none => t

def withPeers (s : NS) (t : PeerTable) : NS := { s with node := { s.node with peers := t } }

def astep (X : DS.XEnv) (s : AS) : AEv → Option AS
  | .check p =>
    some { s with pending := s.pending ++ [match announceCheck s.base.now s.base.node p with
      | some (id, q) => .checked id q
      | none => .over] }
  | .store j =>
    match s.pending[j]? with
    | some (.checked id p) =>
      some ⟨withPeers s.base (storePeer s.base.now s.base.node.peers id p), s.pending.set j (.stored id)⟩
    | _ => none
  | .extend j =>
    match s.pending[j]? with
    | some (.stored id) => some ⟨withPeers s.base (extendPeer X s.base.now s.base.node.peers id), s.pending.set j .over⟩
    | _ => none
  | .other (.announce _) => none
  | .other e => (step X s.base e).map fun b => { s with base := b }

def arun (X : DS.XEnv) (s : AS) : List AEv → Option AS
  | [] => some s
  | e :: es => (astep X s e).bind fun s => arun X s es

/-- The states of a run. -/
def astates (X : DS.XEnv) (s : AS) : List AEv → List AS
  | [] => [s]
  | e :: es => s :: (match astep X s e with | some s' => astates X s' es | none => [])

/-- One after the other the steps of a handler are the function of the model. -/
theorem announce_steps (X : DS.XEnv) (now : Int) (n : Node) (p : Peer) (id : String) (q : Peer) (h : announceCheck now n p = some (id, q)) :
    (announce X now n p).peers.get? id = (extendPeer X now (storePeer now n.peers id q) id).get? id := by
  simp [announce, h, putPeer, extendPeer, storePeer, AMap.get?_set_self]

end Net
open Net

/-- The identity that a handler under way is about. -/
def Net.about : Pend → Option String
  | .checked id _ => some id
  | .stored id => some id
  | .over => none

/-- C81, full statement: no event of any run replaces a record held by an older one. -/
def C81_statement : Prop := ∀ (X : DS.XEnv), X.Ok → ∀ (s s' s'' : AS) (es : List AEv) (e : AEv), s.pending = [] → s.base.node.peers = [] →
  arun X s es = some s' → astep X s' e = some s'' →
  ∀ id p p', held s'.base id = some p → held s''.base id = some p' → p.timestamp ≤ p'.timestamp

/-- Two announcements of one peer, the newer one stored first. -/
theorem C81_fails : ¬ C81_statement := by
  intro h
  have h2 : ((arun (DS.toy 0) ⟨⟨exNow, exNode⟩, []⟩ [.check (exPeer 1700000000), .check (exPeer 1700000001), .store 1]).any fun (s' : AS) =>
      (astep (DS.toy 0) s' (.store 0)).any fun (s'' : AS) => decide ((held s'.base (idOfPeer (exPeer 0))).map (·.timestamp) = some (1700000001) ∧
        (held s''.base (idOfPeer (exPeer 0))).map (·.timestamp) = some 1700000000)) = true := by decide +kernel
  obtain ⟨s', h3, h4⟩ := DS.any_some h2
  obtain ⟨s'', h5, h6⟩ := DS.any_some h4
  obtain ⟨h7, h8⟩ := of_decide_eq_true h6
  obtain ⟨p, hp, e1⟩ := Option.map_eq_some_iff.mp h7
  obtain ⟨p', hp', e2⟩ := Option.map_eq_some_iff.mp h8
  have := h (DS.toy 0) (DS.toy_ok 0) _ s' s'' _ _ rfl rfl h3 h5 _ p p' hp hp'
  rw [e1, e2] at this
  exact absurd this (by decide +kernel)

namespace Net

/-- No two handlers under way are about the same peer. -/
def Apart (s : AS) : Prop := ∀ (i j : Nat) (a b : Pend) (id : String), s.pending[i]? = some a → s.pending[j]? = some b →
  about a = some id → about b = some id → i = j

/-- A handler behind the checks has a newer record than the one held. -/
def Newer (s : AS) : Prop := ∀ (j : Nat) (id : String) (q : Peer), s.pending[j]? = some (.checked id q) → ∀ p, held s.base id = some p →
  p.timestamp < q.timestamp

theorem alive_mono {now now' : Int} (h : now ≤ now') {e : Option Int} (ha : alive now' e = true) : alive now e = true := by
  cases e with
  | none => rfl
  | some e => simp only [alive, decide_eq_true_eq] at *; omega

theorem held_other {X : DS.XEnv} {s s' : NS} {e : Ev} (hne : ∀ p, e ≠ .announce p) (h : step X s e = some s') (id : String) (p : Peer)
    (hp : held s' id = some p) : held s id = some p := by
  obtain ⟨x, hx, ha, rfl⟩ := peerAt_some.mp hp
  cases e with
  | tick now =>
    simp only [step] at h
    split at h
    · rename_i hle
      cases h
      exact peerAt_some.mpr ⟨x, hx, alive_mono hle ha, rfl⟩
    · cases h
  | announce q => exact absurd rfl (hne q)
  | sync ps =>
    simp only [step] at h
    split at h
    · rename_i n o hs
      cases h
      unfold syncWithPeers at hs
      cases hl : syncLoop X s.now ps s.node with
      | ok r =>
        rw [hl] at hs
        simp only [Res.bind, Res.ok.injEq, Prod.mk.injEq] at hs
        obtain ⟨rfl, -⟩ := hs
        obtain ⟨t, sv, m, he, ht⟩ := syncLoop_eff ps (n' := r.1) (out := r.2) hl
        simp only [he] at hx
        exact peerAt_some.mpr ⟨x, ht id x hx, ha, rfl⟩
      | err e => rw [hl] at hs; cases hs
      | panic => rw [hl] at hs; cases hs
    · cases h
  | learn a =>
    simp only [step, Option.some.injEq] at h
    subst h
    simp only [Net.learn] at hx
    refine peerAt_some.mpr ⟨x, ?_, ha, rfl⟩
    split at hx
    · exact hx
    · split at hx <;> exact hx
  | close =>
    simp only [step, Option.some.injEq] at h
    subst h
    exact hp
  | janitor id0 =>
    simp only [step] at h
    split at h
    · split at h <;> cases h
      refine peerAt_some.mpr ⟨x, ?_, ha, rfl⟩
      simp only [AMap.get?_erase] at hx
      split at hx
      · cases hx
      · exact hx
    · cases h

theorem newer_step {X : DS.XEnv} {s s' : AS} {e : AEv} (hn : Newer s) (ha : Apart s) (h : astep X s e = some s') : Newer s' := by
  cases e with
  | check p =>
    simp only [astep, Option.some.injEq] at h
    subst h
    intro j id q hj
    simp only at hj
    rw [List.getElem?_append] at hj
    split at hj
    · exact hn j id q hj
    · cases hc : announceCheck s.base.now s.base.node p with
      | none =>
        rw [hc] at hj
        have := List.mem_of_getElem? hj
        simp at this
      | some r =>
        rw [hc] at hj
        have := List.mem_of_getElem? hj
        obtain ⟨-, -, hr, hold⟩ := announceCheck_some hc
        rw [hr] at this
        simp only [List.mem_singleton, Pend.checked.injEq] at this
        obtain ⟨rfl, rfl⟩ := this
        exact hold
  | store i =>
    simp only [astep] at h
    split at h
    · rename_i id0 p0 hi
      cases h
      intro j id q hj p hp
      simp only at hj
      by_cases hij : i = j
      · subst hij
        rw [List.getElem?_set_self (List.getElem?_eq_some_iff.mp hi).1] at hj
        cases hj
      · rw [List.getElem?_set_ne hij] at hj
        have hne : id0 ≠ id := by
          intro e
          exact hij (ha i j _ _ id hi hj (by simp [about, e]) rfl)
        apply hn j id q hj
        obtain ⟨x, hx, hal, rfl⟩ := peerAt_some.mp hp
        simp only [withPeers, storePeer] at hx
        rw [AMap.get?_set_ne _ _ hne] at hx
        exact peerAt_some.mpr ⟨x, hx, hal, rfl⟩
    · cases h
  | extend i =>
    simp only [astep] at h
    split at h
    · rename_i id0 hi
      cases h
      intro j id q hj p hp
      simp only at hj
      by_cases hij : i = j
      · subst hij
        rw [List.getElem?_set_self (List.getElem?_eq_some_iff.mp hi).1] at hj
        cases hj
      · rw [List.getElem?_set_ne hij] at hj
        have hne : id0 ≠ id := by
          intro e
          exact hij (ha i j _ _ id hi hj (by simp [about, e]) rfl)
        apply hn j id q hj
        obtain ⟨x, hx, hal, rfl⟩ := peerAt_some.mp hp
        simp only [withPeers, extendPeer] at hx
        refine peerAt_some.mpr ⟨x, ?_, hal, rfl⟩
        split at hx
        · rw [AMap.get?_set_ne _ _ hne] at hx
          exact hx
        · exact hx
    · cases h
  | other e =>
    have : ∀ e', (∀ p, e' ≠ Ev.announce p) → (step X s.base e').map (fun b => { s with base := b }) = some s' → Newer s' := by
      intro e' hne h
      obtain ⟨b, hb, rfl⟩ := Option.map_eq_some_iff.mp h
      intro j id q hj p hp
      exact hn j id q hj p (held_other hne hb id p hp)
    cases e with
    | announce p => cases h
    | tick now => exact this (.tick now) (by simp) h
    | sync ps => exact this (.sync ps) (by simp) h
    | learn a => exact this (.learn a) (by simp) h
    | close => exact this .close (by simp) h
    | janitor i => exact this (.janitor i) (by simp) h

end Net

/-- C81, the part that holds: one event of handlers of different peers. -/
theorem C81_step_partial {X : DS.XEnv} {s s' : AS} {e : AEv} (hn : Newer s) (h : astep X s e = some s') (id : String) (p p' : Peer)
    (hp : held s.base id = some p) (hp' : held s'.base id = some p') : p.timestamp ≤ p'.timestamp := by
  have same : ∀ q, held s'.base id = some q → held s.base id = some q → p.timestamp ≤ p'.timestamp := by
    intro q h1 h2
    rw [hp] at h2; rw [hp'] at h1
    cases h1; cases h2
    exact UInt64.le_refl _
  cases e with
  | check q =>
    simp only [astep, Option.some.injEq] at h
    subst h
    exact same p' hp' hp'
  | store i =>
    simp only [astep] at h
    split at h
    · rename_i id0 p0 hi
      cases h
      by_cases hid : id0 = id
      · subst hid
        have := hn i id0 p0 hi p hp
        obtain ⟨x, hx, hal, rfl⟩ := peerAt_some.mp hp'
        simp only [withPeers, storePeer, AMap.get?_set_self, Option.some.injEq] at hx
        subst hx
        exact UInt64.le_of_lt this
      · refine same p' hp' ?_
        obtain ⟨x, hx, hal, rfl⟩ := peerAt_some.mp hp'
        simp only [withPeers, storePeer] at hx
        rw [AMap.get?_set_ne _ _ hid] at hx
        exact peerAt_some.mpr ⟨x, hx, hal, rfl⟩
    · cases h
  | extend i =>
    simp only [astep] at h
    split at h
    · rename_i id0 hi
      cases h
      obtain ⟨x, hx, hal, rfl⟩ := peerAt_some.mp hp'
      obtain ⟨y, hy, hal', rfl⟩ := peerAt_some.mp hp
      simp only [withPeers, extendPeer] at hx
      by_cases hid : id0 = id
      · subst hid
        rw [hy] at hx
        simp only [AMap.get?_set_self, Option.some.injEq] at hx
        subst hx
        exact UInt64.le_refl _
      · split at hx
        · rw [AMap.get?_set_ne _ _ hid, hy] at hx
          cases hx
          exact UInt64.le_refl _
        · rw [hy] at hx
          cases hx
          exact UInt64.le_refl _
    · cases h
  | other e =>
    have : ∀ e', (∀ p, e' ≠ Ev.announce p) → (step X s.base e').map (fun b => { s with base := b }) = some s' → p.timestamp ≤ p'.timestamp := by
      intro e' hne h
      obtain ⟨b, hb, rfl⟩ := Option.map_eq_some_iff.mp h
      exact same p' hp' (held_other hne hb id p' hp')
    cases e with
    | announce p => cases h
    | tick now => exact this (.tick now) (by simp) h
    | sync ps => exact this (.sync ps) (by simp) h
    | learn a => exact this (.learn a) (by simp) h
    | close => exact this .close (by simp) h
    | janitor i => exact this (.janitor i) (by simp) h

theorem Net.newer_run {X : DS.XEnv} : ∀ (es : List AEv) {s s' : AS}, Newer s → arun X s es = some s' → (∀ x ∈ astates X s es, Apart x) → Newer s'
  | [], s, s', hn, h, _ => by cases h; exact hn
  | e :: es, s, s', hn, h, ha => by
    rw [arun] at h
    cases hs : astep X s e with
    | none => rw [hs] at h; cases h
    | some s1 =>
      rw [hs] at h
      refine newer_run es (newer_step hn (ha s (by simp [astates])) hs) h ?_
      intro x hx
      refine ha x ?_
      rw [astates, hs]
      exact List.mem_cons_of_mem _ hx

/-- C81, the part that holds: in every run in which the announcements of one peer do not overlap (those of different peers may,
and everything else may happen in between), no event replaces a record held by an older one. -/
theorem C81_partial {X : DS.XEnv} {s s' s'' : AS} {es : List AEv} {e : AEv} (h0 : s.pending = []) (h1 : arun X s es = some s')
    (ha : ∀ x ∈ astates X s es, Apart x) (h2 : astep X s' e = some s'') (id : String) (p p' : Peer)
    (hp : held s'.base id = some p) (hp' : held s''.base id = some p') : p.timestamp ≤ p'.timestamp := by
  refine C81_step_partial (newer_run es ?_ h1 ha) h2 id p p' hp hp'
  intro j id q hj
  rw [h0] at hj
  cases hj

namespace Net

/-- Decidable form of `Apart`. -/
def apartB (l : List Pend) : Bool := decide ((l.filterMap about).Nodup)

theorem apart_of (s : AS) (h : apartB s.pending = true) : Apart s := by
  have h := of_decide_eq_true h
  intro i j a b id hi hj ha hb
  generalize s.pending = l at h hi hj
  induction l generalizing i j with
  | nil => simp at hi
  | cons c l ih =>
    have hmem : ∀ (k : Nat) (x : Pend), l[k]? = some x → about x = some id → id ∈ l.filterMap about :=
      fun k x hk hx => List.mem_filterMap.mpr ⟨x, List.mem_of_getElem? hk, hx⟩
    have h' : (l.filterMap about).Nodup := by
      rw [List.filterMap_cons] at h
      split at h
      · exact h
      · exact (List.nodup_cons.mp h).2
    have hc : about c = some id → id ∉ l.filterMap about := by
      intro e
      rw [List.filterMap_cons, e] at h
      exact (List.nodup_cons.mp h).1
    cases i with
    | zero =>
      cases j with
      | zero => rfl
      | succ j =>
        simp only [List.getElem?_cons_zero, Option.some.injEq, List.getElem?_cons_succ] at hi hj
        subst hi
        exact absurd (hmem j b hj hb) (hc ha)
    | succ i =>
      cases j with
      | zero =>
        simp only [List.getElem?_cons_zero, Option.some.injEq, List.getElem?_cons_succ] at hi hj
        subst hj
        exact absurd (hmem i a hi ha) (hc hb)
      | succ j =>
        simp only [List.getElem?_cons_succ] at hi hj
        rw [ih i j h' hi hj]

end Net

/-- Two peers' announcements overlap; then the first one announces itself again. -/
example : ∃ s' s'', arun (DS.toy 0) ⟨⟨exNow, exNode⟩, []⟩ [.check (exPeer 1700000000),
      .check { exPeer 1700000000 with addressList := ["c:1"] }, .store 1, .store 0, .extend 0, .extend 1,
      .check (exPeer 1700000001)] = some s' ∧
    (∀ x ∈ astates (DS.toy 0) ⟨⟨exNow, exNode⟩, []⟩ [.check (exPeer 1700000000),
      .check { exPeer 1700000000 with addressList := ["c:1"] }, .store 1, .store 0, .extend 0, .extend 1,
      .check (exPeer 1700000001)], Apart x) ∧
    astep (DS.toy 0) s' (.store 2) = some s'' ∧ (held s'.base (idOfPeer (exPeer 0))).isSome ∧ (held s''.base (idOfPeer (exPeer 0))).isSome := by
  have h2 : ((arun (DS.toy 0) ⟨⟨exNow, exNode⟩, []⟩ [.check (exPeer 1700000000),
      .check { exPeer 1700000000 with addressList := ["c:1"] }, .store 1, .store 0, .extend 0, .extend 1,
      .check (exPeer 1700000001)]).any fun (s' : AS) =>
      (astep (DS.toy 0) s' (.store 2)).any fun (s'' : AS) => decide ((held s'.base (idOfPeer (exPeer 0))).isSome ∧
        (held s''.base (idOfPeer (exPeer 0))).isSome)) = true := by decide +kernel
  obtain ⟨s', h3, h4⟩ := DS.any_some h2
  obtain ⟨s'', h5, h6⟩ := DS.any_some h4
  refine ⟨s', s'', h3, ?_, h5, of_decide_eq_true h6⟩
  intro x hx
  apply apart_of
  revert x
  decide +kernel

end Veri
