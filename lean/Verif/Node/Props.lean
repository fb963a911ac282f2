import Verif.Node.Lemmas
import Verif.Dataset.Toy
/-
C56-C61, C63: identity of peers, the peer table, addresses.
-/
set_option autoImplicit false
namespace Veri
open Net

/-! ### C56 -/

/-- An address that is not empty and has no comma. -/
def Net.AddressOk (a : String) : Prop := NoComma a ∧ a ≠ ""

/-- C56. -/
theorem C56_identity (p q : Peer) (hp : ∀ a ∈ p.addressList, AddressOk a) (hq : ∀ a ∈ q.addressList, AddressOk a) :
    idOfPeer p = idOfPeer q ↔ p.addressList.Perm q.addressList := by
  constructor
  · intro h
    refine sortStrings_eq.mp (join_inj ?_ ?_ h)
    · exact fun a ha => hp a (mem_sortStrings.mp ha)
    · exact fun a ha => hq a (mem_sortStrings.mp ha)
  · intro h
    exact congrArg join (sortStrings_eq.mpr h)

/-- Computing the identity does not change it, though it reorders the list in the record. -/
theorem C56_stable (p : Peer) : idOfPeer (sortedPeer p) = idOfPeer p :=
  congrArg join (sortStrings_idem _)

/-- With commas two different peers are taken for one. -/
theorem C56_comma_needed :
    idOfPeer ⟨"", ["a,b"], 0, [], []⟩ = idOfPeer ⟨"", ["b", "a"], 0, [], []⟩ ∧ ¬ ["a,b"].Perm ["b", "a"] := by
  refine ⟨by decide +kernel, ?_⟩
  intro h
  have := h.length_eq
  simp at this

example : (∀ a ∈ ["b:1", "a:1"], AddressOk a) ∧ idOfPeer ⟨"", ["b:1", "a:1"], 0, [], []⟩ = "a:1,b:1" ∧
    idOfPeer ⟨"", ["b:1", "a:1"], 0, [], []⟩ = idOfPeer ⟨"", ["a:1", "b:1"], 7, ["s"], []⟩ ∧
    idOfPeer ⟨"", ["a:1", "a:1"], 0, [], []⟩ ≠ idOfPeer ⟨"", ["a:1"], 0, [], []⟩ := by
  refine ⟨?_, by decide +kernel, by decide +kernel, by decide +kernel⟩
  unfold AddressOk NoComma
  decide +kernel

/-! ### C57 -/

namespace Net

/-- Announcements arriving one after the other, each with its time of arrival. -/
def arrivals (X : DS.XEnv) (n : Node) (evs : List (Int × Peer)) : Node := evs.foldl (fun n e => announce X e.1 n e.2) n

/-- The announcements of this id that the node may believe: not its own, and recent on arrival. -/
def Candidate (n : Node) (evs : List (Int × Peer)) (id : String) (e : Int × Peer) : Prop :=
  e ∈ evs ∧ idOfPeer e.2 = id ∧ id ≠ serialize (addresses n) ∧ isRecent e.1 e.2.timestamp = true

/-- `r` is the newest of the announcements that satisfy `C`, or nothing if there is none. -/
def IsNewest (C : Int × Peer → Prop) : Option Peer → Prop
  | none => ∀ e, ¬ C e
  | some p => ∃ e, C e ∧ p = sortedPeer e.2 ∧ ∀ e', C e' → e'.2.timestamp ≤ p.timestamp

theorem isNewest_congr {C D : Int × Peer → Prop} (h : ∀ e, C e ↔ D e) {r : Option Peer} (hr : IsNewest C r) : IsNewest D r := by
  have : C = D := funext fun e => propext (h e)
  rw [← this]; exact hr

/-- One announcement, at a time `now`; the table is looked at no later than `lim`, by when nothing stored expires. -/
theorem announce_newest {X : DS.XEnv} (hX : X.Ok) (n0 n : Node) (ha : addresses n = addresses n0) (C : Int × Peer → Prop) (id : String)
    (lim now : Int) (p : Peer) (h1 : now ≤ lim) (h2 : lim ≤ now + 10 * minute)
    (hC : ∀ t, t ≤ lim → IsNewest C (peerAt t n.peers id)) :
    ∀ t, t ≤ lim → IsNewest (fun e => C e ∨ (e = (now, p) ∧ idOfPeer p = id ∧ id ≠ serialize (addresses n0) ∧
      isRecent now p.timestamp = true)) (peerAt t (announce X now n p).peers id) := by
  intro t ht
  unfold announce
  cases hc : announceCheck now n p with
  | none =>
    rcases announceCheck_none hc with hs | hr | ⟨old, ho, hle⟩
    · refine isNewest_congr ?_ (hC t ht)
      intro e
      refine ⟨Or.inl, ?_⟩
      rintro (h | ⟨-, h, h', -⟩)
      · exact h
      · simp only [similar, decide_eq_true_eq, ha] at hs
        exact absurd (hs.trans h).symm h'
    · refine isNewest_congr ?_ (hC t ht)
      intro e
      refine ⟨Or.inl, ?_⟩
      rintro (h | ⟨-, -, -, h⟩)
      · exact h
      · rw [hr] at h; cases h
    · by_cases hid : idOfPeer p = id
      · rw [hid] at ho
        have hnow := hC now h1
        rw [ho] at hnow
        -- the record found now is also the one found at `t`
        have hsame : ∀ q, peerAt t n.peers id = some q → q = old := by
          intro q hq
          obtain ⟨s, hs, -, rfl⟩ := peerAt_some.mp hq
          obtain ⟨s', hs', -, rfl⟩ := peerAt_some.mp ho
          rw [hs] at hs'
          rw [Option.some.inj hs']
        have ht' := hC t ht
        cases hq : peerAt t n.peers id with
        | none =>
          rw [hq] at ht'
          obtain ⟨e, he, -⟩ := hnow
          exact absurd he (ht' e)
        | some q =>
          rw [hsame q hq]
          obtain ⟨e, he, heq, hmax⟩ := hnow
          refine ⟨e, Or.inl he, heq, ?_⟩
          rintro e' (h' | ⟨h', -⟩)
          · exact hmax e' h'
          · rw [h']; exact hle
      · refine isNewest_congr ?_ (hC t ht)
        intro e
        refine ⟨Or.inl, ?_⟩
        rintro (h | ⟨-, h, -⟩)
        · exact h
        · exact absurd h hid
  | some r =>
    obtain ⟨hs, hr, rfl, hold⟩ := announceCheck_some hc
    simp only
    by_cases hid : idOfPeer p = id
    · have hput := peerAt_put hX (show t ≤ now + 10 * minute by omega) n.peers (idOfPeer p) (sortedPeer p)
      rw [hid] at hold hput
      rw [hid, hput]
      have hne : id ≠ serialize (addresses n0) := by
        intro e
        simp only [similar, decide_eq_false_iff_not, ha] at hs
        exact hs (e ▸ hid.symm)
      refine ⟨(now, p), Or.inr ⟨rfl, rfl, hne, hr⟩, rfl, ?_⟩
      rintro e' (h' | ⟨h', -⟩)
      · have hnow := hC now h1
        cases hq : peerAt now n.peers id with
        | none =>
          rw [hq] at hnow
          exact absurd h' (hnow e')
        | some q =>
          rw [hq] at hnow
          obtain ⟨e, -, -, hmax⟩ := hnow
          exact UInt64.le_of_lt (UInt64.lt_of_le_of_lt (hmax e' h') (hold q hq))
      · rw [h']; exact UInt64.le_refl _
    · rw [peerAt_put_ne hid]
      refine isNewest_congr ?_ (hC t ht)
      intro e
      refine ⟨Or.inl, ?_⟩
      rintro (h | ⟨-, h, -⟩)
      · exact h
      · exact absurd h hid

theorem arrivals_newest {X : DS.XEnv} (hX : X.Ok) (n0 : Node) (id : String) (lim : Int) : ∀ (evs : List (Int × Peer)) (n : Node)
    (C : Int × Peer → Prop), addresses n = addresses n0 → (∀ e ∈ evs, e.1 ≤ lim ∧ lim ≤ e.1 + 10 * minute) →
    (∀ t, t ≤ lim → IsNewest C (peerAt t n.peers id)) →
    ∀ t, t ≤ lim → IsNewest (fun e => C e ∨ Candidate n0 evs id e) (peerAt t (arrivals X n evs).peers id)
  | [], n, C, _, _, hC => by
    intro t ht
    refine isNewest_congr ?_ (hC t ht)
    intro e
    simp [Candidate]
  | (now, p) :: evs, n, C, ha, hw, hC => by
    have hw0 := hw (now, p) (by simp)
    have h1 := announce_newest hX n0 n ha C id lim now p hw0.1 hw0.2 hC
    have h2 := arrivals_newest hX n0 id lim evs (announce X now n p) _ ((announce_addresses X now n p).trans ha)
      (fun e he => hw e (by simp [he])) h1
    intro t ht
    have h3 := h2 t ht
    rw [arrivals, List.foldl_cons]
    refine isNewest_congr ?_ h3
    intro e
    simp only [Candidate, List.mem_cons]
    constructor
    · rintro ((h | ⟨rfl, h⟩) | ⟨h0, h⟩)
      · exact Or.inl h
      · exact Or.inr ⟨Or.inl rfl, h⟩
      · exact Or.inr ⟨Or.inr h0, h⟩
    · rintro (h | ⟨rfl | h0, h⟩)
      · exact Or.inl (Or.inl h)
      · exact Or.inl (Or.inr ⟨rfl, h⟩)
      · exact Or.inr ⟨h0, h⟩

end Net

/-- C57: whatever announcements arrive one after the other within ten minutes, the table holds for each id the newest one
that was recent on arrival. -/
theorem C57_newest {X : DS.XEnv} (hX : X.Ok) (n : Node) (hn : n.peers = []) (evs : List (Int × Peer)) (t : Int)
    (hw : ∀ e ∈ evs, e.1 ≤ t ∧ t ≤ e.1 + 10 * minute) (id : String) :
    IsNewest (Candidate n evs id) (peerAt t (arrivals X n evs).peers id) := by
  refine isNewest_congr ?_ (arrivals_newest hX n id t evs n (fun _ => False) rfl hw ?_ t (Int.le_refl _))
  · intro e; simp
  · intro t' _
    rw [hn]
    intro e h
    exact h

/-- C57: the order of arrival makes no difference to the timestamp held, and none to the record if no two of the
announcements have the same timestamp. -/
theorem C57_order {X : DS.XEnv} (hX : X.Ok) (n : Node) (hn : n.peers = []) (evs evs' : List (Int × Peer)) (hp : evs.Perm evs') (t : Int)
    (hw : ∀ e ∈ evs, e.1 ≤ t ∧ t ≤ e.1 + 10 * minute) (id : String) :
    (peerAt t (arrivals X n evs).peers id).map (·.timestamp) = (peerAt t (arrivals X n evs').peers id).map (·.timestamp) ∧
    ((∀ e ∈ evs, ∀ e' ∈ evs, idOfPeer e.2 = id → idOfPeer e'.2 = id → e.2.timestamp = e'.2.timestamp → e.2 = e'.2) →
      peerAt t (arrivals X n evs).peers id = peerAt t (arrivals X n evs').peers id) := by
  have h1 := C57_newest hX n hn evs t hw id
  have h2 := C57_newest hX n hn evs' t (fun e he => hw e (hp.mem_iff.mpr he)) id
  have h3 : IsNewest (Candidate n evs id) (peerAt t (arrivals X n evs').peers id) := by
    refine isNewest_congr ?_ h2
    intro e
    simp [Candidate, hp.mem_iff]
  cases hq1 : peerAt t (arrivals X n evs).peers id with
  | none =>
    cases hq2 : peerAt t (arrivals X n evs').peers id with
    | none => simp
    | some q =>
      rw [hq1] at h1; rw [hq2] at h3
      obtain ⟨e, he, -⟩ := h3
      exact absurd he (h1 e)
  | some p =>
    cases hq2 : peerAt t (arrivals X n evs').peers id with
    | none =>
      rw [hq1] at h1; rw [hq2] at h3
      obtain ⟨e, he, -⟩ := h1
      exact absurd he (h3 e)
    | some q =>
      rw [hq1] at h1; rw [hq2] at h3
      obtain ⟨e, he, rfl, hm⟩ := h1
      obtain ⟨e', he', rfl, hm'⟩ := h3
      have hts : e.2.timestamp = e'.2.timestamp := UInt64.le_antisymm (hm' e he) (hm e' he')
      refine ⟨by simp [sortedPeer, hts], ?_⟩
      intro hd
      rw [hd e he.1 e' he'.1 he.2.1 he'.2.1 hts]

/-! The machine: everything that happens to the node's record keeping, one event at a time. -/
namespace Net

structure NS where
  now : Int
  node : Node
  deriving DecidableEq, Repr

inductive Ev where
  | tick (now : Int)
  /-- `Join` or `AddPeer` from another node -/
  | announce (p : Peer)
  /-- a run of `SyncWithPeers`, over records it has taken from the table (maybe earlier) -/
  | sync (ps : List (Peer × List Peer))
  /-- the reply to a join request -/
  | learn (address : String)
  | close
  /-- go-cache janitor of the peer table: one item, if it has expired -/
  | janitor (id : String)

def step (X : DS.XEnv) (s : NS) : Ev → Option NS
  | .tick now => if s.now ≤ now then some { s with now := now } else none
  | .announce p => some { s with node := Net.announce X s.now s.node p }
  | .sync ps =>
    match syncWithPeers X s.now ps s.node with
    | .ok (n, _) => some { s with node := n }
    | _ => none
  | .learn a => some { s with node := Net.learn s.node a }
  | .close => some { s with node := Net.close s.node }
  | .janitor id =>
    match s.node.peers.get? id with
    | some x => if alive s.now x.expires then none else some { s with node := { s.node with peers := s.node.peers.erase id } }
    | none => none

def run (X : DS.XEnv) (s : NS) : List Ev → Option NS
  | [] => some s
  | e :: es => (step X s e).bind fun s => run X s es

/-- The states a run goes through, the first one included. -/
def states (X : DS.XEnv) (s : NS) : List Ev → List NS
  | [] => [s]
  | e :: es => s :: (match step X s e with | some s' => states X s' es | none => [])

/-- The record of this id that the node holds. -/
def held (s : NS) (id : String) : Option Peer := peerAt s.now s.node.peers id

theorem run_append (X : DS.XEnv) : ∀ (es fs : List Ev) (s : NS), run X s (es ++ fs) = (run X s es).bind fun s => run X s fs
  | [], _, _ => rfl
  | e :: es, fs, s => by
    rw [List.cons_append, run, run]
    cases step X s e with
    | none => rfl
    | some s' => exact run_append X es fs s'

/-- What the loop of `SyncWithPeers` does to the peer table and the flags. -/
theorem checkPeer_peers (now : Int) (n : Node) (p : Peer) :
    (checkPeer now n p).1 = n ∨ ((checkPeer now n p).1 = { n with peers := n.peers.erase (idOfPeer p) } ∧
      similar n p = false ∧ isRecent now p.timestamp = false) := by
  unfold checkPeer
  split
  · exact Or.inl rfl
  · rename_i hs
    split
    · exact Or.inl rfl
    · rename_i hr
      exact Or.inr ⟨rfl, by simpa using hs, by simpa using hr⟩

theorem addServices_eq (X : DS.XEnv) (now : Int) : ∀ (l : List String) (n : Node),
    ∃ sv, l.foldl (addService X now) n = { n with services := sv }
  | [], n => ⟨n.services, rfl⟩
  | s :: l, n => by
    obtain ⟨sv, h⟩ := addServices_eq X now l (addService X now n s)
    exact ⟨sv, by rw [List.foldl_cons, h]; rfl⟩

theorem syncPeer_eff {X : DS.XEnv} {now : Int} {inner : List Peer} {n n' : Node} {p : Peer} {out : List (String × Peer)}
    (h : syncPeer X now inner n p = .ok (n', out)) :
    ∃ t sv m, n' = { n with peers := t, services := sv, dataset := m } ∧ (t = n.peers ∨ t = n.peers.erase (idOfPeer p)) := by
  unfold syncPeer at h
  have hcp := checkPeer_peers now n p
  generalize checkPeer now n p = r at h hcp
  obtain ⟨n1, ok⟩ := r
  simp only at h hcp
  have h1 : ∃ t, n1 = { n with peers := t } ∧ (t = n.peers ∨ t = n.peers.erase (idOfPeer p)) := by
    rcases hcp with h1 | ⟨h1, -⟩
    · exact ⟨n.peers, h1, Or.inl rfl⟩
    · exact ⟨_, h1, Or.inr rfl⟩
  obtain ⟨t, rfl, ht⟩ := h1
  split at h
  · cases h
    exact ⟨t, n.services, n.dataset, rfl, ht⟩
  · split at h
    · cases h
      exact ⟨t, n.services, n.dataset, rfl, ht⟩
    · obtain ⟨sv, hsv⟩ := addServices_eq X now p.serviceList { n with peers := t }
      rw [hsv] at h
      cases hd : syncDatas X now (differentAddress { n with peers := t } (sortedPeer p)) p.dataList n.dataset with
      | ok m =>
        rw [hd] at h
        simp only [Res.bind] at h
        cases h
        exact ⟨t, sv, m, rfl, ht⟩
      | err e => rw [hd] at h; cases h
      | panic => rw [hd] at h; cases h

theorem syncLoop_eff {X : DS.XEnv} {now : Int} : ∀ (ps : List (Peer × List Peer)) {n n' : Node} {out : List (String × Peer)},
    syncLoop X now ps n = .ok (n', out) →
    ∃ t sv m, n' = { n with peers := t, services := sv, dataset := m } ∧ ∀ id s, t.get? id = some s → n.peers.get? id = some s
  | [], n, n', out, h => by
    simp only [syncLoop, Res.ok.injEq, Prod.mk.injEq] at h
    obtain ⟨rfl, -⟩ := h
    exact ⟨_, _, _, rfl, fun _ _ h => h⟩
  | (p, inner) :: ps, n, n', out, h => by
    rw [syncLoop] at h
    cases h1 : syncPeer X now inner n p with
    | err e => rw [h1] at h; cases h
    | panic => rw [h1] at h; cases h
    | ok r =>
      obtain ⟨n1, o1⟩ := r
      rw [h1] at h
      simp only [Res.bind] at h
      cases h2 : syncLoop X now ps n1 with
      | err e => rw [h2] at h; cases h
      | panic => rw [h2] at h; cases h
      | ok r =>
        obtain ⟨n2, o2⟩ := r
        rw [h2] at h
        simp only [Res.ok.injEq, Prod.mk.injEq] at h
        obtain ⟨rfl, -⟩ := h
        obtain ⟨t1, sv1, m1, rfl, ht1⟩ := syncPeer_eff h1
        obtain ⟨t2, sv2, m2, rfl, ht2⟩ := syncLoop_eff ps h2
        refine ⟨t2, sv2, m2, rfl, ?_⟩
        intro id s hs
        have := ht2 id s hs
        simp only at this
        rcases ht1 with rfl | rfl
        · exact this
        · rw [AMap.get?_erase] at this
          split at this
          · cases this
          · exact this

end Net

/-- C57: one event never replaces a record held by an older one. -/
theorem C57_step {X : DS.XEnv} (s s' : NS) (e : Ev) (h : step X s e = some s') (id : String) (p p' : Peer)
    (hp : held s id = some p) (hp' : held s' id = some p') : p.timestamp ≤ p'.timestamp := by
  have same : s'.node.peers.get? id = s.node.peers.get? id → p.timestamp ≤ p'.timestamp := by
    intro hg
    obtain ⟨x, hx, -, rfl⟩ := peerAt_some.mp hp
    obtain ⟨y, hy, -, rfl⟩ := peerAt_some.mp hp'
    rw [hg, hx] at hy
    rw [← Option.some.inj hy]
    exact UInt64.le_refl _
  cases e with
  | tick now =>
    simp only [step] at h
    split at h <;> cases h
    exact same rfl
  | announce q =>
    simp only [step, Option.some.injEq] at h
    subst h
    simp only [held, Net.announce] at hp' same
    split at hp'
    · rename_i hc
      rw [hc] at same
      exact same rfl
    · rename_i id2 q2 hc
      rw [hc] at same
      obtain ⟨-, -, hr, hold⟩ := announceCheck_some hc
      cases hr
      by_cases hid : idOfPeer q = id
      · have hlt := hold p (by rw [hid]; exact hp)
        rw [hid] at hp'
        obtain ⟨y, hy, -, rfl⟩ := peerAt_some.mp hp'
        simp only [putPeer, AMap.get?_set_self, Option.some.injEq] at hy
        subst hy
        exact UInt64.le_of_lt hlt
      · refine same ?_
        simp only [putPeer]
        exact AMap.get?_set_ne _ _ hid
  | sync ps =>
    simp only [step] at h
    split at h
    · rename_i n o hs
      cases h
      unfold syncWithPeers at hs
      cases hl : syncLoop X s.now ps s.node with
      | ok r =>
        rw [hl] at hs
        simp only [Res.bind, Res.ok.injEq, Prod.mk.injEq] at hs
        obtain ⟨rfl, -⟩ := hs
        obtain ⟨t, sv, m, he, ht⟩ := syncLoop_eff ps (n' := r.1) (out := r.2) hl
        refine same ?_
        obtain ⟨y, hy, -, rfl⟩ := peerAt_some.mp hp'
        simp only [he] at hy ⊢
        rw [hy, ht id y hy]
      | err e => rw [hl] at hs; cases hs
      | panic => rw [hl] at hs; cases hs
    · cases h
  | learn a =>
    simp only [step, Option.some.injEq] at h
    subst h
    refine same ?_
    simp only [Net.learn]
    split
    · rfl
    · split <;> rfl
  | close =>
    simp only [step, Option.some.injEq] at h
    subst h
    exact same rfl
  | janitor id0 =>
    simp only [step] at h
    split at h
    · split at h
      · cases h
      · cases h
        refine same ?_
        obtain ⟨y, hy, -, rfl⟩ := peerAt_some.mp hp'
        simp only [AMap.get?_erase] at hy ⊢
        split at hy
        · cases hy
        · rename_i hne
          rw [if_neg hne]
    · cases h

/-- C57: through any run during which a record of the id is held all the time, its timestamp does not decrease. -/
theorem C57_monotone {X : DS.XEnv} (id : String) : ∀ (es : List Ev) (s s' : NS), run X s es = some s' →
    (∀ x ∈ states X s es, (held x id).isSome) → ∀ p p', held s id = some p → held s' id = some p' → p.timestamp ≤ p'.timestamp
  | [], s, s', h, _, p, p', hp, hp' => by
    simp only [run, Option.some.injEq] at h
    subst h
    rw [hp] at hp'
    rw [Option.some.inj hp']
    exact UInt64.le_refl _
  | e :: es, s, s', h, hh, p, p', hp, hp' => by
    rw [run] at h
    cases hs : step X s e with
    | none => rw [hs] at h; cases h
    | some s1 =>
      rw [hs] at h
      have hst : states X s (e :: es) = s :: states X s1 es := by rw [states, hs]
      rw [hst] at hh
      have h1 : s1 ∈ states X s1 es := by cases es <;> simp [states]
      have := hh s1 (by simp [h1])
      obtain ⟨q, hq⟩ := Option.isSome_iff_exists.mp this
      exact UInt64.le_trans (C57_step s s1 e hs id p q hp hq)
        (C57_monotone id es s1 s' h (fun x hx => hh x (by simp [hx])) q p' hq hp')

/-! A concrete case: three announcements of one peer, out of order. -/
namespace Net

def exNow : Int := 1700000000 * 1000000000
def exPeer (ts : UInt64) : Peer := ⟨"", ["b:1", "a:1"], ts, ["s:1"], []⟩
def exNode : Node := newNode 7000 ["me:7000"] [] []
def exEvs : List (Int × Peer) := [(exNow, exPeer 1699999900), (exNow + minute, exPeer 1700000010), (exNow + 2 * minute, exPeer 1699999990)]

end Net

example : (∀ e ∈ exEvs, e.1 ≤ exNow + 3 * minute ∧ exNow + 3 * minute ≤ e.1 + 10 * minute) ∧
    peerAt (exNow + 3 * minute) (arrivals (DS.toy 0) exNode exEvs).peers "a:1,b:1" =
      some ⟨"", ["a:1", "b:1"], 1700000010, ["s:1"], []⟩ ∧
    peerAt (exNow + 3 * minute) (arrivals (DS.toy 0) exNode exEvs.reverse).peers "a:1,b:1" =
      some ⟨"", ["a:1", "b:1"], 1700000010, ["s:1"], []⟩ := by
  decide +kernel

example : ∃ s', run (DS.toy 0) ⟨exNow, exNode⟩ [.announce (exPeer 1699999900), .tick (exNow + minute), .announce (exPeer 1700000010),
      .announce (exPeer 1699999990)] = some s' ∧ (held s' "a:1,b:1").map (·.timestamp) = some 1700000010 := by
  have h := (show ((run (DS.toy 0) ⟨exNow, exNode⟩ [.announce (exPeer 1699999900), .tick (exNow + minute), .announce (exPeer 1700000010),
      .announce (exPeer 1699999990)]).map fun s => (held s "a:1,b:1").map (·.timestamp)) = some (some 1700000010) by decide +kernel)
  obtain ⟨s', h1, h2⟩ := Option.map_eq_some_iff.mp h
  exact ⟨s', h1, h2⟩

/-! ### C58 -/

/-- C58: an announcement with the node's own addresses, or 300 seconds old or more, changes nothing. -/
theorem C58_ignored (X : DS.XEnv) (now : Int) (n : Node) (p : Peer)
    (h : p.addressList.Perm (addresses n) ∨
      (0 ≤ now ∧ now / 1000000000 < 18446744073709551616 ∧ (p.timestamp.toNat : Int) + 300 ≤ now / 1000000000)) :
    announce X now n p = n := by
  have : announceCheck now n p = none := by
    cases hc : announceCheck now n p with
    | none => rfl
    | some r =>
      obtain ⟨hs, hr, -⟩ := announceCheck_some hc
      rcases h with h | ⟨h0, h1, h2⟩
      · have : similar n p = true := by
          simp only [similar, decide_eq_true_eq]
          exact congrArg join (sortStrings_eq.mpr h.symm)
        rw [this] at hs; cases hs
      · rw [isRecent_old (by rw [seconds_toNat h0 h1]; omega)] at hr
        cases hr
  unfold announce
  rw [this]

/-- C58, as the remote calls see it: the peer table after `Join` and `AddPeer` is the one before. -/
theorem C58_join (X : DS.XEnv) (now : Int) (loopback : String → Bool) (remote : Option String) (n n' : Node) (p : Peer) (a : String)
    (h : p.addressList.Perm (addresses n) ∨
      (0 ≤ now ∧ now / 1000000000 < 18446744073709551616 ∧ (p.timestamp.toNat : Int) + 300 ≤ now / 1000000000))
    (hj : joinRpc X now loopback remote n (some p) = .ok (n', a)) : n' = n := by
  simp only [joinRpc, announcePtr, Res.bind, Res.ok.injEq, Prod.mk.injEq, C58_ignored X now n p h] at hj
  exact hj.1.symm

/-- C58: synchronisation adds no record; those it removes are too old (the clock read in seconds). -/
theorem C58_sync (X : DS.XEnv) (now : Int) (n n' : Node) (p : Peer) (ok : Bool) (h : checkPeer now n p = (n', ok)) (id : String) :
    (n'.peers.get? id = n.peers.get? id ∨ (n'.peers.get? id = none ∧ id = idOfPeer p ∧ isRecent now p.timestamp = false)) ∧
    (ok = true ↔ similar n p = false ∧ isRecent now p.timestamp = true) := by
  unfold checkPeer at h
  split at h
  · rename_i hs
    cases h
    exact ⟨Or.inl rfl, by simp [hs]⟩
  · rename_i hs
    split at h
    · rename_i hr
      cases h
      exact ⟨Or.inl rfl, by simp [hs, hr]⟩
    · rename_i hr
      cases h
      refine ⟨?_, by simp [hr]⟩
      by_cases hid : idOfPeer p = id
      · exact Or.inr ⟨by rw [hid]; exact AMap.get?_erase_self _ _, hid.symm, by simpa using hr⟩
      · exact Or.inl (AMap.get?_erase_ne _ hid)

example : (["me:7000"].Perm (addresses exNode)) ∧ announce (DS.toy 0) exNow exNode ⟨"", ["me:7000"], 1700000000, [], []⟩ = exNode ∧
    announce (DS.toy 0) exNow exNode (exPeer 1699999700) = exNode ∧
    announce (DS.toy 0) exNow exNode (exPeer 1699999701) ≠ exNode := by
  refine ⟨?_, by decide +kernel⟩
  have : addresses exNode = ["me:7000"] := by decide +kernel
  rw [this]

/-! ### C59 -/

/-- C59, full statement: a node that holds a record of a peer accepts the peer's next announcement, when that is made with a
clock that is right. -/
def C59_statement : Prop := ∀ (X : DS.XEnv), X.Ok → ∀ (now : Int) (n : Node) (p : Peer), 0 ≤ now →
  now / 1000000000 < 18446744073709551316 → similar n p = false → p.timestamp = seconds now →
  peerAt now (announce X now n p).peers (idOfPeer p) = some (sortedPeer p)

/-- A record that came with a timestamp in the year 2100 keeps out the announcements of today. -/
theorem C59_fails : ¬ C59_statement := by
  intro h
  have := h (DS.toy 0) (DS.toy_ok 0) (exNow + minute) (announce (DS.toy 0) exNow exNode (exPeer 4102444800)) (exPeer 1700000060)
    (by decide) (by decide) (by decide +kernel) (by decide +kernel)
  revert this
  decide +kernel

/-- While such a record is held, nothing with a smaller timestamp changes the table. -/
theorem C59_blocked (X : DS.XEnv) (now : Int) (n : Node) (p old : Peer) (ho : peerAt now n.peers (idOfPeer p) = some old)
    (hle : p.timestamp ≤ old.timestamp) : announce X now n p = n := by
  have : announceCheck now n p = none := by
    cases hc : announceCheck now n p with
    | none => rfl
    | some r =>
      obtain ⟨-, -, -, hold⟩ := announceCheck_some hc
      exact absurd (hold old ho) (UInt64.not_lt.mpr hle)
  unfold announce
  rw [this]

/-- C59, the part that holds: with the clock right, the announcement is accepted if no record is held or the one held is
older. -/
theorem C59_partial {X : DS.XEnv} (hX : X.Ok) (now : Int) (n : Node) (p : Peer) (h0 : 0 ≤ now)
    (h1 : now / 1000000000 < 18446744073709551316) (hs : similar n p = false) (ht : p.timestamp = seconds now)
    (ho : ∀ old, peerAt now n.peers (idOfPeer p) = some old → old.timestamp < seconds now) :
    peerAt now (announce X now n p).peers (idOfPeer p) = some (sortedPeer p) := by
  have hr : isRecent now p.timestamp = true := by
    have := seconds_toNat h0 (by omega)
    refine isRecent_new ?_ ?_ <;> rw [ht, this] <;> omega
  have : announceCheck now n p = some (idOfPeer p, sortedPeer p) := by
    cases hc : announceCheck now n p with
    | none =>
      rcases announceCheck_none hc with h | h | ⟨old, h, hle⟩
      · rw [hs] at h; cases h
      · rw [hr] at h; cases h
      · have := ho old h
        rw [ht] at hle
        exact absurd this (UInt64.not_lt.mpr hle)
    | some r => rw [(announceCheck_some hc).2.2.1]
  unfold announce
  rw [this]
  exact peerAt_put hX (by simp [minute]; omega) _ _ _

/-- C59: and at the latest fifteen minutes after the wrong announcement the record is gone, if it does not come in again. -/
theorem C59_expires {X : DS.XEnv} (hX : X.Ok) (now t : Int) (m : PeerTable) (id : String) (p : Peer) (ht : now + 15 * minute < t) :
    peerAt t (putPeer X now m id p) id = none := by
  obtain ⟨e, he, -, h2⟩ := hX.extend (now + 5 * minute) now (10 * minute) (by simp [minute]; omega) (by simp [minute])
  simp only [minute] at *
  unfold peerAt putPeer
  rw [AMap.get?_set_self]
  simp only [minute, he, Option.filter, alive]
  rw [decide_eq_false (by omega)]
  rfl

example : (∀ old, peerAt (exNow + minute) (announce (DS.toy 0) exNow exNode (exPeer 1699999990)).peers (idOfPeer (exPeer 1700000060)) =
    some old → old.timestamp < seconds (exNow + minute)) ∧ (exPeer 1700000060).timestamp = seconds (exNow + minute) ∧
    peerAt (exNow + minute) (announce (DS.toy 0) exNow exNode (exPeer 1699999990)).peers (idOfPeer (exPeer 1700000060)) ≠ none := by
  have : peerAt (exNow + minute) (announce (DS.toy 0) exNow exNode (exPeer 1699999990)).peers (idOfPeer (exPeer 1700000060)) =
      some (sortedPeer (exPeer 1699999990)) := by decide +kernel
  rw [this]
  refine ⟨?_, by decide +kernel, by simp⟩
  intro old ho
  rw [← Option.some.inj ho]
  decide +kernel

/-! ### C60 -/

/-- C60: the announced list has every known and advertised address once, and nothing else. -/
theorem C60_addresses (X : DS.XEnv) (now : Int) (order : List String) (n n' : Node) (p : Peer)
    (h : nodeInfo X now order n = .ok (n', p)) :
    p.addressList.Nodup ∧ (∀ a, a ∈ p.addressList ↔ a ∈ n.knownIds ∨ a ∈ n.advertisedIds) ∧
    n'.knownIds = n.knownIds ∧ n'.advertisedIds = n.advertisedIds ∧ n'.peers = n.peers := by
  unfold nodeInfo at h
  cases hw : DS.walk X now order n.dataset with
  | err e => rw [hw] at h; cases h
  | panic => rw [hw] at h; cases h
  | ok r =>
    rw [hw] at h
    simp only [Res.bind, Res.ok.injEq, Prod.mk.injEq] at h
    obtain ⟨rfl, rfl⟩ := h
    refine ⟨nodup_uniqueGo _ _, ?_, rfl, rfl, rfl⟩
    intro a
    simp [addresses, unique, mem_uniqueGo]

/-- C60: learning the same address again changes nothing; learning it at all makes it an announced address, and adds no
other. -/
theorem C60_learn (n : Node) (a : String) :
    Net.learn (Net.learn n a) a = Net.learn n a ∧
    (∀ x, x ∈ (Net.learn n a).knownIds ↔ x ∈ n.knownIds ∨ (a ≠ "" ∧ x = feedback a n.port)) ∧
    (n.knownIds.Nodup → (Net.learn n a).knownIds.Nodup) ∧ (Net.learn n a).advertisedIds = n.advertisedIds := by
  by_cases h0 : a = ""
  · simp [Net.learn, h0]
  · by_cases h1 : feedback a n.port ∈ n.knownIds
    · simp only [Net.learn, h0, if_false, h1, if_true, true_and, ne_eq, not_false_iff]
      refine ⟨?_, fun h => h, trivial⟩
      intro x
      refine ⟨Or.inl, ?_⟩
      rintro (h | rfl)
      · exact h
      · exact h1
    · have h2 : Net.learn n a = { n with knownIds := n.knownIds ++ [feedback a n.port] } := by
        simp [Net.learn, h0, h1]
      rw [h2]
      refine ⟨by simp [Net.learn, h0], by simp [h0], ?_, rfl⟩
      intro hn
      refine List.nodup_append.mpr ⟨hn, by simp, ?_⟩
      intro x hx y hy
      rw [List.mem_singleton.mp hy]
      intro e
      exact h1 (e ▸ hx)

/-- C60: after any history of joins, a fresh node knows exactly the addresses it was told, each once. -/
theorem C60_history (port : UInt32) (adv sv : List String) (ix : DS.DL) (as : List String) :
    (as.foldl Net.learn (newNode port adv sv ix)).knownIds.Nodup ∧
    ∀ x, x ∈ (as.foldl Net.learn (newNode port adv sv ix)).knownIds ↔ ∃ a ∈ as, a ≠ "" ∧ x = feedback a port := by
  have key : ∀ (as : List String) (n : Node), n.knownIds.Nodup →
      (as.foldl Net.learn n).knownIds.Nodup ∧
      ∀ x, x ∈ (as.foldl Net.learn n).knownIds ↔ x ∈ n.knownIds ∨ ∃ a ∈ as, a ≠ "" ∧ x = feedback a n.port := by
    intro as
    induction as with
    | nil => intro n h; exact ⟨h, by simp⟩
    | cons a as ih =>
      intro n h
      have hp : (Net.learn n a).port = n.port := by
        unfold Net.learn; split
        · rfl
        · split <;> rfl
      obtain ⟨h1, h2⟩ := ih (Net.learn n a) ((C60_learn n a).2.2.1 h)
      refine ⟨h1, ?_⟩
      intro x
      rw [List.foldl_cons, h2 x, (C60_learn n a).2.1 x, hp]
      simp only [List.mem_cons, exists_eq_or_imp, or_assoc]
  have := key as (newNode port adv sv ix) List.nodup_nil
  simpa [newNode] using this

example : ∃ p, nodeInfo (DS.toy 0) exNow [] (["10.0.0.1", "10.0.0.1", "me", ""].foldl Net.learn exNode) =
    .ok (["10.0.0.1", "me"].foldl Net.learn exNode, p) ∧ p.addressList = ["10.0.0.1:7000", "me:7000"] := by
  refine ⟨_, rfl, ?_⟩
  decide +kernel

/-! ### C61 -/

/-- `a` is the first of the list that is not in `own`. -/
def Net.FirstNotIn (own l : List String) (a : String) : Prop := ∃ pre post, l = pre ++ a :: post ∧ (∀ x ∈ pre, x ∈ own) ∧ a ∉ own

/-- C61, one peer: either nothing is sent, because the record is the node's own or too old or has no address (other than the
empty one) that is not ours; or there is a first such address, and the records sent to it are those that do not list it. -/
theorem C61_peer (X : DS.XEnv) (now : Int) (inner : List Peer) (n n' : Node) (p : Peer) (out : List (String × Peer))
    (h : syncPeer X now inner n p = .ok (n', out)) :
    (out = [] ∧ (similar n p = true ∨ isRecent now p.timestamp = false ∨ FirstNotIn (addresses n) (sortStrings p.addressList) "" ∨
      ∀ a ∈ p.addressList, a ∈ addresses n)) ∨
    ∃ to, FirstNotIn (addresses n) (sortStrings p.addressList) to ∧ to ≠ "" ∧
      out = (inner.filter fun q => decide (to ∉ q.addressList)).map fun q => (to, q) := by
  unfold syncPeer at h
  unfold checkPeer at h
  split at h
  · rename_i n1 ok hck
    split at h
    · rename_i hok
      cases h
      refine Or.inl ⟨rfl, ?_⟩
      split at hck
      · rename_i hs; exact Or.inl hs
      · split at hck
        · cases hck; cases hok
        · rename_i hr; exact Or.inr (Or.inl (by simpa using hr))
    · rename_i hok
      have hn1 : n1 = n := by
        split at hck
        · cases hck; rfl
        · split at hck
          · cases hck; rfl
          · cases hck; simp at hok
      subst hn1
      have hspec := firstDifferent_spec (addresses n1) (sortStrings p.addressList)
      dsimp only at h
      split at h
      · rename_i hid
        simp only [differentAddress, sortedPeer] at hid
        cases h
        refine Or.inl ⟨rfl, ?_⟩
        rw [hid] at hspec
        rcases hspec with hspec | ⟨hspec, -⟩
        · exact Or.inr (Or.inr (Or.inl hspec))
        · exact Or.inr (Or.inr (Or.inr fun a ha => hspec a (mem_sortStrings.mpr ha)))
      · rename_i hid
        have hd : differentAddress n1 (sortedPeer p) = firstDifferent (addresses n1) (sortStrings p.addressList) := rfl
        rw [hd] at h hid
        generalize firstDifferent (addresses n1) (sortStrings p.addressList) = to at *
        rcases hspec with hspec | ⟨-, hspec⟩
        · refine Or.inr ⟨to, hspec, hid, ?_⟩
          cases hm : syncDatas X now to p.dataList (List.foldl (addService X now) n1 p.serviceList).dataset with
          | err e => rw [hm] at h; cases h
          | panic => rw [hm] at h; cases h
          | ok m =>
            rw [hm] at h
            simp only [Res.bind, Res.ok.injEq, Prod.mk.injEq] at h
            rw [← h.2]
            congr 1
            refine List.filter_congr ?_
            intro q _
            have := sends_iff to q
            by_cases hq : to ∈ q.addressList
            · have h1 : sends to q = false := by
                cases hsd : sends to q with
                | false => rfl
                | true => exact absurd hq (this.mp hsd).2
              simp [h1, hq]
            · rw [this.mpr ⟨hid, hq⟩]; simp [hq]
        · exact absurd hspec hid

/-- C61: nothing that a synchronisation sends goes to one of our addresses, or to an address listed in the record sent. -/
theorem C61_sent (X : DS.XEnv) (now : Int) : ∀ (ps : List (Peer × List Peer)) (n n' : Node) (out : List (String × Peer)),
    syncLoop X now ps n = .ok (n', out) → ∀ to q, (to, q) ∈ out → to ∉ addresses n ∧ to ∉ q.addressList ∧
      ∃ e ∈ ps, FirstNotIn (addresses n) (sortStrings e.1.addressList) to ∧ q ∈ e.2
  | [], n, n', out, h => by
    simp only [syncLoop, Res.ok.injEq, Prod.mk.injEq] at h
    rw [← h.2]
    intro to q hq
    simp at hq
  | (p, inner) :: ps, n, n', out, h => by
    rw [syncLoop] at h
    cases h1 : syncPeer X now inner n p with
    | err e => rw [h1] at h; cases h
    | panic => rw [h1] at h; cases h
    | ok r =>
      obtain ⟨n1, o1⟩ := r
      rw [h1] at h
      simp only [Res.bind] at h
      cases h2 : syncLoop X now ps n1 with
      | err e => rw [h2] at h; cases h
      | panic => rw [h2] at h; cases h
      | ok r =>
        obtain ⟨n2, o2⟩ := r
        rw [h2] at h
        simp only [Res.ok.injEq, Prod.mk.injEq] at h
        obtain ⟨rfl, rfl⟩ := h
        have ha : addresses n1 = addresses n := by
          obtain ⟨t1, sv1, m1, rfl, -⟩ := syncPeer_eff h1
          rfl
        intro to q hq
        rcases List.mem_append.mp hq with hq | hq
        · rcases C61_peer X now inner n n1 p o1 h1 with ⟨rfl, -⟩ | ⟨t, ht, -, rfl⟩
          · simp at hq
          · obtain ⟨q', hq', he⟩ := List.mem_map.mp hq
            cases he
            obtain ⟨hq1, hq2⟩ := List.mem_filter.mp hq'
            obtain ⟨pre, post, e1, e2, e3⟩ := ht
            exact ⟨e3, by simpa using hq2, (p, inner), by simp, ⟨pre, post, e1, e2, e3⟩, hq1⟩
        · have := C61_sent X now ps n1 n2 o2 h2 to q hq
          rw [ha] at this
          obtain ⟨a1, a2, e, he, a3⟩ := this
          exact ⟨a1, a2, e, by simp [he], a3⟩

namespace Net
def exQ : Peer := ⟨"", ["c:1"], 1700000000, [], []⟩
end Net

example : ∃ n', syncLoop (DS.toy 0) exNow [(⟨"", ["me:7000", "b:1", "a:1"], 1700000000, ["s:1"], []⟩, [⟨"", ["a:1", "b:1", "me:7000"], 1700000000, ["s:1"], []⟩, exQ])] exNode =
    .ok (n', [("a:1", exQ)]) := by
  have h := (show (match syncLoop (DS.toy 0) exNow [(⟨"", ["me:7000", "b:1", "a:1"], 1700000000, ["s:1"], []⟩, [⟨"", ["a:1", "b:1", "me:7000"], 1700000000, ["s:1"], []⟩, exQ])] exNode with
    | .ok (_, o) => decide (o = [("a:1", exQ)]) | _ => false) = true by decide +kernel)
  split at h
  · rename_i n' o ho
    exact ⟨n', by rw [ho, of_decide_eq_true h]⟩
  · cases h

/-! ### C63 -/

/-- C63: the addresses of the command line, in order; the ones without a colon get the port. -/
theorem C63_advertised (l : List String) (port : Int) (hl : ∀ a ∈ l, NoComma a) (hne : l ≠ [""]) :
    advertised (join l) port = l.map (fun a => if ':' ∈ a.toList then a else a ++ ":" ++ toString port) ∧
    (∀ a ∈ advertised (join l) port, ':' ∈ a.toList) := by
  have h1 : (if join l = "" then [] else split (join l)) = l := by
    by_cases h0 : l = []
    · subst h0; rfl
    · have hs := split_join l h0 hl
      split
      · rename_i he
        rw [he] at hs
        have : split "" = [""] := by decide +kernel
        exact absurd (hs.symm.trans this) hne
      · exact hs
  have h2 : ∀ a : String, hasColon a = true ↔ ':' ∈ a.toList := by simp [hasColon]
  have h3 : advertised (join l) port = l.map (fun a => if ':' ∈ a.toList then a else a ++ ":" ++ toString port) := by
    unfold advertised
    rw [h1]
    simp only [h2]
  refine ⟨h3, ?_⟩
  intro a ha
  rw [h3] at ha
  obtain ⟨b, -, rfl⟩ := List.mem_map.mp ha
  split
  · assumption
  · have : ":".toList = [':'] := by decide +kernel
    simp [String.toList_append, this]

/-- C63: every string is the comma-separated list of such addresses. -/
theorem C63_every (s : String) : ∃ l, (∀ a ∈ l, NoComma a) ∧ l ≠ [""] ∧ s = join l := by
  have key : ∀ (cs acc : List Char), ',' ∉ acc →
      (∀ x ∈ splitChars acc cs, ',' ∉ x) ∧ splitChars acc cs ≠ [] ∧ (join ((splitChars acc cs).map String.ofList)).toList = acc ++ cs := by
    intro cs
    induction cs with
    | nil => intro acc h; simp [splitChars, h, join]
    | cons c cs ih =>
      intro acc h
      rw [splitChars]
      split
      · rename_i hc
        obtain ⟨h1, h2, h3⟩ := ih [] (by simp)
        refine ⟨?_, by simp, ?_⟩
        · intro x hx
          rcases List.mem_cons.mp hx with hx | hx
          · rw [hx]; exact h
          · exact h1 x hx
        · cases hsp : splitChars [] cs with
          | nil => exact absurd hsp h2
          | cons y ys =>
            rw [hsp] at h3
            have hcm : ",".toList = [','] := by decide +kernel
            simp only [List.map_cons, join, String.toList_append, hcm, String.toList_ofList] at h3 ⊢
            rw [h3, hc]
            simp
      · rename_i hc
        obtain ⟨h1, h2, h3⟩ := ih (acc ++ [c]) (by simp [h, Ne.symm hc])
        exact ⟨h1, h2, by rw [h3]; simp⟩
  obtain ⟨h1, h2, h3⟩ := key s.toList [] (by simp)
  by_cases he : s = ""
  · exact ⟨[], by simp, by simp, he⟩
  · refine ⟨split s, ?_, ?_, ?_⟩
    · intro a ha
      obtain ⟨x, hx, rfl⟩ := List.mem_map.mp ha
      simpa [NoComma] using h1 x hx
    · intro h
      apply he
      have : (join (split s)).toList = s.toList := by simpa [split] using h3
      rw [h] at this
      exact (String.toList_inj.mp this).symm
    · exact (String.toList_inj.mp (by simpa [split] using h3)).symm

example : advertised "10.0.0.1,host:80,b" 7000 = ["10.0.0.1:7000", "host:80", "b:7000"] ∧
    (∀ a ∈ ["10.0.0.1", "host:80", "b"], NoComma a) ∧ join ["10.0.0.1", "host:80", "b"] = "10.0.0.1,host:80,b" := by
  refine ⟨by decide +kernel, ?_, by decide +kernel⟩
  unfold NoComma
  decide +kernel

end Veri
