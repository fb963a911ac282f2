import Verif.Gossip.Model
/-
What each step of the cluster does to the peer tables.
-/
set_option autoImplicit false
set_option linter.unusedSectionVars false
namespace Veri
namespace Gossip
open Net

variable {ι : Type} [DecidableEq ι]

/-- The table of `n` has a record of the node `j`, not older than `τ`. -/
def Knows (addr : ι → List String) (n : Node) (j : ι) (τ : Int) : Prop :=
  ∃ s, n.peers.get? (serialize (addr j)) = some s ∧ τ ≤ (s.peer.timestamp.toNat : Int)

theorem Knows.le {addr : ι → List String} {n : Node} {j : ι} {τ τ' : Int} (h : Knows addr n j τ) (hle : τ' ≤ τ) : Knows addr n j τ' := by
  obtain ⟨s, h1, h2⟩ := h
  exact ⟨s, h1, by omega⟩

theorem serialize_perm {l l' : List String} (h : l.Perm l') : serialize l = serialize l' := congrArg Net.join (sortStrings_eq.mpr h)

section
variable {W : World ι} {addr : ι → List String} {port : ι → UInt32}

theorem id_inj (hW : W.Ok addr port) {i j : ι} (h : serialize (addr i) = serialize (addr j)) : i = j := by
  have hp : (addr i).Perm (addr j) := sortStrings_eq.mp (join_inj (fun a ha => hW.ok i a (mem_sortStrings.mp ha))
    (fun a ha => hW.ok j a (mem_sortStrings.mp ha)) h)
  obtain ⟨a, ha⟩ := List.exists_mem_of_ne_nil _ (hW.nonempty i)
  have h1 := hW.dial i a ha
  rw [hW.dial j a (hp.mem_iff.1 ha)] at h1
  exact (Option.some.inj h1).symm

theorem recent {t : Int} (hc : Clock t) {ts : UInt64} (hp : (ts.toNat : Int) ≤ t / 1000000000) (h : t / 1000000000 < (ts.toNat : Int) + 300) :
    isRecent t ts = true := by
  obtain ⟨h0, h1⟩ := hc
  have := seconds_toNat h0 (by omega)
  exact isRecent_new (by omega) (by omega)

theorem RecOf.id {t : Int} {k : ι} {p : Peer} (h : RecOf addr t k p) : idOfPeer p = serialize (addr k) := serialize_perm h.list

theorem RecOf.sorted {t : Int} {k : ι} {p : Peer} (h : RecOf addr t k p) : RecOf addr t k (sortedPeer p) :=
  ⟨(sortStrings_perm _).trans h.list, h.past, h.keep⟩

theorem RecOf.later {t t' : Int} {k : ι} {p : Peer} (h : RecOf addr t k p) (ht : t ≤ t') : RecOf addr t' k p :=
  ⟨h.list, by have := h.past; omega, h.keep⟩

theorem Settled.later {t t' : Int} {i : ι} {n : Node} (h : Settled addr port t i n) (ht : t ≤ t') : Settled addr port t' i n :=
  ⟨h.own, h.port, h.data, h.nodup, fun id s hs => by
    obtain ⟨k, h1, h2, h3⟩ := h.recs id s hs
    exact ⟨k, h1, h2.later ht, h3⟩⟩

theorem similar_iff (hW : W.Ok addr port) {t : Int} {i k : ι} {n : Node} {p : Peer} (hn : Settled addr port t i n) (hp : RecOf addr t k p) :
    similar n p = decide (i = k) := by
  unfold similar
  rw [serialize_perm hn.own, hp.id]
  by_cases h : i = k
  · subst h; simp
  · have : serialize (addr i) ≠ serialize (addr k) := fun e => h (id_inj hW e)
    simp [h, this]

/-- A record that is in the table is found, while it is young. -/
theorem Settled.alive {t : Int} {i j : ι} {n : Node} (hn : Settled addr port t i n) {τ : Int} (h : Knows addr n j τ)
    (ht : t / 1000000000 < τ + 300) : ∃ s, n.peers.get? (serialize (addr j)) = some s ∧ τ ≤ (s.peer.timestamp.toNat : Int) ∧
      Net.alive t s.expires = true := by
  obtain ⟨s, h1, h2⟩ := h
  obtain ⟨k, -, -, e, h5, h6⟩ := hn.recs _ _ h1
  refine ⟨s, h1, h2, ?_⟩
  rw [h5]
  unfold minute at h6
  simp only [Net.alive, decide_eq_true_eq]
  omega

/-! ### A record arrives -/

theorem announce_settled {X : DS.XEnv} (hX : X.Ok) {t : Int} {j k : ι} {n : Node} {p : Peer} (hn : Settled addr port t j n)
    (hp : RecOf addr t k p) : Settled addr port t j (announce X t n p) := by
  unfold announce
  cases h : announceCheck t n p with
  | none => exact hn
  | some r =>
    obtain ⟨-, -, rfl, -⟩ := announceCheck_some h
    obtain ⟨e, he, he1, -⟩ := hX.extend (t + 5 * minute) t (10 * minute) (by unfold minute; omega) (by decide)
    refine ⟨hn.own, hn.port, hn.data, AMap.nodup_set hn.nodup _ _, ?_⟩
    intro id s hs
    simp only [putPeer, AMap.get?_set] at hs
    split at hs
    · rename_i hid
      injection hs with hs
      subst hs
      refine ⟨k, by rw [← hid, hp.id], hp.sorted, e, he, ?_⟩
      have := hp.past
      show (p.timestamp.toNat : Int) * 1000000000 + 10 * minute ≤ e
      omega
    · exact hn.recs id s hs

theorem announce_keeps {X : DS.XEnv} {t : Int} {j : ι} {n : Node} {p : Peer} (hn : Settled addr port t j n) {l : ι} {τ : Int} (ht : t / 1000000000 < τ + 300) (h : Knows addr n l τ) : Knows addr (announce X t n p) l τ := by
  unfold announce
  cases hch : announceCheck t n p with
  | none => exact h
  | some r =>
    obtain ⟨-, -, rfl, hnew⟩ := announceCheck_some hch
    obtain ⟨s, h1, h2, h3⟩ := hn.alive h ht
    by_cases hid : idOfPeer p = serialize (addr l)
    · have := hnew s.peer (peerAt_some.2 ⟨s, by rw [hid]; exact h1, h3, rfl⟩)
      have := UInt64.lt_iff_toNat_lt.1 this
      refine ⟨_, by simp only [putPeer, hid, AMap.get?_set_self]; rfl, ?_⟩
      show τ ≤ (p.timestamp.toNat : Int)
      omega
    · exact ⟨s, by simp only [putPeer, AMap.get?_set_ne _ _ hid]; exact h1, h2⟩

theorem announce_knows {X : DS.XEnv} (hW : W.Ok addr port) {t : Int} (hc : Clock t) {j k : ι} (hjk : j ≠ k) {n : Node} {p : Peer}
    (hn : Settled addr port t j n) (hp : RecOf addr t k p) (ht : t / 1000000000 < (p.timestamp.toNat : Int) + 300) :
    Knows addr (announce X t n p) k p.timestamp.toNat := by
  unfold announce
  cases hch : announceCheck t n p with
  | none =>
    rcases announceCheck_none hch with h | h | ⟨old, h1, h2⟩
    · rw [similar_iff hW hn hp] at h
      exact absurd (of_decide_eq_true h) hjk
    · rw [recent hc hp.past ht] at h; cases h
    · obtain ⟨s, g1, g2, rfl⟩ := peerAt_some.1 h1
      rw [hp.id] at g1
      exact ⟨s, g1, by have := UInt64.le_iff_toNat_le.1 h2; omega⟩
  | some r =>
    obtain ⟨-, -, rfl, -⟩ := announceCheck_some hch
    exact ⟨_, by simp only [putPeer, hp.id, AMap.get?_set_self]; rfl, Int.le_refl _⟩

/-! ### A node's own record -/

theorem good_walk {X : DS.XEnv} (hX : X.Ok) {t : Int} : ∀ (ks : List String) {m : DS.DL}, Good m → ks.Nodup →
    (∀ k ∈ ks, (DS.lookup t m k).isSome = true) →
    ∃ m' cs, DS.walk X t ks m = .ok (m', cs) ∧ Good m' ∧ (∀ c ∈ cs, Keepable c) ∧
      (∀ k s c, k ∈ ks → DS.lookup t m k = some s → s.data.config = some c → c ∈ cs) ∧
      (∀ k s, DS.lookup t m k = some s → ∃ s', DS.lookup t m' k = some s' ∧ s'.data = s.data)
  | [], m, hg, _, _ => ⟨m, [], rfl, hg, by simp, by simp, fun k s h => ⟨s, h, rfl⟩⟩
  | k :: ks, m, hg, hn, hl => by
    have hn' := List.nodup_cons.1 hn
    cases hs : DS.lookup t m k with
    | none => have := hl k (by simp); rw [hs] at this; cases this
    | some s =>
      obtain ⟨e, h1, h2⟩ := good_get hX hg hs
      have hs1 := (DS.lookup_some.1 hs).1
      obtain ⟨c, hc, hck⟩ := hg.wf.2 _ _ hs1
      have hkeep := hg.keep _ _ _ hs1 hc
      have g1 : Good (m.set k { s with expires := some e }) :=
        good_set hg (s := { s with expires := some e }) hc hck (hg.inited _ _ hs1 : s.data.sources ≠ none) rfl hkeep
      have hlive : DS.live t { s with expires := some e } = true := by simpa [DS.live] using h2
      obtain ⟨m', cs, a1, a2, a3, a4, a5⟩ := good_walk hX (t := t) ks g1 hn'.2 fun k' hk' => by
        rw [DS.lookup_set_ne (fun e0 : k = k' => hn'.1 (e0 ▸ hk'))]
        exact hl k' (by simp [hk'])
      refine ⟨m', c :: cs, ?_, a2, ?_, ?_, ?_⟩
      · simp only [DS.walk, h1, Res.bind, hc, Res.ofOption, a1]
      · intro c' hc'
        rcases List.mem_cons.1 hc' with rfl | hc'
        · exact hkeep
        · exact a3 c' hc'
      · intro k' s' c' hk' hs' hc'
        rcases List.mem_cons.1 hk' with rfl | hk'
        · rw [hs] at hs'
          injection hs' with hs'
          subst hs'
          rw [hc] at hc'
          injection hc' with hc'
          subst hc'
          exact List.mem_cons_self
        · exact List.mem_cons_of_mem _ (a4 k' s' c' hk' (by rw [DS.lookup_set_ne (fun e0 : k = k' => hn'.1 (e0 ▸ hk'))]; exact hs') hc')
      · intro k' s' hs'
        by_cases e' : k = k'
        · subst e'
          rw [hs] at hs'
          injection hs' with hs'
          subst hs'
          obtain ⟨s2, b1, b2⟩ := a5 k { s with expires := some e } (by rw [DS.lookup_set_self, if_pos hlive])
          exact ⟨s2, b1, b2⟩
        · exact a5 k' s' (by rw [DS.lookup_set_ne e']; exact hs')

/-- The data set is listed at this time, with at least this version. -/
def Has (t : Int) (n : Node) (c : DataConfig) : Prop :=
  ∃ s c', DS.lookup t n.dataset c.name = some s ∧ s.data.config = some c' ∧ c.version ≤ c'.version

/-- The record lists the data set, with at least this version. -/
def Lists (p : Peer) (c : DataConfig) : Prop := ∃ c' ∈ p.dataList, c'.name = c.name ∧ c.version ≤ c'.version

theorem nodeInfo_ok {X : DS.XEnv} (hX : X.Ok) {t : Int} (hc : Clock t) {i : ι} {n : Node} (hn : Settled addr port t i n) {order : List String}
    (ho : order.Perm (DS.names t n.dataset)) :
    ∃ m p, nodeInfo X t order n = .ok ({ n with dataset := m }, p) ∧ Settled addr port t i { n with dataset := m } ∧ RecOf addr t i p ∧
      (p.timestamp.toNat : Int) = t / 1000000000 ∧ (∀ c, Has t n c → Lists p c) := by
  have hnd : order.Nodup := ho.nodup_iff.2 (DS.nodup_names hn.data.wf.1)
  obtain ⟨m, cs, h1, h2, h3, h4, h5⟩ := good_walk hX order hn.data hnd fun k hk => (DS.mem_names hn.data.wf.1).1 (ho.mem_iff.1 hk)
  have hsec : ((seconds t).toNat : Int) = t / 1000000000 := by
    obtain ⟨c0, c1⟩ := hc
    rw [seconds_toNat c0 (by omega)]; omega
  refine ⟨m, _, by rw [nodeInfo, h1]; rfl, ⟨hn.own, hn.port, h2, hn.nodup, hn.recs⟩, ⟨hn.own, by simp only [hsec]; exact Int.le_refl _, h3⟩, hsec, ?_⟩
  rintro c ⟨s, c', a1, a2, a3⟩
  have hk : c.name ∈ order := ho.mem_iff.2 ((DS.mem_names hn.data.wf.1).2 (by rw [a1]; rfl))
  obtain ⟨c2, w1, w2⟩ := hn.data.wf.2 _ _ (DS.lookup_some.1 a1).1
  rw [a2] at w1
  injection w1 with w1
  subst w1
  exact ⟨c', h4 _ _ _ hk a1 a2, w2, a3⟩

/-! ### Learning -/

theorem learn_settled (hW : W.Ok addr port) {t : Int} {i j : ι} {n : Node} (hn : Settled addr port t i n) :
    Settled addr port t i (learn n (W.seen i j)) ∧ (learn n (W.seen i j)).peers = n.peers ∧ (learn n (W.seen i j)).services = n.services ∧
      (learn n (W.seen i j)).dataset = n.dataset := by
  unfold learn
  split
  · exact ⟨hn, rfl, rfl, rfl⟩
  · rename_i h0
    split
    · exact ⟨hn, rfl, rfl, rfl⟩
    · refine ⟨⟨?_, hn.port, hn.data, hn.nodup, hn.recs⟩, rfl, rfl, rfl⟩
      have hf : feedback (W.seen i j) n.port ∈ addr i := by
        rw [hn.port]
        exact (hW.seen i j).resolve_left h0
      have hnd : (addr i).Nodup := hn.own.nodup_iff.1 (nodup_uniqueGo _ _)
      refine (List.perm_ext_iff_of_nodup (nodup_uniqueGo _ _) hnd).2 fun a => ?_
      rw [← hn.own.mem_iff]
      have hf' := hn.own.mem_iff.2 hf
      simp only [addresses, unique, mem_uniqueGo, List.mem_append, List.mem_singleton, List.not_mem_nil, not_false_iff, and_true] at hf' ⊢
      constructor
      · rintro ((h | h) | h)
        · exact Or.inl h
        · rw [h]; exact hf'
        · exact Or.inr h
      · rintro (h | h)
        · exact Or.inl (Or.inl h)
        · exact Or.inr h

/-! ### The steps -/

/-- No node forgets what is young. -/
def Keeps (addr : ι → List String) (t : Int) (σ σ' : ι → Node) : Prop :=
  ∀ i j τ, t / 1000000000 < τ + 300 → Knows addr (σ i) j τ → Knows addr (σ' i) j τ

theorem Keeps.trans {t : Int} {σ σ' σ'' : ι → Node} (h : Keeps addr t σ σ') (h' : Keeps addr t σ' σ'') : Keeps addr t σ σ'' :=
  fun i j τ ht hk => h' i j τ ht (h i j τ ht hk)

theorem upd_self (σ : ι → Node) (i : ι) (n : Node) : upd σ i n i = n := by simp [upd]

theorem upd_ne (σ : ι → Node) {i k : ι} (n : Node) (h : k ≠ i) : upd σ i n k = σ k := by simp [upd, h]

theorem upd_all {P : ι → Node → Prop} {σ : ι → Node} {i : ι} {n : Node} (h : ∀ k, P k (σ k)) (hi : P i n) : ∀ k, P k (upd σ i n k) := by
  intro k
  unfold upd
  split
  · rename_i e; rw [e]; exact hi
  · exact h k

theorem upd_keeps {t : Int} {σ : ι → Node} {i : ι} {n : Node} (h : ∀ j τ, t / 1000000000 < τ + 300 → Knows addr (σ i) j τ → Knows addr n j τ) :
    Keeps addr t σ (upd σ i n) := by
  intro k j τ ht hk
  unfold upd
  split
  · rename_i e; rw [e] at hk; exact h j τ ht hk
  · exact hk

theorem upd_services {σ : ι → Node} {i : ι} {n : Node} (h : n.services = (σ i).services) (k : ι) : (upd σ i n k).services = (σ k).services := by
  unfold upd
  split
  · rename_i e; rw [e, h]
  · rfl

theorem announce_services {X : DS.XEnv} {t : Int} {n : Node} {p : Peer} : (announce X t n p).services = n.services := by
  unfold announce
  split <;> rfl

theorem joinOne_ok {X : DS.XEnv} (hX : X.Ok) (hW : W.Ok addr port) {t : Int} (hc : Clock t) {o : Orders} (ho : o.Ok) (i : ι) (σ : ι → Node)
    (hσ : ∀ k, Settled addr port t k (σ k)) (id : String) :
    ∃ σ', joinOne X W t o i σ id = .ok σ' ∧ (∀ k, Settled addr port t k (σ' k)) ∧ Keeps addr t σ σ' ∧
      (∀ k, (σ' k).services = (σ k).services) ∧
      ∀ j, W.dial id = some j → j ≠ i → Knows addr (σ' j) i (t / 1000000000) := by
  obtain ⟨m, p, h1, h2, h3, h4, -⟩ := nodeInfo_ok hX hc (hσ i) (ho.names _)
  unfold joinOne
  rw [h1]
  simp only [Res.bind]
  have a1 : ∀ k, Settled addr port t k (upd σ i { σ i with dataset := m } k) := upd_all hσ h2
  have a2 : Keeps addr t σ (upd σ i { σ i with dataset := m }) := upd_keeps fun _ _ _ h => h
  have a3 := upd_services (σ := σ) (i := i) (n := { σ i with dataset := m }) rfl
  generalize upd σ i { σ i with dataset := m } = σ1 at *
  cases hd : W.dial id with
  | none => exact ⟨_, rfl, a1, a2, a3, fun j h => by cases h⟩
  | some j =>
    have b1 : ∀ k, Settled addr port t k (upd σ1 j (announce X t (σ1 j) p) k) := upd_all a1 (announce_settled hX (a1 j) h3)
    have b2 : Keeps addr t σ1 (upd σ1 j (announce X t (σ1 j) p)) := upd_keeps fun l τ ht h => announce_keeps (a1 j) ht h
    have b3 := upd_services (σ := σ1) (i := j) (n := announce X t (σ1 j) p) announce_services
    have b4 : j ≠ i → Knows addr (upd σ1 j (announce X t (σ1 j) p) j) i (t / 1000000000) := by
      intro hji
      rw [upd_self, ← h4]
      exact announce_knows hW hc hji (a1 j) h3 (by omega)
    obtain ⟨σ2, hσ2⟩ : ∃ x, x = upd σ1 j (announce X t (σ1 j) p) := ⟨_, rfl⟩
    rw [← hσ2] at b1 b2 b3 b4
    obtain ⟨l1, l2, l3, -⟩ := learn_settled hW (j := j) (b1 i)
    refine ⟨upd σ2 i (learn (σ2 i) (W.seen i j)), by rw [hσ2], upd_all b1 l1, (a2.trans b2).trans (upd_keeps fun l τ ht h => ?_), ?_, ?_⟩
    · unfold Knows at *; rw [l2]; exact h
    · intro k
      rw [upd_services l3, b3, a3]
    · intro j' hj' hji
      injection hj' with hj'
      subst hj'
      rw [upd_ne _ _ hji]
      exact b4 hji

theorem joinAll_ok {X : DS.XEnv} (hX : X.Ok) (hW : W.Ok addr port) {t : Int} (hc : Clock t) {o : Orders} (ho : o.Ok) (i : ι) :
    ∀ (ids : List String) (σ : ι → Node), (∀ k, Settled addr port t k (σ k)) →
    ∃ σ', joinAll X W t o i ids σ = .ok σ' ∧ (∀ k, Settled addr port t k (σ' k)) ∧ Keeps addr t σ σ' ∧
      (∀ k, (σ' k).services = (σ k).services) ∧
      ∀ id ∈ ids, ∀ j, W.dial id = some j → j ≠ i → Knows addr (σ' j) i (t / 1000000000)
  | [], σ, hσ => ⟨σ, rfl, hσ, fun _ _ _ _ h => h, fun _ => rfl, by simp⟩
  | id :: ids, σ, hσ => by
    obtain ⟨σ1, a1, a2, a3, a4, a5⟩ := joinOne_ok hX hW hc ho i σ hσ id
    obtain ⟨σ2, b1, b2, b3, b4, b5⟩ := joinAll_ok hX hW hc ho i ids σ1 a2
    refine ⟨σ2, by rw [joinAll, a1]; exact b1, b2, a3.trans b3, fun k => (b4 k).trans (a4 k), ?_⟩
    intro id' hid j hj hji
    rcases List.mem_cons.1 hid with rfl | hid
    · exact b3 _ _ _ (by omega) (a5 j hj hji)
    · exact b5 id' hid j hj hji

theorem mem_peerItems {t : Int} {n : Node} (hn : AMap.Nodup n.peers) {p : Peer} :
    p ∈ peerItems t n ↔ ∃ id s, n.peers.get? id = some s ∧ Net.alive t s.expires = true ∧ s.peer = p := by
  unfold peerItems
  simp only [List.mem_map, List.mem_filter]
  constructor
  · rintro ⟨⟨id, s⟩, ⟨h1, h2⟩, h3⟩
    exact ⟨id, s, AMap.get?_of_mem hn h1, h2, h3⟩
  · rintro ⟨id, s, h1, h2, h3⟩
    exact ⟨(id, s), ⟨AMap.mem_of_get? h1, h2⟩, h3⟩

/-- Another node's addresses are not ours. -/
theorem not_own (hW : W.Ok addr port) {t : Int} {i j : ι} (hij : j ≠ i) {n : Node} (hn : Settled addr port t i n) {a : String} (ha : a ∈ addr j) :
    a ∉ addresses n := by
  intro h
  have h1 := hW.dial i a (hn.own.mem_iff.1 h)
  rw [hW.dial j a ha] at h1
  exact hij (Option.some.inj h1)

/-- A record in the table is of the node whose name it has. -/
theorem Settled.recAt (hW : W.Ok addr port) {t : Int} {i j : ι} {n : Node} (hn : Settled addr port t i n) {s : PSlot}
    (h : n.peers.get? (serialize (addr j)) = some s) : RecOf addr t j s.peer := by
  obtain ⟨k, h1, h2, -⟩ := hn.recs _ _ h
  rw [id_inj hW h1]
  exact h2

theorem join_ok {X : DS.XEnv} (hX : X.Ok) (hW : W.Ok addr port) {t : Int} (hc : Clock t) {o : Orders} (ho : o.Ok) (i : ι) (σ : ι → Node)
    (hσ : ∀ k, Settled addr port t k (σ k)) :
    ∃ σ', join X W t o i σ = .ok σ' ∧ (∀ k, Settled addr port t k (σ' k)) ∧ Keeps addr t σ σ' ∧
      (∀ k, (σ' k).services = (σ k).services) ∧
      (∀ j τ, j ≠ i → t / 1000000000 < τ + 300 → Knows addr (σ i) j τ → Knows addr (σ' j) i (t / 1000000000)) ∧
      (∀ j, j ≠ i → Link W σ i j → Knows addr (σ' j) i (t / 1000000000)) := by
  obtain ⟨m, p, a1, a2, -⟩ := nodeInfo_ok hX hc (hσ i) (ho.names _)
  have b1 : ∀ k, Settled addr port t k (upd σ i { σ i with dataset := m } k) := upd_all hσ a2
  have b2 : Keeps addr t σ (upd σ i { σ i with dataset := m }) := upd_keeps fun _ _ _ h => h
  have b3 := upd_services (σ := σ) (i := i) (n := { σ i with dataset := m }) rfl
  obtain ⟨σ', h1, h2, h3, h4, h5⟩ := joinAll_ok hX hW hc ho i
    (joinTargets (o.names (serviceKeys t (σ i))) (o.peers (peerItems t (σ i))) (σ i)) _ b1
  refine ⟨σ', by rw [join, a1]; exact h1, h2, b2.trans h3, fun k => (h4 k).trans (b3 k), ?_, ?_⟩
  · intro j τ hji ht hk
    obtain ⟨s, g1, -, g3⟩ := (hσ i).alive hk ht
    have hr := (hσ i).recAt hW g1
    obtain ⟨a, ha⟩ := List.exists_mem_of_ne_nil _ (hW.nonempty j)
    refine h5 a ?_ j (hW.dial j a ha) hji
    refine List.mem_append_right _ (List.mem_flatten.2 ⟨_, List.mem_map.2 ⟨s.peer, ?_, rfl⟩, ?_⟩)
    · exact (ho.peers _).mem_iff.2 ((mem_peerItems (hσ i).nodup).2 ⟨_, s, g1, g3, rfl⟩)
    · exact List.mem_filter.2 ⟨hr.list.mem_iff.2 ha, by simpa using not_own hW hji (hσ i) ha⟩
  · rintro j hji ⟨s, g1, g2⟩
    refine h5 s (List.mem_append_left _ ((ho.names _).mem_iff.2 ?_)) j g2 hji
    unfold serviceKeys
    exact List.mem_map.2 ⟨(s, none), List.mem_filter.2 ⟨AMap.mem_of_get? g1, rfl⟩, rfl⟩

/-! ### Synchronisation -/

theorem deliver_ok {X : DS.XEnv} (hX : X.Ok) (hW : W.Ok addr port) {t : Int} (hc : Clock t) : ∀ (out : List (String × Peer)) (σ : ι → Node),
    (∀ k, Settled addr port t k (σ k)) → (∀ m ∈ out, ∃ k, RecOf addr t k m.2) →
    (∀ k, Settled addr port t k (deliver X W t out σ k)) ∧ Keeps addr t σ (deliver X W t out σ) ∧
      (∀ k, (deliver X W t out σ k).services = (σ k).services) ∧
      ∀ m ∈ out, ∀ j k, W.dial m.1 = some j → RecOf addr t k m.2 → j ≠ k → t / 1000000000 < (m.2.timestamp.toNat : Int) + 300 →
        Knows addr (deliver X W t out σ j) k m.2.timestamp.toNat
  | [], σ, hσ, _ => ⟨hσ, fun _ _ _ _ h => h, fun _ => rfl, by simp⟩
  | (id, p) :: out, σ, hσ, ho => by
    unfold deliver
    have ho' : ∀ m ∈ out, ∃ k, RecOf addr t k m.2 := fun m hm => ho m (List.mem_cons_of_mem _ hm)
    obtain ⟨k0, hk0⟩ := ho (id, p) List.mem_cons_self
    cases hd : W.dial id with
    | none =>
      obtain ⟨a1, a2, a3, a4⟩ := deliver_ok hX hW hc out σ hσ ho'
      refine ⟨a1, a2, a3, ?_⟩
      intro m hm j k hj
      rcases List.mem_cons.1 hm with rfl | hm
      · simp only at hj; rw [hd] at hj; cases hj
      · exact a4 m hm j k hj
    | some j0 =>
      have b1 : ∀ k, Settled addr port t k (upd σ j0 (announce X t (σ j0) p) k) := upd_all hσ (announce_settled hX (hσ j0) hk0)
      have b2 : Keeps addr t σ (upd σ j0 (announce X t (σ j0) p)) := upd_keeps fun l τ ht h => announce_keeps (hσ j0) ht h
      have b3 := upd_services (σ := σ) (i := j0) (n := announce X t (σ j0) p) announce_services
      obtain ⟨a1, a2, a3, a4⟩ := deliver_ok hX hW hc out (upd σ j0 (announce X t (σ j0) p)) b1 ho'
      refine ⟨a1, b2.trans a2, fun k => (a3 k).trans (b3 k), ?_⟩
      intro m hm j k hj hk hjk ht
      rcases List.mem_cons.1 hm with rfl | hm
      · simp only at hj
        rw [hd] at hj
        injection hj with hj
        subst hj
        refine a2 _ _ _ (by simp only at ht; omega) ?_
        rw [upd_self]
        exact announce_knows hW hc hjk (hσ j0) hk ht
      · exact a4 m hm j k hj hk hjk ht

/-- What the loop sends. -/
theorem syncLoop_sends {X : DS.XEnv} {t : Int} : ∀ (ps : List (Peer × List Peer)) {n n' : Node} {out : List (String × Peer)},
    syncLoop X t ps n = .ok (n', out) → ∀ r ∈ ps, Handled t n r.1 → ∀ q ∈ r.2, differentAddress n (sortedPeer r.1) ∉ q.addressList →
    (differentAddress n (sortedPeer r.1), q) ∈ out
  | [], _, _, _, _, r, hr => by simp at hr
  | (p, inner) :: ps, n, n', out, h, r, hr => by
    rw [syncLoop] at h
    cases h1 : syncPeer X t inner n p with
    | err e => rw [h1] at h; cases h
    | panic => rw [h1] at h; cases h
    | ok r1 =>
      obtain ⟨n1, o1⟩ := r1
      rw [h1] at h
      simp only [Res.bind] at h
      cases h2 : syncLoop X t ps n1 with
      | err e => rw [h2] at h; cases h
      | panic => rw [h2] at h; cases h
      | ok r2 =>
        obtain ⟨n2, o2⟩ := r2
        rw [h2] at h
        simp only [Res.ok.injEq, Prod.mk.injEq] at h
        rw [← h.2]
        have ha : addresses n1 = addresses n := by
          obtain ⟨t1, sv1, m1, rfl, -⟩ := syncPeer_eff h1
          rfl
        intro hh q hq hqa
        rcases List.mem_cons.1 hr with rfl | hr
        · refine List.mem_append_left _ ?_
          obtain ⟨g1, g2, g3⟩ := hh
          simp only at g1 g2 g3 hq hqa ⊢
          unfold syncPeer checkPeer at h1
          simp only [g1, g2, Bool.false_eq_true, if_false, if_true, Bool.true_eq_false, g3] at h1
          cases hm : syncDatas X t (differentAddress n (sortedPeer p)) p.dataList (List.foldl (addService X t) n p.serviceList).dataset with
          | err e => rw [hm] at h1; cases h1
          | panic => rw [hm] at h1; cases h1
          | ok m =>
            rw [hm] at h1
            simp only [Res.bind, Res.ok.injEq, Prod.mk.injEq] at h1
            rw [← h1.2]
            exact List.mem_map.2 ⟨q, List.mem_filter.2 ⟨hq, (sends_iff _ _).2 ⟨g3, hqa⟩⟩, rfl⟩
        · refine List.mem_append_right _ ?_
          have hd : differentAddress n1 (sortedPeer r.1) = differentAddress n (sortedPeer r.1) := by simp [differentAddress, ha]
          have := syncLoop_sends ps h2 r hr ((handled_of ha r.1).2 hh) q hq (by rw [hd]; exact hqa)
          rwa [hd] at this

/-- A young record of another node is handled, and the address taken is one of that node. -/
theorem handled (hW : W.Ok addr port) {t : Int} (hc : Clock t) {i j : ι} (hji : j ≠ i) {n : Node} (hn : Settled addr port t i n) {p : Peer}
    (hp : RecOf addr t j p) (ht : t / 1000000000 < (p.timestamp.toNat : Int) + 300) :
    Handled t n p ∧ differentAddress n (sortedPeer p) ∈ addr j := by
  have hmem : differentAddress n (sortedPeer p) ∈ addr j := by
    unfold differentAddress
    rcases firstDifferent_spec (addresses n) (sortedPeer p).addressList with ⟨pre, post, h1, -, -⟩ | ⟨h1, -⟩
    · refine hp.sorted.list.mem_iff.1 ?_
      have : firstDifferent (addresses n) (sortedPeer p).addressList ∈ pre ++ firstDifferent (addresses n) (sortedPeer p).addressList :: post := by simp
      rwa [← h1] at this
    · obtain ⟨a, ha⟩ := List.exists_mem_of_ne_nil _ (hW.nonempty j)
      exact absurd (h1 a (hp.sorted.list.mem_iff.2 ha)) (not_own hW hji hn ha)
  refine ⟨⟨?_, recent hc hp.past ht, (hW.ok j _ hmem).2⟩, hmem⟩
  rw [similar_iff hW hn hp]
  exact decide_eq_false (Ne.symm hji)

theorem syncLoop_nodup {X : DS.XEnv} {t : Int} : ∀ (ps : List (Peer × List Peer)) {n n' : Node} {out : List (String × Peer)},
    syncLoop X t ps n = .ok (n', out) → AMap.Nodup n.peers → AMap.Nodup n'.peers
  | [], n, n', out, h, hn => by
    simp only [syncLoop, Res.ok.injEq, Prod.mk.injEq] at h
    rw [← h.1]; exact hn
  | (p, inner) :: ps, n, n', out, h, hn => by
    rw [syncLoop] at h
    cases h1 : syncPeer X t inner n p with
    | err e => rw [h1] at h; cases h
    | panic => rw [h1] at h; cases h
    | ok r1 =>
      obtain ⟨n1, o1⟩ := r1
      rw [h1] at h
      simp only [Res.bind] at h
      cases h2 : syncLoop X t ps n1 with
      | err e => rw [h2] at h; cases h
      | panic => rw [h2] at h; cases h
      | ok r2 =>
        obtain ⟨n2, o2⟩ := r2
        rw [h2] at h
        simp only [Res.ok.injEq, Prod.mk.injEq] at h
        rw [← h.1]
        obtain ⟨t1, sv1, m1, rfl, ht⟩ := syncPeer_eff h1
        refine syncLoop_nodup ps h2 ?_
        rcases ht with rfl | rfl
        · exact hn
        · exact AMap.nodup_erase hn _

theorem sync_ok {X : DS.XEnv} (hX : X.Ok) (hW : W.Ok addr port) {t : Int} (hc : Clock t) {o : Orders} (ho : o.Ok) (i : ι) (σ : ι → Node)
    (hσ : ∀ k, Settled addr port t k (σ k)) :
    ∃ σ', sync X W t o i σ = .ok σ' ∧ (∀ k, Settled addr port t k (σ' k)) ∧ Keeps addr t σ σ' ∧
      (∀ k, k ≠ i → (σ' k).services = (σ k).services) ∧
      (∀ j k τ τ', j ≠ i → j ≠ k → t / 1000000000 < τ + 300 → t / 1000000000 < τ' + 300 → Knows addr (σ i) j τ → Knows addr (σ i) k τ' →
        Knows addr (σ' j) k τ') := by
  have hn := hσ i
  let ps := (o.peers (peerItems t (σ i))).map fun p => (p, o.inner p (peerItems t (σ i)))
  have hrec : ∀ p ∈ peerItems t (σ i), ∃ k, serialize (addr k) = idOfPeer p ∧ (σ i).peers.get? (serialize (addr k)) ≠ none ∧ RecOf addr t k p ∧
      ∀ s, (σ i).peers.get? (serialize (addr k)) = some s → s.peer = p := by
    intro p hp
    obtain ⟨id, s, h1, h2, rfl⟩ := (mem_peerItems hn.nodup).1 hp
    obtain ⟨k, rfl, h4, -⟩ := hn.recs id s h1
    exact ⟨k, h4.id.symm, by rw [h1]; simp, h4, fun s' hs' => by rw [h1] at hs'; injection hs' with hs'; rw [hs']⟩
  have hps : ∀ r ∈ ps, r.1 ∈ peerItems t (σ i) ∧ ∀ q, q ∈ r.2 ↔ q ∈ peerItems t (σ i) := by
    intro r hr
    obtain ⟨p, hp, rfl⟩ := List.mem_map.1 hr
    exact ⟨(ho.peers _).mem_iff.1 hp, fun q => (ho.inner p _).mem_iff⟩
  have hps' : ∀ p ∈ peerItems t (σ i), (p, o.inner p (peerItems t (σ i))) ∈ ps := fun p hp =>
    List.mem_map.2 ⟨p, (ho.peers _).mem_iff.2 hp, rfl⟩
  obtain ⟨n', out, h1, h2, -⟩ := syncLoop_ok hX (now := t) ps hn.data fun r hr c hcm => by
    obtain ⟨k, -, -, hk, -⟩ := hrec r.1 (hps r hr).1
    exact hk.keep c hcm
  have htab := fun id => syncLoop_table id ps h1
  obtain ⟨tb, sv, m, he, hsub⟩ := syncLoop_eff ps h1
  have hn' : Settled addr port t i { n' with ready := true } := by
    refine ⟨by rw [he]; exact hn.own, by rw [he]; exact hn.port, h2, ?_, ?_⟩
    · have := syncLoop_nodup ps h1 hn.nodup
      exact this
    · intro id s hs
      refine hn.recs id s (hsub id s ?_)
      rw [he] at hs
      exact hs
  have hkeep : ∀ j τ, t / 1000000000 < τ + 300 → Knows addr (σ i) j τ → Knows addr { n' with ready := true } j τ := by
    rintro j τ ht ⟨s, g1, g2⟩
    refine ⟨s, ?_, g2⟩
    show n'.peers.get? _ = _
    rw [htab, if_neg, g1]
    rintro ⟨r, hr, hr1, -, hr3⟩
    obtain ⟨k, e1, -, e3, e4⟩ := hrec r.1 (hps r hr).1
    have := e4 s (by rw [e1, hr1]; exact g1)
    rw [← this] at hr3 e3
    rw [recent hc e3.past (by omega)] at hr3
    cases hr3
  have hsync : sync X W t o i σ = .ok (deliver X W t out (upd σ i { n' with ready := true })) := by
    unfold sync syncWithPeers
    show Res.bind (Res.bind (syncLoop X t ps (σ i)) _) _ = _
    rw [h1]
    rfl
  have hout : ∀ x ∈ out, ∃ k, RecOf addr t k x.2 := by
    rintro ⟨to, q⟩ hq
    obtain ⟨-, -, r, hr, -, hqr⟩ := C61_sent X t ps (σ i) n' out h1 to q hq
    obtain ⟨k, -, -, hk, -⟩ := hrec q (((hps r hr).2 q).1 hqr)
    exact ⟨k, hk⟩
  obtain ⟨d1, d2, d3, d4⟩ := deliver_ok hX hW hc out (upd σ i { n' with ready := true }) (upd_all hσ hn') hout
  refine ⟨_, hsync, d1, (upd_keeps hkeep).trans d2, ?_, ?_⟩
  · intro k hk
    rw [d3, upd_ne _ _ hk]
  · intro j k τ τ' hji hjk ht ht' hj hk
    obtain ⟨s, a1, a2, a3⟩ := hn.alive hj ht
    obtain ⟨s', b1, b2, b3⟩ := hn.alive hk ht'
    have ra := hn.recAt hW a1
    have rb := hn.recAt hW b1
    obtain ⟨c1, c2⟩ := handled hW hc hji hn ra (by omega)
    have pa := (mem_peerItems hn.nodup).2 ⟨_, s, a1, a3, rfl⟩
    have pb := (mem_peerItems hn.nodup).2 ⟨_, s', b1, b3, rfl⟩
    have hq : differentAddress (σ i) (sortedPeer s.peer) ∉ s'.peer.addressList := by
      intro hm
      have e1 := hW.dial k _ (rb.list.mem_iff.1 hm)
      rw [hW.dial j _ c2] at e1
      exact hjk (Option.some.inj e1)
    have hm := syncLoop_sends ps h1 _ (hps' _ pa) c1 s'.peer ((ho.inner _ _).mem_iff.2 pb) hq
    exact (d4 _ hm j k (hW.dial j _ c2) rb hjk (by simp only; omega)).le b2

end
end Gossip
end Veri
