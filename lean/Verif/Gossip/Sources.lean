import Verif.Gossip.Last
/-
C164, C165: the sources of the data sets of a node are other nodes, and no node is a source twice.
-/
set_option autoImplicit false
set_option linter.unusedSectionVars false
namespace Veri
namespace Gossip
open Net

/-! ### Specification -/

/-- `id` is a source of the data set `name` of this list, data/data.go:222-233. -/
def SourceIn (m : DS.DL) (name id : String) : Prop :=
  ∃ s src e, m.get? name = some s ∧ s.data.sources = some src ∧ src.get? id = some e

variable {ι : Type} [DecidableEq ι]

/-- A node as it starts (node/node.go:54-72): its addresses reach it, it knows nobody yet, and its data sets have no sources. -/
structure Starts (W : World ι) (i : ι) (n : Node) : Prop where
  own : ∀ a ∈ addresses n, W.dial a = some i
  alone : n.peers = []
  nobody : ∀ name id, ¬ SourceIn n.dataset name id

/-- The addresses under which nodes are seen reach them (node/nodeservice.go:56-77, 204-205). -/
def Seen (W : World ι) (port : ι → UInt32) : Prop := ∀ i j, W.seen i j = "" ∨ W.dial (feedback (W.seen i j) (port i)) = some i

/-- What happens to the data sets of a node apart from this adds no sources. -/
def Adding (X : DS.XEnv) (W : World ι) : List (Ev ι) → Int × (ι → Node) → Prop
  | [], _ => True
  | e :: es, (t, σ) =>
    (∀ m, e.kind = .change m → ∀ name id, SourceIn m name id → SourceIn (σ e.who).dataset name id) ∧
    ∀ σ', Gossip.step X W (t + e.wait) e σ = .ok σ' → Adding X W es (t + e.wait, σ')

/-- The nodes are seen under addresses that they announce from the start. -/
def FixedAddresses (W : World ι) (σ : ι → Node) : Prop :=
  ∀ i j, W.seen i j = "" ∨ feedback (W.seen i j) (σ i).port ∈ addresses (σ i)

/-! ### Lists -/

/-- All sources are such. -/
def SrcAll (P : String → Prop) (m : DS.DL) : Prop := ∀ name id, SourceIn m name id → P id

theorem SrcAll.mono {P Q : String → Prop} {m : DS.DL} (h : SrcAll P m) (hpq : ∀ id, P id → Q id) : SrcAll Q m :=
  fun name id hs => hpq id (h name id hs)

section
variable {P : String → Prop}

theorem src_set {m : DS.DL} (h : SrcAll P m) {k : String} {s' : DS.Slot}
    (hs : ∀ src, s'.data.sources = some src → ∀ id e, src.get? id = some e → P id) : SrcAll P (m.set k s') := by
  rintro name id ⟨s, src, e, h1, h2, h3⟩
  rw [AMap.get?_set] at h1
  split at h1
  · injection h1 with h1
    subst h1
    exact hs src h2 id e h3
  · exact h name id ⟨s, src, e, h1, h2, h3⟩

theorem src_slot {m : DS.DL} (h : SrcAll P m) {k : String} {s : DS.Slot} (hs : m.get? k = some s) :
    ∀ src, s.data.sources = some src → ∀ id e, src.get? id = some e → P id :=
  fun src h2 id e h3 => h k id ⟨s, src, e, hs, h2, h3⟩

theorem src_init {d : Data} (h : ∀ src, d.sources = some src → ∀ id e, src.get? id = some e → P id) :
    ∀ src, d.initData.sources = some src → ∀ id e, src.get? id = some e → P id := by
  intro src h2 id e h3
  unfold Data.initData at h2
  split at h2
  · exact h src h2 id e h3
  · simp only [Option.some.injEq] at h2
    subst h2
    cases h3

theorem src_create {t : Int} {m m' : DS.DL} {c : DataConfig} (h : SrcAll P m) (he : DS.createIfNotExists t m c = .ok m') : SrcAll P m' := by
  cases hlk : DS.lookup t m c.name with
  | none =>
    unfold DS.createIfNotExists at he
    rw [hlk] at he
    simp only [Res.ok.injEq] at he
    rw [← he]
    refine src_set h (src_init ?_)
    intro src h2
    cases h2
  | some s =>
    have hs := (DS.lookup_some.1 hlk).1
    cases h0 : s.data.config with
    | none =>
      unfold DS.createIfNotExists at he
      rw [hlk] at he
      simp only [h0, Res.ofOption, Res.bind] at he
      cases he
    | some c0 =>
      rw [DS.create_old hlk h0] at he
      simp only [Res.ok.injEq] at he
      rw [← he]
      split
      · exact src_set h (s' := { s with data := { s.data with config := some c } }) (fun src h2 => src_slot h hs src h2)
      · exact h

theorem src_touch {X : DS.XEnv} {t : Int} {m m' : DS.DL} {k : String} {s : DS.Slot} {d : Data} (h : SrcAll P m) (hs : m.get? k = some s)
    (he : DS.touch X t m k s = .ok (m', d)) : SrcAll P m' := by
  unfold DS.touch at he
  cases h0 : s.data.config with
  | none => rw [h0] at he; cases he
  | some c =>
    rw [h0] at he
    simp only [Res.ofOption, Res.bind, Res.ok.injEq, Prod.mk.injEq] at he
    rw [← he.1]
    exact src_set h (fun src h2 => src_slot h hs src h2)

theorem src_get {X : DS.XEnv} {t : Int} {m m' : DS.DL} {k : String} {d : Data} (h : SrcAll P m) (he : DS.get X t m k = .ok (m', d)) :
    SrcAll P m' := by
  unfold DS.get at he
  cases hlk : DS.lookup t m k with
  | some s => rw [hlk] at he; exact src_touch h (DS.lookup_some.1 hlk).1 he
  | none =>
    rw [hlk] at he
    simp only at he
    cases hc : DS.createIfNotExists t m (DS.defaultConfig k) with
    | err e => rw [hc] at he; cases he
    | panic => rw [hc] at he; cases he
    | ok m1 =>
      rw [hc] at he
      simp only [Res.bind] at he
      cases hl2 : DS.lookup t m1 k with
      | none => rw [hl2] at he; cases he
      | some s => rw [hl2] at he; exact src_touch (src_create h hc) (DS.lookup_some.1 hl2).1 he

theorem src_getOrCreate {X : DS.XEnv} {t : Int} {m m' : DS.DL} {c : DataConfig} {d : Data} (h : SrcAll P m)
    (he : DS.getOrCreate X t m c = .ok (m', d)) : SrcAll P m' := by
  unfold DS.getOrCreate at he
  cases hc : DS.createIfNotExists t m c with
  | err e => rw [hc] at he; cases he
  | panic => rw [hc] at he; cases he
  | ok m1 =>
    rw [hc] at he
    exact src_get (src_create h hc) he

theorem src_walk {X : DS.XEnv} {t : Int} : ∀ (ks : List String) {m m' : DS.DL} {cs : List DataConfig}, SrcAll P m →
    DS.walk X t ks m = .ok (m', cs) → SrcAll P m'
  | [], m, m', cs, h, he => by
    simp only [DS.walk, Res.ok.injEq, Prod.mk.injEq] at he
    rw [← he.1]; exact h
  | k :: ks, m, m', cs, h, he => by
    rw [DS.walk] at he
    cases h1 : DS.get X t m k with
    | err e => rw [h1] at he; cases he
    | panic => rw [h1] at he; cases he
    | ok r =>
      obtain ⟨m1, d⟩ := r
      rw [h1] at he
      simp only [Res.bind] at he
      cases hc : d.config with
      | none => rw [hc] at he; cases he
      | some c =>
        rw [hc] at he
        simp only [Res.ofOption] at he
        cases h2 : DS.walk X t ks m1 with
        | err e => rw [h2] at he; cases he
        | panic => rw [h2] at he; cases he
        | ok r2 =>
          obtain ⟨m2, cs2⟩ := r2
          rw [h2] at he
          simp only [Res.ok.injEq, Prod.mk.injEq] at he
          rw [← he.1]
          exact src_walk ks (src_get h h1) h2

theorem src_addSource {t : Int} {d : Data} {id : String} (h : ∀ src, d.sources = some src → ∀ i e, src.get? i = some e → P i) (hid : P id) :
    ∀ src, (addSource t d id).sources = some src → ∀ i e, src.get? i = some e → P i := by
  have key : ∀ d' : Data, (∀ src, d'.sources = some src → ∀ i e, src.get? i = some e → P i) →
      ∀ src, (match d'.sources with
        | none => d'
        | some m => if ((m.get? id).any fun e => decide (t ≤ e)) = true then d' else { d' with sources := some (m.set id (t + 10 * minute)) }).sources = some src →
      ∀ i e, src.get? i = some e → P i := by
    intro d' hd src h2 i e h3
    cases hm : d'.sources with
    | none => simp only [hm] at h2; cases h2
    | some m =>
      simp only [hm] at h2
      split at h2
      · exact hd src h2 i e h3
      · simp only [Option.some.injEq] at h2
        subst h2
        rw [AMap.get?_set] at h3
        split at h3
        · rename_i e1; rw [← e1]; exact hid
        · exact hd m hm i e h3
  unfold addSource
  split
  · exact key _ (src_init h)
  · exact key _ h

theorem src_syncData {X : DS.XEnv} {t : Int} {id : String} {m m' : DS.DL} {c : DataConfig} (h : SrcAll P m) (hid : P id)
    (he : syncData X t id m c = .ok m') : SrcAll P m' := by
  unfold syncData at he
  cases h1 : DS.getOrCreate X t m c with
  | err e => rw [h1] at he; simp only [Res.ok.injEq] at he; rw [← he]; exact h
  | panic => rw [h1] at he; cases he
  | ok r =>
    obtain ⟨m1, d⟩ := r
    rw [h1] at he
    simp only at he
    have g := src_getOrCreate h h1
    cases hs : m1.get? c.name with
    | none => rw [hs] at he; cases he
    | some s =>
      rw [hs] at he
      simp only [Res.ok.injEq] at he
      rw [← he]
      exact src_set g (src_addSource (src_slot g hs) hid)

theorem src_syncDatas {X : DS.XEnv} {t : Int} {id : String} (hid : P id) : ∀ (cs : List DataConfig) {m m' : DS.DL}, SrcAll P m →
    syncDatas X t id cs m = .ok m' → SrcAll P m'
  | [], m, m', h, he => by
    simp only [syncDatas, Res.ok.injEq] at he
    rw [← he]; exact h
  | c :: cs, m, m', h, he => by
    rw [syncDatas] at he
    cases h1 : syncData X t id m c with
    | err e => rw [h1] at he; cases he
    | panic => rw [h1] at he; cases he
    | ok m1 =>
      rw [h1] at he
      exact src_syncDatas hid cs (src_syncData h hid h1) he

theorem src_syncPeer {X : DS.XEnv} {t : Int} {inner : List Peer} {n n' : Node} {p : Peer} {out : List (String × Peer)}
    (h : SrcAll P n.dataset) (hid : differentAddress n (sortedPeer p) ≠ "" → P (differentAddress n (sortedPeer p)))
    (he : syncPeer X t inner n p = .ok (n', out)) : SrcAll P n'.dataset := by
  unfold syncPeer at he
  have hcp := checkPeer_peers t n p
  generalize checkPeer t n p = r at he hcp
  obtain ⟨n1, ok⟩ := r
  simp only at he hcp
  have h1 : ∃ tb, n1 = { n with peers := tb } := by
    rcases hcp with h1 | ⟨h1, -⟩
    · exact ⟨n.peers, h1⟩
    · exact ⟨_, h1⟩
  obtain ⟨tb, rfl⟩ := h1
  split at he
  · simp only [Res.ok.injEq, Prod.mk.injEq] at he
    rw [← he.1]; exact h
  · have ed : differentAddress { n with peers := tb } (sortedPeer p) = differentAddress n (sortedPeer p) := rfl
    rw [ed] at he
    split at he
    · simp only [Res.ok.injEq, Prod.mk.injEq] at he
      rw [← he.1]; exact h
    · rename_i hne
      obtain ⟨sv, hsv⟩ := addServices_eq X t p.serviceList { n with peers := tb }
      rw [hsv] at he
      cases hm : syncDatas X t (differentAddress n (sortedPeer p)) p.dataList n.dataset with
      | err e => simp only [hm] at he; cases he
      | panic => simp only [hm] at he; cases he
      | ok m =>
        simp only [hm, Res.bind, Res.ok.injEq, Prod.mk.injEq] at he
        rw [← he.1]
        exact src_syncDatas (hid hne) _ h hm

theorem src_syncLoop {X : DS.XEnv} {t : Int} : ∀ (ps : List (Peer × List Peer)) {n n' : Node} {out : List (String × Peer)},
    SrcAll P n.dataset → (∀ r ∈ ps, differentAddress n (sortedPeer r.1) ≠ "" → P (differentAddress n (sortedPeer r.1))) →
    syncLoop X t ps n = .ok (n', out) → SrcAll P n'.dataset
  | [], n, n', out, h, _, he => by
    simp only [syncLoop, Res.ok.injEq, Prod.mk.injEq] at he
    rw [← he.1]; exact h
  | (p, inner) :: ps, n, n', out, h, hid, he => by
    rw [syncLoop] at he
    cases h1 : syncPeer X t inner n p with
    | err e => rw [h1] at he; cases he
    | panic => rw [h1] at he; cases he
    | ok r1 =>
      obtain ⟨n1, o1⟩ := r1
      rw [h1] at he
      simp only [Res.bind] at he
      cases h2 : syncLoop X t ps n1 with
      | err e => rw [h2] at he; cases he
      | panic => rw [h2] at he; cases he
      | ok r2 =>
        obtain ⟨n2, o2⟩ := r2
        rw [h2] at he
        simp only [Res.ok.injEq, Prod.mk.injEq] at he
        rw [← he.1]
        have ha : addresses n1 = addresses n := by
          obtain ⟨t1, sv1, m1, rfl, -⟩ := syncPeer_eff h1
          rfl
        refine src_syncLoop ps (src_syncPeer h (hid (p, inner) (by simp)) h1) ?_ h2
        intro r hr
        have := hid r (by simp [hr])
        simp only [differentAddress, ha] at this ⊢
        exact this

end

/-! ### The cluster -/

section
variable {W : World ι} {fixed : Prop}

/-- A record of the node `k`: it has addresses of `k`, and all of them if they are fixed. -/
def Told (fixed : Prop) (σ : ι → Node) (p : Peer) : Prop :=
  ∃ k, (∀ a ∈ p.addressList, a ∈ addresses (σ k)) ∧ (fixed → p.addressList.Perm (addresses (σ k)))

/-- A source of `i`: an address of another node, and the smallest one if the addresses are fixed. -/
def Proper (fixed : Prop) (σ : ι → Node) (i : ι) (id : String) : Prop :=
  ∃ j, j ≠ i ∧ id ∈ addresses (σ j) ∧ (fixed → ∀ a ∈ addresses (σ j), ¬ a < id)

structure Inv (W : World ι) (fixed : Prop) (σ : ι → Node) : Prop where
  own : ∀ i, ∀ a ∈ addresses (σ i), W.dial a = some i
  seen : ∀ i j, W.seen i j = "" ∨ W.dial (feedback (W.seen i j) (σ i).port) = some i
  known : fixed → ∀ i j, W.seen i j = "" ∨ feedback (W.seen i j) (σ i).port ∈ addresses (σ i)
  recs : ∀ j, ∀ x ∈ (σ j).peers, Told fixed σ x.2.peer
  srcs : ∀ i, SrcAll (Proper fixed σ i) (σ i).dataset

/-- The addresses of the nodes only grow, and stay if they are fixed. -/
def Grow (fixed : Prop) (σ σ' : ι → Node) : Prop :=
  ∀ k, (∀ a ∈ addresses (σ k), a ∈ addresses (σ' k)) ∧ (fixed → (addresses (σ k)).Perm (addresses (σ' k))) ∧ (σ' k).port = (σ k).port

theorem Grow.same {σ σ' : ι → Node} (h : ∀ k, addresses (σ' k) = addresses (σ k) ∧ (σ' k).port = (σ k).port) : Grow fixed σ σ' :=
  fun k => ⟨fun a ha => by rw [(h k).1]; exact ha, fun _ => by rw [(h k).1], (h k).2⟩

theorem Told.grow {σ σ' : ι → Node} {p : Peer} (h : Told fixed σ p) (hg : Grow fixed σ σ') : Told fixed σ' p := by
  obtain ⟨k, h1, h2⟩ := h
  exact ⟨k, fun a ha => (hg k).1 a (h1 a ha), fun hf => (h2 hf).trans ((hg k).2.1 hf)⟩

theorem Proper.grow {σ σ' : ι → Node} {i : ι} {id : String} (h : Proper fixed σ i id) (hg : Grow fixed σ σ') : Proper fixed σ' i id := by
  obtain ⟨j, h1, h2, h3⟩ := h
  exact ⟨j, h1, (hg j).1 _ h2, fun hf a ha => h3 hf a (((hg j).2.1 hf).mem_iff.2 ha)⟩

/-- The node `i` changes. -/
theorem Inv.upd {σ : ι → Node} (h : Inv W fixed σ) {i : ι} {n : Node}
    (hg : (∀ a ∈ addresses (σ i), a ∈ addresses n) ∧ (fixed → (addresses (σ i)).Perm (addresses n)) ∧ n.port = (σ i).port)
    (hown : ∀ a ∈ addresses n, W.dial a = some i) (hrecs : ∀ x ∈ n.peers, Told fixed σ x.2.peer)
    (hsrcs : SrcAll (Proper fixed σ i) n.dataset) : Inv W fixed (Gossip.upd σ i n) ∧ Grow fixed σ (Gossip.upd σ i n) := by
  have g : Grow fixed σ (Gossip.upd σ i n) := by
    intro k
    by_cases hk : k = i
    · subst hk; rw [upd_self]; exact hg
    · rw [upd_ne _ _ hk]; exact ⟨fun _ h => h, fun _ => .refl _, rfl⟩
  refine ⟨⟨?_, ?_, ?_, ?_, ?_⟩, g⟩
  · intro k a ha
    by_cases hk : k = i
    · subst hk; rw [upd_self] at ha; exact hown a ha
    · rw [upd_ne _ _ hk] at ha; exact h.own k a ha
  · intro k j
    rw [(g k).2.2]; exact h.seen k j
  · intro hf k j
    rw [(g k).2.2]
    rcases h.known hf k j with h1 | h1
    · exact .inl h1
    · exact .inr ((g k).1 _ h1)
  · intro j x hx
    by_cases hj : j = i
    · subst hj; rw [upd_self] at hx; exact (hrecs x hx).grow g
    · rw [upd_ne _ _ hj] at hx; exact (h.recs j x hx).grow g
  · intro k
    by_cases hk : k = i
    · subst hk; rw [upd_self]; exact hsrcs.mono fun id hp => hp.grow g
    · rw [upd_ne _ _ hk]; exact (h.srcs k).mono fun id hp => hp.grow g

theorem Inv.learn {σ : ι → Node} (h : Inv W fixed σ) (i j : ι) : Inv W fixed (Gossip.upd σ i (learn (σ i) (W.seen i j))) := by
  have same : Inv W fixed (Gossip.upd σ i (σ i)) := (h.upd ⟨fun _ h => h, fun _ => .refl _, rfl⟩ (h.own i) (h.recs i) (h.srcs i)).1
  unfold Net.learn
  split
  · exact same
  · rename_i h0
    split
    · exact same
    · have hm : ∀ a, a ∈ addresses { σ i with knownIds := (σ i).knownIds ++ [feedback (W.seen i j) (σ i).port] } ↔
          a ∈ addresses (σ i) ∨ a = feedback (W.seen i j) (σ i).port := by
        intro a
        simp only [addresses, unique, mem_uniqueGo, List.mem_append, List.mem_singleton, List.not_mem_nil, not_false_iff, and_true]
        grind
      refine (h.upd ⟨fun a ha => (hm a).2 (.inl ha), fun hf => ?_, rfl⟩ ?_ (h.recs i) (h.srcs i)).1
      · refine (List.perm_ext_iff_of_nodup (nodup_uniqueGo _ _) (nodup_uniqueGo _ _)).2 fun a => ?_
        have hk := (h.known hf i j).resolve_left h0
        constructor
        · intro ha; exact (hm a).2 (.inl ha)
        · intro ha
          rcases (hm a).1 ha with ha | ha
          · exact ha
          · rw [ha]; exact hk
      · intro a ha
        rcases (hm a).1 ha with ha | ha
        · exact h.own i a ha
        · rw [ha]; exact (h.seen i j).resolve_left h0

theorem Inv.announce {σ : ι → Node} (h : Inv W fixed σ) {X : DS.XEnv} {t : Int} (j : ι) {p : Peer} (hp : Told fixed σ p) :
    Inv W fixed (Gossip.upd σ j (announce X t (σ j) p)) ∧ Grow fixed σ (Gossip.upd σ j (announce X t (σ j) p)) := by
  unfold Net.announce
  cases hc : announceCheck t (σ j) p with
  | none => exact h.upd ⟨fun _ h => h, fun _ => .refl _, rfl⟩ (h.own j) (h.recs j) (h.srcs j)
  | some r =>
    obtain ⟨-, -, rfl, -⟩ := announceCheck_some hc
    refine h.upd ⟨fun _ h => h, fun _ => .refl _, rfl⟩ (h.own j) ?_ (h.srcs j)
    intro x hx
    rcases (AMap.mem_set _ _ _ _).1 hx with hx | hx
    · rw [hx]
      obtain ⟨k, h1, h2⟩ := hp
      exact ⟨k, fun a ha => h1 a (mem_sortStrings.1 ha), fun hf => (sortStrings_perm _).trans (h2 hf)⟩
    · exact h.recs j x hx.1

theorem Inv.dataset {σ : ι → Node} (h : Inv W fixed σ) {i : ι} {m : DS.DL} (hm : SrcAll (Proper fixed σ i) m) :
    Inv W fixed (Gossip.upd σ i { σ i with dataset := m }) ∧ Grow fixed σ (Gossip.upd σ i { σ i with dataset := m }) :=
  h.upd ⟨fun _ h => h, fun _ => .refl _, rfl⟩ (h.own i) (h.recs i) hm

theorem Inv.info {σ : ι → Node} (h : Inv W fixed σ) {X : DS.XEnv} {t : Int} {order : List String} {i : ι} {n : Node} {p : Peer}
    (he : nodeInfo X t order (σ i) = .ok (n, p)) : Inv W fixed (Gossip.upd σ i n) ∧ Told fixed (Gossip.upd σ i n) p := by
  unfold nodeInfo at he
  cases hw : DS.walk X t order (σ i).dataset with
  | err e => rw [hw] at he; cases he
  | panic => rw [hw] at he; cases he
  | ok r =>
    obtain ⟨m, cs⟩ := r
    rw [hw] at he
    simp only [Res.bind, Res.ok.injEq, Prod.mk.injEq] at he
    obtain ⟨rfl, rfl⟩ := he
    refine ⟨(h.dataset (src_walk _ (h.srcs i) hw)).1, i, ?_, ?_⟩
    · intro a ha; rw [upd_self]; exact ha
    · intro _; rw [upd_self]; exact .refl _

theorem joinOne_inv {X : DS.XEnv} {t : Int} {o : Orders} {i : ι} {σ σ' : ι → Node} {id : String} (h : Inv W fixed σ)
    (he : joinOne X W t o i σ id = .ok σ') : Inv W fixed σ' := by
  unfold joinOne at he
  cases hn : nodeInfo X t (o.names (DS.names t (σ i).dataset)) (σ i) with
  | err e => rw [hn] at he; cases he
  | panic => rw [hn] at he; cases he
  | ok r =>
    obtain ⟨n, p⟩ := r
    rw [hn] at he
    simp only [Res.bind] at he
    obtain ⟨h1, h2⟩ := h.info hn
    cases hd : W.dial id with
    | none =>
      rw [hd] at he
      simp only [Res.ok.injEq] at he
      rw [← he]; exact h1
    | some j =>
      rw [hd] at he
      simp only [Res.ok.injEq] at he
      rw [← he]
      exact (h1.announce j h2).1.learn i j

theorem joinAll_inv {X : DS.XEnv} {t : Int} {o : Orders} {i : ι} : ∀ (ids : List String) {σ σ' : ι → Node}, Inv W fixed σ →
    joinAll X W t o i ids σ = .ok σ' → Inv W fixed σ'
  | [], σ, σ', h, he => by
    simp only [joinAll, Res.ok.injEq] at he
    rw [← he]; exact h
  | id :: ids, σ, σ', h, he => by
    rw [joinAll] at he
    cases h1 : joinOne X W t o i σ id with
    | err e => rw [h1] at he; cases he
    | panic => rw [h1] at he; cases he
    | ok σ1 =>
      rw [h1] at he
      exact joinAll_inv ids (joinOne_inv h h1) he

theorem join_inv {X : DS.XEnv} {t : Int} {o : Orders} {i : ι} {σ σ' : ι → Node} (h : Inv W fixed σ)
    (he : Gossip.join X W t o i σ = .ok σ') : Inv W fixed σ' := by
  unfold Gossip.join at he
  cases hn : nodeInfo X t (o.names (DS.names t (σ i).dataset)) (σ i) with
  | err e => rw [hn] at he; cases he
  | panic => rw [hn] at he; cases he
  | ok r =>
    obtain ⟨n, p⟩ := r
    rw [hn] at he
    exact joinAll_inv _ (h.info hn).1 he

theorem deliver_inv {X : DS.XEnv} {t : Int} : ∀ (out : List (String × Peer)) {σ : ι → Node}, Inv W fixed σ →
    (∀ m ∈ out, Told fixed σ m.2) → Inv W fixed (deliver X W t out σ)
  | [], σ, h, _ => h
  | (id, p) :: out, σ, h, hp => by
    rw [deliver]
    cases hd : W.dial id with
    | none => exact deliver_inv out h fun m hm => hp m (by simp [hm])
    | some j =>
      obtain ⟨h1, h2⟩ := h.announce (X := X) (t := t) j (hp (id, p) (by simp))
      exact deliver_inv out h1 fun m hm => (hp m (by simp [hm])).grow h2

/-- No records are added. -/
theorem syncLoop_mem {X : DS.XEnv} {t : Int} : ∀ (ps : List (Peer × List Peer)) {n n' : Node} {out : List (String × Peer)},
    syncLoop X t ps n = .ok (n', out) → ∀ x ∈ n'.peers, x ∈ n.peers
  | [], n, n', out, he => by
    simp only [syncLoop, Res.ok.injEq, Prod.mk.injEq] at he
    rw [← he.1]; exact fun _ h => h
  | (p, inner) :: ps, n, n', out, he => by
    rw [syncLoop] at he
    cases h1 : syncPeer X t inner n p with
    | err e => rw [h1] at he; cases he
    | panic => rw [h1] at he; cases he
    | ok r1 =>
      obtain ⟨n1, o1⟩ := r1
      rw [h1] at he
      simp only [Res.bind] at he
      cases h2 : syncLoop X t ps n1 with
      | err e => rw [h2] at he; cases he
      | panic => rw [h2] at he; cases he
      | ok r2 =>
        obtain ⟨n2, o2⟩ := r2
        rw [h2] at he
        simp only [Res.ok.injEq, Prod.mk.injEq] at he
        rw [← he.1]
        intro x hx
        have := syncLoop_mem ps h2 x hx
        obtain ⟨t1, sv1, m1, rfl, ht⟩ := syncPeer_eff h1
        rcases ht with rfl | rfl
        · exact this
        · exact ((AMap.mem_erase _ _ _).1 this).1

/-- What is sent was in the inner orders. -/
theorem syncLoop_out {X : DS.XEnv} {t : Int} {Q : Peer → Prop} : ∀ (ps : List (Peer × List Peer)) {n n' : Node} {out : List (String × Peer)},
    syncLoop X t ps n = .ok (n', out) → (∀ r ∈ ps, ∀ q ∈ r.2, Q q) → ∀ m ∈ out, Q m.2
  | [], n, n', out, he, _ => by
    simp only [syncLoop, Res.ok.injEq, Prod.mk.injEq] at he
    rw [← he.2]; simp
  | (p, inner) :: ps, n, n', out, he, hq => by
    rw [syncLoop] at he
    cases h1 : syncPeer X t inner n p with
    | err e => rw [h1] at he; cases he
    | panic => rw [h1] at he; cases he
    | ok r1 =>
      obtain ⟨n1, o1⟩ := r1
      rw [h1] at he
      simp only [Res.bind] at he
      cases h2 : syncLoop X t ps n1 with
      | err e => rw [h2] at he; cases he
      | panic => rw [h2] at he; cases he
      | ok r2 =>
        obtain ⟨n2, o2⟩ := r2
        rw [h2] at he
        simp only [Res.ok.injEq, Prod.mk.injEq] at he
        rw [← he.2]
        intro m hm
        rcases List.mem_append.1 hm with hm | hm
        · unfold syncPeer at h1
          generalize checkPeer t n p = r at h1
          obtain ⟨n3, ok⟩ := r
          simp only at h1
          split at h1
          · simp only [Res.ok.injEq, Prod.mk.injEq] at h1
            rw [← h1.2] at hm; cases hm
          · split at h1
            · simp only [Res.ok.injEq, Prod.mk.injEq] at h1
              rw [← h1.2] at hm; cases hm
            · cases hsd : syncDatas X t (differentAddress n3 (sortedPeer p)) p.dataList (List.foldl (addService X t) n3 p.serviceList).dataset with
              | err e => rw [hsd] at h1; cases h1
              | panic => rw [hsd] at h1; cases h1
              | ok m1 =>
                rw [hsd] at h1
                simp only [Res.bind, Res.ok.injEq, Prod.mk.injEq] at h1
                rw [← h1.2] at hm
                obtain ⟨q, hq1, rfl⟩ := List.mem_map.1 hm
                exact hq (p, inner) (by simp) q (List.mem_filter.1 hq1).1
        · exact syncLoop_out ps h2 (fun r hr => hq r (by simp [hr])) m hm

theorem proper_of {σ : ι → Node} (h : Inv W fixed σ) (i : ι) {p : Peer} (hp : Told fixed σ p)
    (hne : differentAddress (σ i) (sortedPeer p) ≠ "") : Proper fixed σ i (differentAddress (σ i) (sortedPeer p)) := by
  obtain ⟨k, h1, h2⟩ := hp
  unfold differentAddress at hne ⊢
  rcases firstDifferent_spec (addresses (σ i)) (sortedPeer p).addressList with ⟨pre, post, g1, g2, g3⟩ | ⟨-, g⟩
  · generalize firstDifferent (addresses (σ i)) (sortedPeer p).addressList = id at *
    have hin : id ∈ addresses (σ k) := h1 _ (mem_sortStrings.1 (by show id ∈ (sortedPeer p).addressList; rw [g1]; simp))
    have hki : k ≠ i := by
      rintro rfl; exact g3 hin
    refine ⟨k, hki, hin, fun hf a ha hlt => ?_⟩
    have hpre : pre = [] := by
      cases pre with
      | nil => rfl
      | cons b pre =>
        have hb1 : b ∈ addresses (σ i) := g2 b (by simp)
        have hb2 : b ∈ addresses (σ k) := h1 _ (mem_sortStrings.1 (by show b ∈ (sortedPeer p).addressList; rw [g1]; simp))
        have e1 := h.own i b hb1
        rw [h.own k b hb2] at e1
        injection e1 with e1
        exact absurd e1 hki
    subst hpre
    have hs := sortStrings_ascending p.addressList
    change Ascending (sortedPeer p).addressList at hs
    have ha' : a ∈ (sortedPeer p).addressList := mem_sortStrings.2 ((h2 hf).mem_iff.2 ha)
    rw [g1] at hs ha'
    rcases List.mem_cons.1 ha' with e | ha'
    · exact String.lt_irrefl _ (e ▸ hlt)
    · exact (List.pairwise_cons.1 hs).1 a ha' hlt
  · exact absurd g hne

theorem sync_inv {X : DS.XEnv} {t : Int} {o : Orders} (ho : o.Ok) {i : ι} {σ σ' : ι → Node} (h : Inv W fixed σ)
    (he : Gossip.sync X W t o i σ = .ok σ') : Inv W fixed σ' := by
  unfold Gossip.sync syncWithPeers at he
  cases hl : syncLoop X t ((o.peers (peerItems t (σ i))).map fun p => (p, o.inner p (peerItems t (σ i)))) (σ i) with
  | err e => rw [hl] at he; cases he
  | panic => rw [hl] at he; cases he
  | ok r =>
    obtain ⟨n, out⟩ := r
    rw [hl] at he
    simp only [Res.bind, Res.ok.injEq] at he
    rw [← he]
    have hitems : ∀ p ∈ peerItems t (σ i), Told fixed σ p := by
      intro p hp
      obtain ⟨x, hx, rfl⟩ := List.mem_map.1 hp
      exact h.recs i x (List.mem_filter.1 hx).1
    obtain ⟨tb, sv, m, hn, -⟩ := syncLoop_eff _ hl
    have hsub := syncLoop_mem _ hl
    have hsrc : SrcAll (Proper fixed σ i) n.dataset := by
      refine src_syncLoop _ (h.srcs i) ?_ hl
      intro r hr hne
      obtain ⟨p, hp, rfl⟩ := List.mem_map.1 hr
      exact proper_of h i (hitems p ((ho.peers _).mem_iff.1 hp)) hne
    have ha : addresses { n with ready := true } = addresses (σ i) := by rw [hn]; rfl
    obtain ⟨h1, h2⟩ := h.upd (i := i) (n := { n with ready := true })
      ⟨fun a h => by rw [ha]; exact h, fun _ => by rw [ha], by rw [hn]⟩ (fun a h' => h.own i a (by rw [← ha]; exact h'))
      (fun x hx => h.recs i x (hsub x hx)) hsrc
    refine deliver_inv out h1 fun q hq => ?_
    refine Told.grow ?_ h2
    refine syncLoop_out (Q := Told fixed σ) _ hl ?_ q hq
    intro r hr q hq
    obtain ⟨p, hp, rfl⟩ := List.mem_map.1 hr
    exact hitems q ((ho.inner _ _).mem_iff.1 hq)

theorem step_inv {X : DS.XEnv} {t : Int} {e : Ev ι} (ho : e.orders.Ok) {σ σ' : ι → Node} (h : Inv W fixed σ)
    (hch : ∀ m, e.kind = .change m → ∀ name id, SourceIn m name id → SourceIn (σ e.who).dataset name id)
    (he : Gossip.step X W t e σ = .ok σ') : Inv W fixed σ' := by
  unfold Gossip.step at he
  cases hk : e.kind with
  | join => rw [hk] at he; exact join_inv h he
  | sync => rw [hk] at he; exact sync_inv ho h he
  | create c =>
    rw [hk] at he
    simp only at he
    cases hg : DS.getOrCreate X t (σ e.who).dataset c with
    | err x => rw [hg] at he; cases he
    | panic => rw [hg] at he; cases he
    | ok r =>
      obtain ⟨m, d⟩ := r
      rw [hg] at he
      simp only [Res.bind, Res.ok.injEq] at he
      rw [← he]
      exact (h.dataset (src_getOrCreate (h.srcs _) hg)).1
  | change m =>
    rw [hk] at he
    simp only [Res.ok.injEq] at he
    rw [← he]
    exact (h.dataset fun name id hs => h.srcs _ name id (hch m hk name id hs)).1
  | idle =>
    rw [hk] at he
    simp only [Res.ok.injEq] at he
    rw [← he]; exact h

theorem exec_inv {X : DS.XEnv} : ∀ (w : List (Ev ι)) {t : Int} {σ : ι → Node} {s' : Int × (ι → Node)}, (∀ e ∈ w, e.orders.Ok) →
    Adding X W w (t, σ) → Inv W fixed σ → exec X W w (t, σ) = .ok s' → Inv W fixed s'.2
  | [], t, σ, s', _, _, h, he => by
    simp only [exec, Res.ok.injEq] at he
    rw [← he]; exact h
  | e :: es, t, σ, s', ho, ha, h, he => by
    rw [exec] at he
    cases h1 : Gossip.step X W (t + e.wait) e σ with
    | err x => rw [h1] at he; cases he
    | panic => rw [h1] at he; cases he
    | ok σ1 =>
      rw [h1] at he
      exact exec_inv es (fun e he => ho e (by simp [he])) (ha.2 σ1 h1) (step_inv (ho e (by simp)) h ha.1 h1) he

theorem Starts.inv {σ : ι → Node} (hs : ∀ i, Starts W i (σ i)) (hw : Seen W fun i => (σ i).port) (hf : fixed → FixedAddresses W σ) :
    Inv W fixed σ where
  own := fun i => (hs i).own
  seen := hw
  known := hf
  recs := fun j x hx => by rw [(hs j).alone] at hx; cases hx
  srcs := fun i name id h => absurd h ((hs i).nobody name id)

end
end Gossip

open Gossip Net

/-- C164: whatever the nodes of a cluster do and in whatever order, a source of a data set of a node is an address that reaches another
node. -/
theorem C164_others {ι : Type} [DecidableEq ι] (X : DS.XEnv) (W : World ι) (σ : ι → Node) (t : Int)
    (hs : ∀ i, Starts W i (σ i)) (hw : Seen W fun i => (σ i).port) (w : List (Ev ι)) (ho : ∀ e ∈ w, e.orders.Ok)
    (ha : Adding X W w (t, σ)) (t' : Int) (σ' : ι → Node) (he : exec X W w (t, σ) = .ok (t', σ')) :
    ∀ i name id, SourceIn (σ' i).dataset name id → ∃ j, j ≠ i ∧ W.dial id = some j := by
  intro i name id hsrc
  have h := exec_inv (fixed := False) w ho ha (Starts.inv hs hw (fun h => h.elim)) he
  obtain ⟨j, h1, h2, -⟩ := h.srcs i name id hsrc
  exact ⟨j, h1, h.own j id h2⟩

/-- C165 at full strength: no two sources of a data set of a node reach the same node. -/
def C165_once_statement : Prop :=
  ∀ (X : DS.XEnv) (_ : X.Ok) (W : World (Fin 2)) (σ : Fin 2 → Node) (t : Int), (∀ i, Starts W i (σ i)) → Seen W (fun i => (σ i).port) →
    ∀ (w : List (Ev (Fin 2))), (∀ e ∈ w, e.orders.Ok) → Adding X W w (t, σ) → ∀ t' σ', exec X W w (t, σ) = .ok (t', σ') →
    ∀ i name a b, SourceIn (σ' i).dataset name a → SourceIn (σ' i).dataset name b → W.dial a = W.dial b → a = b

/-- C165: it holds if the nodes are seen only under addresses that they announce from the start. -/
theorem C165_once_partial {ι : Type} [DecidableEq ι] (X : DS.XEnv) (W : World ι) (σ : ι → Node) (t : Int)
    (hs : ∀ i, Starts W i (σ i)) (hw : FixedAddresses W σ) (w : List (Ev ι)) (ho : ∀ e ∈ w, e.orders.Ok)
    (ha : Adding X W w (t, σ)) (t' : Int) (σ' : ι → Node) (he : exec X W w (t, σ) = .ok (t', σ')) :
    ∀ i name a b, SourceIn (σ' i).dataset name a → SourceIn (σ' i).dataset name b → W.dial a = W.dial b → a = b := by
  intro i name a b h1 h2 hd
  have hseen : Seen W fun i => (σ i).port := fun i j => (hw i j).imp_right fun h => (hs i).own _ h
  have h := exec_inv (fixed := True) w ho ha (Starts.inv hs hseen (fun _ => hw)) he
  obtain ⟨j, -, g2, g3⟩ := h.srcs i name a h1
  obtain ⟨k, -, e2, e3⟩ := h.srcs i name b h2
  rw [h.own j a g2, h.own k b e2] at hd
  injection hd with hd
  subst hd
  have l1 := g3 trivial b e2
  have l2 := e3 trivial a g2
  rw [String.not_lt] at l1 l2
  exact String.le_antisymm l1 l2

/-- C165 with C156: in a cluster as there, after each synchronisation of a node that is late enough, exactly one source of the data set
reaches a node that keeps listing it. -/
theorem C165_exactly_one_partial {ι : Type} [DecidableEq ι] {X : DS.XEnv} (hX : X.Ok) (W : World ι) (addr : ι → List String) (port : ι → UInt32)
    (hW : W.Ok addr port) (acts : ι → Prop) (t : Int) (σ : ι → Node) (h0 : 0 ≤ t) (hσ : ∀ k, Settled addr port t k (σ k))
    (hstart : ∀ k, Starts W k (σ k))
    (ws : List (List (Ev ι))) (hws : ∀ w ∈ ws, Window acts w) (hb : ∀ w ∈ ws.head?, Begins acts w) (hlong : 100000000000 ≤ duration ws.flatten)
    (pre post : List (Ev ι)) (e : Ev ι) (hw : Window acts (pre ++ e :: post)) (hc : Clock (t + duration ws.flatten + duration (pre ++ e :: post)))
    (hsync : e.kind = .sync) (i : ι) (c : DataConfig) (hkeep : Keeping X W i c (ws.flatten ++ pre) (t, σ))
    (hadd : Adding X W (ws.flatten ++ pre ++ [e]) (t, σ))
    (m n : Nat) (hch : Chain acts (Link W σ) n i e.who) (hn : n ≤ 2 ^ m) (hm : 3 + 2 * m ≤ ws.length) (hij : e.who ≠ i) :
    ∃ t' σ', exec X W (ws.flatten ++ pre ++ [e]) (t, σ) = .ok (t', σ') ∧
      ∃ a, Served t' a c (σ' e.who).dataset ∧ W.dial a = some i ∧
        ∀ b, SourceIn (σ' e.who).dataset c.name b → W.dial b = some i → b = a := by
  obtain ⟨t', σ', h1, -, a, ha, h2⟩ := C156_spreads hX W addr port hW acts t σ h0 hσ ws hws hb hlong pre post e hw hc hsync i c hkeep m n hch hn hm hij
  refine ⟨t', σ', h1, a, h2, hW.dial i a ha, fun b hs hd => ?_⟩
  have hfix : FixedAddresses W σ := by
    intro k j
    refine (hW.seen k j).imp_right fun h => ?_
    rw [(hσ k).port]
    exact (hσ k).own.mem_iff.2 h
  have hords : ∀ e' ∈ ws.flatten ++ pre ++ [e], e'.orders.Ok := by
    intro e' he'
    rcases List.mem_append.1 he' with he' | he'
    · rcases List.mem_append.1 he' with he' | he'
      · obtain ⟨w, hw1, hw2⟩ := List.mem_flatten.1 he'
        exact (hws w hw1).orders e' hw2
      · exact hw.orders e' (by simp [he'])
    · exact hw.orders e' (by simp at he'; simp [he'])
  have hsa : SourceIn (σ' e.who).dataset c.name a := by
    obtain ⟨s, c', g1, -, -, src, x, g4, g5, -⟩ := h2
    exact ⟨s, src, x, (DS.lookup_some.1 g1).1, g4, g5⟩
  exact C165_once_partial X W σ t hstart hfix _ hords hadd t' σ' h1 e.who c.name b a hs hsa (hd.trans (hW.dial i a ha).symm)

namespace Gossip
/-! A cluster of two: the second has the first in its configuration, and the first sees it as `a`, which reaches it too. -/

def twoNode (i : Fin 2) : Node :=
  if i = 0 then newNode 1 ["z:1"] [] []
  else newNode 1 ["b:1"] ["z:1"] [("x", ⟨Data.newData (DS.defaultConfig "x"), some (14 * 24 * 3600 * DS.second)⟩)]

def twoWorld : World (Fin 2) where
  dial := fun s => if s = "z:1" then some 0 else if s = "b:1" ∨ s = "a:1" then some 1 else none
  seen := fun i _ => if i = 1 then "a" else ""

def twoEvents : List (Ev (Fin 2)) :=
  [⟨0, 1, .join, exOrders⟩, ⟨1000000000, 1, .join, exOrders⟩, ⟨0, 0, .sync, exOrders⟩]

theorem nobody_nil {m : DS.DL} (h : ∀ x ∈ m, x.2.data.sources = some []) (name id : String) : ¬ SourceIn m name id := by
  rintro ⟨s, src, e, h1, h2, h3⟩
  rw [h _ (AMap.mem_of_get? h1)] at h2
  injection h2 with h2
  subst h2
  cases h3

theorem twoNode_starts (i : Fin 2) : Starts twoWorld i (twoNode i) where
  own := by revert i; decide +kernel
  alone := by revert i; decide
  nobody := nobody_nil (by revert i; decide)

theorem twoWorld_seen : Seen twoWorld (fun i => (twoNode i).port) := by unfold Seen; decide +kernel

theorem twoEvents_ok : ∀ e ∈ twoEvents, e.orders.Ok := by
  have h : exOrders.Ok := ⟨fun l => .refl l, fun l => l.reverse_perm, fun _ l => .refl l⟩
  intro e he
  simp only [twoEvents, List.mem_cons, List.not_mem_nil, or_false] at he
  rcases he with rfl | rfl | rfl <;> exact h

/-- Without such events there is nothing to ask for. -/
theorem adding_of {ι : Type} [DecidableEq ι] {X : DS.XEnv} {W : World ι} : ∀ (w : List (Ev ι)) (s : Int × (ι → Node)),
    (∀ e ∈ w, e.kind = .join ∨ e.kind = .sync) → Adding X W w s
  | [], _, _ => trivial
  | e :: es, (t, σ), h => ⟨fun m hm => by (rcases h e (by simp) with h | h <;> rw [h] at hm <;> cases hm),
      fun σ' _ => adding_of es _ fun e he => h e (by simp [he])⟩

theorem twoEvents_kinds : ∀ e ∈ twoEvents, e.kind = .join ∨ e.kind = .sync := by
  intro e he
  simp only [twoEvents, List.mem_cons, List.not_mem_nil, or_false] at he
  rcases he with rfl | rfl | rfl
  · exact .inl rfl
  · exact .inl rfl
  · exact .inr rfl

/-- The sources, computed. -/
def sourcesOf (m : DS.DL) (name : String) : List String := (((m.get? name).bind (·.data.sources)).getD []).map (·.1)

theorem sourceIn_of {m : DS.DL} {name id : String} (h : id ∈ sourcesOf m name) : SourceIn m name id := by
  unfold sourcesOf at h
  cases h1 : m.get? name with
  | none => rw [h1] at h; cases h
  | some s =>
    rw [h1] at h
    simp only [Option.bind_some] at h
    cases h2 : s.data.sources with
    | none => rw [h2] at h; cases h
    | some src =>
      rw [h2] at h
      cases h3 : src.get? id with
      | none => exact absurd h (AMap.get?_eq_none_iff.1 h3)
      | some e => exact ⟨s, src, e, h1, h2, h3⟩

/-- The sources of the data set `x` of the first node at the end. -/
def twoSources (W : World (Fin 2)) : Option (List String) :=
  match exec (DS.toy 0) W twoEvents (0, twoNode) with
  | .ok (_, σ) => some (sourcesOf (σ 0).dataset "x")
  | _ => none

theorem twoSources_some {W : World (Fin 2)} {l : List String} (h : twoSources W = some l) :
    ∃ t' σ', exec (DS.toy 0) W twoEvents (0, twoNode) = .ok (t', σ') ∧ ∀ id ∈ l, SourceIn (σ' 0).dataset "x" id := by
  unfold twoSources at h
  split at h
  · rename_i t' σ' he
    simp only [Option.some.injEq] at h
    exact ⟨t', σ', he, fun id hid => sourceIn_of (by rw [h]; exact hid)⟩
  · cases h

end Gossip

/-- C165 fails: the second node joins, learns that it is seen as `a:1`, and joins again; when the first synchronises it has both records, and
the second is two sources of the data set. -/
theorem C165_once_fails : ¬ C165_once_statement := by
  intro h
  obtain ⟨t', σ', h1, h2⟩ := twoSources_some (W := twoWorld) (l := ["a:1", "b:1"]) (by decide +kernel)
  have := h (DS.toy 0) (DS.toy_ok 0) twoWorld twoNode 0 twoNode_starts twoWorld_seen twoEvents twoEvents_ok
    (adding_of _ _ twoEvents_kinds) t' σ' h1 0 "x" "b:1" "a:1" (h2 _ (by simp)) (h2 _ (by simp)) (by decide)
  exact absurd this (by decide)

/-- The hypotheses of C164 can be met with sources to speak of. -/
theorem C164_example : ∃ t' σ', exec (DS.toy 0) twoWorld twoEvents (0, twoNode) = .ok (t', σ') ∧
    SourceIn (σ' 0).dataset "x" "a:1" ∧ (∀ i name id, SourceIn (σ' i).dataset name id → ∃ j, j ≠ i ∧ twoWorld.dial id = some j) := by
  obtain ⟨t', σ', h1, h2⟩ := twoSources_some (W := twoWorld) (l := ["a:1", "b:1"]) (by decide +kernel)
  exact ⟨t', σ', h1, h2 _ (by simp), C164_others (DS.toy 0) twoWorld twoNode 0 twoNode_starts twoWorld_seen twoEvents twoEvents_ok
    (adding_of _ _ twoEvents_kinds) t' σ' h1⟩

namespace Gossip
/-- The same, but the first node does not tell the second an address. -/
def twoQuiet : World (Fin 2) := { twoWorld with seen := fun _ _ => "" }
end Gossip

/-- The hypotheses of `C165_once_partial` can be met with a source. -/
theorem C165_example : ∃ t' σ', exec (DS.toy 0) twoQuiet twoEvents (0, twoNode) = .ok (t', σ') ∧ SourceIn (σ' 0).dataset "x" "b:1" ∧
    ∀ a, SourceIn (σ' 0).dataset "x" a → twoQuiet.dial a = some 1 → a = "b:1" := by
  obtain ⟨t', σ', h1, h2⟩ := twoSources_some (W := twoQuiet) (l := ["b:1"]) (by decide +kernel)
  refine ⟨t', σ', h1, h2 _ (by simp), fun a ha hd => ?_⟩
  exact C165_once_partial (DS.toy 0) twoQuiet twoNode 0 (fun i => ⟨(twoNode_starts i).own, (twoNode_starts i).alone, (twoNode_starts i).nobody⟩)
    (fun _ _ => .inl rfl) twoEvents twoEvents_ok (adding_of _ _ twoEvents_kinds) t' σ' h1 0 "x" a "b:1" ha (h2 _ (by simp)) (hd.trans (by decide))

namespace Gossip

theorem exData_starts (i : Fin 3) : Starts exWorld i (exData i) where
  own := by revert i; decide +kernel
  alone := rfl
  nobody := nobody_nil (by revert i; decide)

end Gossip

/-- The hypotheses of `C165_exactly_one_partial` can be met: the third node of C156 has the first as its source, once. -/
theorem C165_exactly_one_example : ∃ t' σ',
    exec (DS.toy 0) exWorld ((List.replicate 5 exWindow).flatten ++ exWindow.take 3 ++ [⟨0, 2, .sync, exOrders⟩]) (0, exData) = .ok (t', σ') ∧
    ∃ a, Served t' a (DS.defaultConfig "x") (σ' 2).dataset ∧ exWorld.dial a = some 0 ∧
      ∀ b, SourceIn (σ' 2).dataset "x" b → exWorld.dial b = some 0 → b = a :=
  C165_exactly_one_partial (DS.toy_ok 0) exWorld exAddr (fun _ => 1) exWorld_ok (fun _ => True) 0 exData (by decide) exData_settled exData_starts
    (List.replicate 5 exWindow) (fun w hw => by rw [List.eq_of_mem_replicate hw]; exact exWindow_ok)
    (fun w hw => by simp only [List.replicate, List.head?_cons, Option.mem_def, Option.some.injEq] at hw; rw [← hw]; exact exWindow_begins)
    (by decide) (exWindow.take 3) (exWindow.drop 4) ⟨0, 2, .sync, exOrders⟩ exWindow_ok (by unfold Clock; decide) rfl 0 (DS.defaultConfig "x")
    (keeping_of _ _ (by decide +kernel))
    (adding_of _ _ fun e he => by
      rcases List.mem_append.1 he with he | he
      · exact exEvents he
      · simp only [List.mem_singleton] at he; rw [he]; exact .inr rfl) 1 2
    (.step (.step (.refl 0 trivial) (j := 1) trivial (.inl ⟨"b:1", by decide, by decide⟩)) trivial (.inr ⟨"b:1", by decide, by decide⟩))
    (by decide) (by decide) (by decide)

end Veri
