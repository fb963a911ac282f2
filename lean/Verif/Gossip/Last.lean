import Verif.Gossip.Spread
/-
C156 again: a data set that nobody removes is kept listed by the periodic joins, so it is known to the whole cluster.
-/
set_option autoImplicit false
set_option linter.unusedSectionVars false
namespace Veri
namespace Gossip
open Net

/-! ### Specification -/

/-- The retention is at least 198 seconds (0 means 14 days, data/dataset.go:58-63). -/
def Long (c : DataConfig) : Prop := 198000000000 ≤ DS.getRetention c.retention

/-- The list has the data set, with at least this version, and for at least so long. -/
def Until (c : DataConfig) (L : Int) (m : DS.DL) : Prop :=
  ∃ s c' x, m.get? c.name = some s ∧ s.data.config = some c' ∧ c.version ≤ c'.version ∧ s.expires = some x ∧ L ≤ x

/-- All data sets of the node, and all those in its records, have long retentions. -/
structure LongNode (n : Node) : Prop where
  own : ∀ k s c, n.dataset.get? k = some s → s.data.config = some c → Long c
  told : ∀ id s, n.peers.get? id = some s → ∀ c ∈ s.peer.dataList, Long c

/-- What happens to the data sets of `i` apart from the creation of data sets leaves this one in the list, with no smaller version and no
earlier expiry. -/
def Spared {ι : Type} (i : ι) (c : DataConfig) (e : Ev ι) (σ : ι → Node) : Prop :=
  e.who = i → ∀ m, e.kind = .change m → ∀ s c' x, (σ i).dataset.get? c.name = some s → s.data.config = some c' → s.expires = some x →
    ∃ s2 c2 x2, m.get? c.name = some s2 ∧ s2.data.config = some c2 ∧ c'.version ≤ c2.version ∧ s2.expires = some x2 ∧ x ≤ x2

variable {ι : Type} [DecidableEq ι]

def Sparing (X : DS.XEnv) (W : World ι) (i : ι) (c : DataConfig) : List (Ev ι) → Int × (ι → Node) → Prop
  | [], _ => True
  | e :: es, (t, σ) => Spared i c e σ ∧ ∀ σ', Gossip.step X W (t + e.wait) e σ = .ok σ' → Sparing X W i c es (t + e.wait, σ')

/-- The events bring no data set with a shorter retention. -/
def LongEvents (w : List (Ev ι)) : Prop := ∀ e ∈ w, (∀ c, e.kind = .create c → Long c) ∧
  ∀ m, e.kind = .change m → ∀ k s c, m.get? k = some s → s.data.config = some c → Long c

/-! ### Lists -/

/-- The invariant of a list; `b` says that it is the one that has the data set. -/
structure Fit (b : Prop) (c : DataConfig) (L : Int) (m : DS.DL) : Prop where
  confs : ∀ k s c', m.get? k = some s → s.data.config = some c' → Long c'
  last : b → Until c L m

theorem Fit.less {b : Prop} {c : DataConfig} {L L' : Int} {m : DS.DL} (h : Fit b c L m) (hL : L' ≤ L) : Fit b c L' m :=
  ⟨h.confs, fun hb => by
    obtain ⟨s, c', x, h1, h2, h3, h4, h5⟩ := h.last hb
    exact ⟨s, c', x, h1, h2, h3, h4, by omega⟩⟩

section
variable {b : Prop} {c : DataConfig} {t L : Int}

/-- A slot is replaced by one that is not worse. -/
theorem fit_set {m : DS.DL} (h : Fit b c L m) {k : String} {s s' : DS.Slot} {c0 c1 : DataConfig} (hs : m.get? k = some s)
    (h0 : s.data.config = some c0) (h1 : s'.data.config = some c1) (hl : Long c1) (hv : c0.version ≤ c1.version)
    (hx : ∀ x, s.expires = some x → ∃ x', s'.expires = some x' ∧ (L ≤ x → L ≤ x')) : Fit b c L (m.set k s') := by
  constructor
  · intro k' s2 c2 hs2 hc2
    rw [AMap.get?_set] at hs2
    split at hs2
    · injection hs2 with hs2
      subst hs2
      rw [h1] at hc2
      injection hc2 with hc2
      rw [← hc2]; exact hl
    · exact h.confs _ _ _ hs2 hc2
  · intro hb
    obtain ⟨s2, c2, x, g1, g2, g3, g4, g5⟩ := h.last hb
    by_cases hk : k = c.name
    · subst hk
      rw [hs] at g1
      injection g1 with g1
      subst g1
      rw [h0] at g2
      injection g2 with g2
      subst g2
      obtain ⟨x', e1, e2⟩ := hx x g4
      exact ⟨s', c1, x', AMap.get?_set_self _ _ _, h1, UInt64.le_trans g3 hv, e1, e2 g5⟩
    · exact ⟨s2, c2, x, by rw [AMap.get?_set_ne _ _ hk]; exact g1, g2, g3, g4, g5⟩

theorem fit_get {X : DS.XEnv} (hX : X.Ok) {m : DS.DL} (hg : Good m) (h : Fit b c L m) (hL : L ≤ t + 198000000000) {k : String} {s : DS.Slot}
    (hs : DS.lookup t m k = some s) :
    ∃ e', DS.get X t m k = .ok (m.set k { s with expires := some e' }, s.data) ∧ t ≤ e' ∧ t + 198000000000 ≤ e' ∧
      Fit b c L (m.set k { s with expires := some e' }) := by
  obtain ⟨hs1, hlive⟩ := DS.lookup_some.1 hs
  obtain ⟨c0, h0, hn⟩ := hg.wf.2 _ _ hs1
  obtain ⟨e, he⟩ := hg.timed _ _ hs1
  have hlong := h.confs _ _ _ hs1 h0
  have hle : t ≤ e := by
    simp only [DS.live, he, decide_eq_true_eq] at hlive
    exact hlive
  unfold Long at hlong
  obtain ⟨e', h1, h2, -⟩ := hX.extend e t (DS.getRetention c0.retention) hle (by omega)
  refine ⟨e', by rw [DS.get_old hs h0, he, h1], by omega, by omega, ?_⟩
  exact fit_set h (s' := { s with expires := some e' }) hs1 h0 h0 hlong (UInt64.le_refl _) fun x _ => ⟨e', rfl, fun _ => by omega⟩

theorem Fit.found {m : DS.DL} (h : Fit b c L m) (ht : t ≤ L) (hb : b) :
    ∃ s c', DS.lookup t m c.name = some s ∧ s.data.config = some c' ∧ c.version ≤ c'.version := by
  obtain ⟨s, c', x, h1, h2, h3, h4, h5⟩ := h.last hb
  refine ⟨s, c', DS.lookup_some.2 ⟨h1, ?_⟩, h2, h3⟩
  simp only [DS.live, h4, decide_eq_true_eq]
  omega

theorem fit_create {m m' : DS.DL} (h : Fit b c L m) (ht : t ≤ L) {c1 : DataConfig} (hl : Long c1)
    (he : DS.createIfNotExists t m c1 = .ok m') : Fit b c L m' := by
  cases hlk : DS.lookup t m c1.name with
  | none =>
    rw [DS.create_new hlk] at he
    injection he with he
    rw [← he]
    constructor
    · intro k' s2 c2 hs2 hc2
      rw [AMap.get?_set] at hs2
      split at hs2
      · injection hs2 with hs2
        subst hs2
        rw [show (DS.Slot.mk (Data.newData c1) (DS.expiry t (DS.getRetention c1.retention))).data.config = some c1 from DS.newData_config c1] at hc2
        injection hc2 with hc2
        rw [← hc2]; exact hl
      · exact h.confs _ _ _ hs2 hc2
    · intro hb
      have hne : c1.name ≠ c.name := by
        intro e
        obtain ⟨s, c', g1, -⟩ := h.found ht hb
        rw [← e, hlk] at g1
        cases g1
      obtain ⟨s2, c2, x, g1, g2⟩ := h.last hb
      exact ⟨s2, c2, x, by rw [AMap.get?_set_ne _ _ hne]; exact g1, g2⟩
  | some s =>
    cases h0 : s.data.config with
    | none =>
      unfold DS.createIfNotExists at he
      rw [hlk] at he
      simp only [h0, Res.ofOption, Res.bind] at he
      cases he
    | some c0 =>
      rw [DS.create_old hlk h0] at he
      injection he with he
      rw [← he]
      split
      · rename_i hv
        exact fit_set h (s' := { s with data := { s.data with config := some c1 } }) (DS.lookup_some.1 hlk).1 h0 rfl hl (UInt64.le_of_lt hv)
          fun x hx => ⟨x, hx, fun h => h⟩
      · exact h

theorem addSource_config (now : Int) (dt : Data) (id : SourceId) (h : dt.sources ≠ none) : (addSource now dt id).config = dt.config :=
  (isSource_addSource h id).2.2.1

theorem fit_syncData {X : DS.XEnv} (hX : X.Ok) {m m' : DS.DL} (hg : Good m) (h : Fit b c L m) (ht : t ≤ L) (hL : L ≤ t + 198000000000)
    {c1 : DataConfig} (hk : Keepable c1) (hl : Long c1) {id : String} (he : syncData X t id m c1 = .ok m') : Fit b c L m' := by
  obtain ⟨m1, a1, a2, ⟨s, c', a3, -⟩, -⟩ := good_create (now := t) hg hk
  have f1 := fit_create h ht hl a1
  obtain ⟨e', g1, g2, g3, g4⟩ := fit_get hX a2 f1 hL a3
  unfold syncData DS.getOrCreate at he
  rw [a1] at he
  simp only [Res.bind] at he
  rw [g1] at he
  simp only at he
  rw [AMap.get?_set_self] at he
  simp only [Res.ok.injEq] at he
  rw [← he]
  have hs1 := (DS.lookup_some.1 a3).1
  obtain ⟨c2, w1, w2⟩ := a2.wf.2 _ _ hs1
  exact fit_set g4 (s' := ⟨addSource t s.data id, some e'⟩) (AMap.get?_set_self _ _ _) w1
    ((addSource_config t s.data id (a2.inited _ _ hs1)).trans w1) (f1.confs _ _ _ hs1 w1) (UInt64.le_refl _) fun x hx => ⟨x, hx, fun h => h⟩

theorem fit_syncDatas {X : DS.XEnv} (hX : X.Ok) {id : String} (ht : t ≤ L) (hL : L ≤ t + 198000000000) : ∀ (cs : List DataConfig) {m m' : DS.DL},
    Good m → Fit b c L m → (∀ c1 ∈ cs, Keepable c1 ∧ Long c1) → syncDatas X t id cs m = .ok m' → Fit b c L m'
  | [], m, m', _, h, _, he => by
    simp only [syncDatas, Res.ok.injEq] at he
    rw [← he]; exact h
  | c1 :: cs, m, m', hg, h, hk, he => by
    obtain ⟨m1, a1, a2, -⟩ := syncData_ok hX (now := t) (id := id) hg (hk c1 (by simp)).1
    rw [syncDatas, a1] at he
    exact fit_syncDatas hX ht hL cs a2 (fit_syncData hX hg h ht hL (hk c1 (by simp)).1 (hk c1 (by simp)).2 a1) (fun c2 h2 => hk c2 (by simp [h2])) he

theorem fit_syncPeer {X : DS.XEnv} (hX : X.Ok) (ht : t ≤ L) (hL : L ≤ t + 198000000000) {n n' : Node} {p : Peer} {inner : List Peer}
    {out : List (String × Peer)} (hg : Good n.dataset) (h : Fit b c L n.dataset) (hk : ∀ c1 ∈ p.dataList, Keepable c1 ∧ Long c1)
    (he : syncPeer X t inner n p = .ok (n', out)) : Fit b c L n'.dataset := by
  unfold syncPeer at he
  have hcp : (checkPeer t n p).1.dataset = n.dataset := by
    rcases checkPeer_peers t n p with h1 | ⟨h1, -⟩ <;> rw [h1]
  generalize checkPeer t n p = r at he hcp
  obtain ⟨n1, ok⟩ := r
  simp only at he hcp
  split at he
  · simp only [Res.ok.injEq, Prod.mk.injEq] at he
    rw [← he.1, hcp]; exact h
  · split at he
    · simp only [Res.ok.injEq, Prod.mk.injEq] at he
      rw [← he.1, hcp]; exact h
    · obtain ⟨sv, hsv⟩ := addServices_eq X t p.serviceList n1
      rw [hsv] at he
      cases hm : syncDatas X t (differentAddress n1 (sortedPeer p)) p.dataList n1.dataset with
      | ok m =>
        rw [hm] at he
        simp only [Res.bind, Res.ok.injEq, Prod.mk.injEq] at he
        rw [← he.1]
        rw [hcp] at hm
        exact fit_syncDatas hX ht hL _ hg h hk hm
      | err e => rw [hm] at he; cases he
      | panic => rw [hm] at he; cases he

theorem fit_syncLoop {X : DS.XEnv} (hX : X.Ok) (ht : t ≤ L) (hL : L ≤ t + 198000000000) : ∀ (ps : List (Peer × List Peer)) {n n' : Node}
    {out : List (String × Peer)}, Good n.dataset → Fit b c L n.dataset → (∀ r ∈ ps, ∀ c1 ∈ r.1.dataList, Keepable c1 ∧ Long c1) →
    syncLoop X t ps n = .ok (n', out) → Fit b c L n'.dataset
  | [], n, n', out, _, h, _, he => by
    simp only [syncLoop, Res.ok.injEq, Prod.mk.injEq] at he
    rw [← he.1]; exact h
  | (p, inner) :: ps, n, n', out, hg, h, hk, he => by
    obtain ⟨n1, o1, a1, -, a3, -⟩ := syncPeer_ok hX (now := t) (inner := inner) (p := p) hg fun c1 h1 => (hk (p, inner) (by simp) c1 h1).1
    have f1 := fit_syncPeer hX ht hL hg h (fun c1 h1 => hk (p, inner) (by simp) c1 h1) a1
    rw [syncLoop, a1] at he
    simp only [Res.bind] at he
    cases h2 : syncLoop X t ps n1 with
    | err e => rw [h2] at he; cases he
    | panic => rw [h2] at he; cases he
    | ok r2 =>
      obtain ⟨n2, o2⟩ := r2
      rw [h2] at he
      simp only [Res.ok.injEq, Prod.mk.injEq] at he
      rw [← he.1]
      exact fit_syncLoop hX ht hL ps a3 f1 (fun r hr => hk r (by simp [hr])) h2

theorem fit_walk {X : DS.XEnv} (hX : X.Ok) : ∀ (ks : List String) {L : Int} (_ : L ≤ t + 198000000000) {m : DS.DL}, Good m → ks.Nodup →
    (∀ k ∈ ks, (DS.lookup t m k).isSome = true) → Fit b c L m →
    ∃ m' cs, DS.walk X t ks m = .ok (m', cs) ∧ Fit b c L m' ∧ (∀ c1 ∈ cs, Long c1) ∧ (b → c.name ∈ ks → Fit b c (t + 198000000000) m')
  | [], L, _, m, _, _, _, h => ⟨m, [], rfl, h, by simp, by simp⟩
  | k :: ks, L, hL, m, hg, hn, hl, h => by
    have hn' := List.nodup_cons.1 hn
    cases hs : DS.lookup t m k with
    | none => have := hl k (by simp); rw [hs] at this; cases this
    | some s =>
      obtain ⟨e, h1, h2, h3, h4⟩ := fit_get hX hg h hL hs
      have hs1 := (DS.lookup_some.1 hs).1
      obtain ⟨c0, hc0, hck⟩ := hg.wf.2 _ _ hs1
      have hkeep := hg.keep _ _ _ hs1 hc0
      have g1 : Good (m.set k { s with expires := some e }) :=
        good_set hg (s := { s with expires := some e }) hc0 hck (hg.inited _ _ hs1 : s.data.sources ≠ none) rfl hkeep
      have hl' : ∀ k' ∈ ks, (DS.lookup t (m.set k { s with expires := some e }) k').isSome = true := fun k' hk' => by
        rw [DS.lookup_set_ne (fun e0 : k = k' => hn'.1 (e0 ▸ hk'))]
        exact hl k' (by simp [hk'])
      obtain ⟨m', cs, a1, a2, a3, a4⟩ := fit_walk hX ks hL g1 hn'.2 hl' h4
      have hw : DS.walk X t (k :: ks) m = .ok (m', c0 :: cs) := by simp only [DS.walk, h1, Res.bind, hc0, Res.ofOption, a1]
      refine ⟨m', c0 :: cs, hw, a2, ?_, ?_⟩
      · intro c1 hc1
        rcases List.mem_cons.1 hc1 with rfl | hc1
        · exact h.confs _ _ _ hs1 hc0
        · exact a3 c1 hc1
      · intro hb hmem
        by_cases hk : c.name ∈ ks
        · exact a4 hb hk
        · have hk' : k = c.name := ((List.mem_cons.1 hmem).resolve_right hk).symm
          subst hk'
          have f : Fit b c (t + 198000000000) (m.set c.name { s with expires := some e }) := by
            refine ⟨h4.confs, fun _ => ?_⟩
            obtain ⟨s2, c2, x, q1, q2, q3, -⟩ := h4.last hb
            rw [AMap.get?_set_self] at q1
            injection q1 with q1
            subst q1
            exact ⟨_, c2, e, AMap.get?_set_self _ _ _, q2, q3, rfl, h3⟩
          obtain ⟨m2, cs2, b1, b2, -⟩ := fit_walk hX ks (Int.le_refl _) g1 hn'.2 hl' f
          rw [a1] at b1
          simp only [Res.ok.injEq, Prod.mk.injEq] at b1
          rw [b1.1]
          exact b2

end

/-! ### The cluster -/

section
variable {W : World ι} {addr : ι → List String} {port : ι → UInt32} {i : ι} {c : DataConfig} {t L : Int}

/-- Data sets have long retentions everywhere, and `i` has this one. -/
structure FitAt (i : ι) (c : DataConfig) (L : Int) (k : ι) (n : Node) : Prop where
  fit : Fit (k = i) c L n.dataset
  told : ∀ id s, n.peers.get? id = some s → ∀ c ∈ s.peer.dataList, Long c

theorem FitAt.less {k : ι} {n : Node} {L' : Int} (h : FitAt i c L k n) (hL : L' ≤ L) : FitAt i c L' k n := ⟨h.fit.less hL, h.told⟩

theorem announce_dataset {X : DS.XEnv} {n : Node} {p : Peer} : (announce X t n p).dataset = n.dataset := by
  unfold announce; split <;> rfl

theorem announce_fit {X : DS.XEnv} {k : ι} {n : Node} {p : Peer} (h : FitAt i c L k n) (hp : ∀ c ∈ p.dataList, Long c) : FitAt i c L k (announce X t n p) := by
  refine ⟨by rw [announce_dataset]; exact h.fit, ?_⟩
  unfold announce
  cases hch : announceCheck t n p with
  | none => exact h.told
  | some r =>
    obtain ⟨-, -, rfl, -⟩ := announceCheck_some hch
    intro id s hs
    simp only [putPeer, AMap.get?_set] at hs
    split at hs
    · injection hs with hs
      subst hs
      exact hp
    · exact h.told id s hs

theorem nodeInfo_fit {X : DS.XEnv} (hX : X.Ok) (hc : Clock t) {o : Orders} (ho : o.Ok) {k : ι} {n : Node} (hn : Settled addr port t k n)
    (hf : FitAt i c L k n) (ht : t ≤ L) (hL : L ≤ t + 198000000000) :
    ∃ m p, nodeInfo X t (o.names (DS.names t n.dataset)) n = .ok ({ n with dataset := m }, p) ∧ Settled addr port t k { n with dataset := m } ∧
      RecOf addr t k p ∧ FitAt i c L k { n with dataset := m } ∧ (k = i → FitAt i c (t + 198000000000) k { n with dataset := m }) ∧
      ∀ c ∈ p.dataList, Long c := by
  have hnd : (o.names (DS.names t n.dataset)).Nodup := (ho.names _).nodup_iff.2 (DS.nodup_names hn.data.wf.1)
  obtain ⟨m, cs, w1, w2, w3, w4⟩ := fit_walk hX (o.names (DS.names t n.dataset)) hL hn.data hnd
    (fun x hx => (DS.mem_names hn.data.wf.1).1 ((ho.names _).mem_iff.1 hx)) hf.fit
  obtain ⟨m', p, h1, h2, h3, -⟩ := nodeInfo_ok hX hc hn (ho.names _)
  have h1' := h1
  rw [nodeInfo, w1] at h1'
  simp only [Res.bind, Res.ok.injEq, Prod.mk.injEq] at h1'
  have hm : m = m' := congrArg Node.dataset h1'.1
  subst hm
  refine ⟨m, p, h1, h2, h3, ⟨w2, hf.told⟩, fun hk => ⟨w4 hk ?_, hf.told⟩, by rw [← h1'.2]; exact w3⟩
  obtain ⟨s, c', g1, -⟩ := hf.fit.found ht hk
  exact (ho.names _).mem_iff.2 ((DS.mem_names hn.data.wf.1).2 (by rw [g1]; rfl))

theorem joinOne_fit {X : DS.XEnv} (hX : X.Ok) (hW : W.Ok addr port) (hc : Clock t) {o : Orders} (ho : o.Ok) (k : ι) {σ σ' : ι → Node}
    (hσ : ∀ l, Settled addr port t l (σ l)) (hf : ∀ l, FitAt i c L l (σ l)) (ht : t ≤ L) (hL : L ≤ t + 198000000000) {id : String}
    (h : joinOne X W t o k σ id = .ok σ') : ∀ l, FitAt i c L l (σ' l) := by
  obtain ⟨m, p, h1, h2, h3, h4, -, h6⟩ := nodeInfo_fit hX hc ho (hσ k) (hf k) ht hL
  unfold joinOne at h
  rw [h1] at h
  simp only [Res.bind] at h
  have a1 : ∀ l, Settled addr port t l (upd σ k { σ k with dataset := m } l) := upd_all hσ h2
  have a2 : ∀ l, FitAt i c L l (upd σ k { σ k with dataset := m } l) := upd_all hf h4
  generalize upd σ k { σ k with dataset := m } = σ1 at *
  cases hd : W.dial id with
  | none =>
    rw [hd] at h
    simp only [Res.ok.injEq] at h
    subst h
    exact a2
  | some j =>
    rw [hd] at h
    simp only [Res.ok.injEq] at h
    have b1 : ∀ l, Settled addr port t l (upd σ1 j (announce X t (σ1 j) p) l) := upd_all a1 (announce_settled hX (a1 j) h3)
    have b2 : ∀ l, FitAt i c L l (upd σ1 j (announce X t (σ1 j) p) l) := upd_all a2 (announce_fit (a2 j) h6)
    generalize upd σ1 j (announce X t (σ1 j) p) = σ2 at *
    obtain ⟨-, l2, -, l4⟩ := learn_settled hW (j := j) (b1 k)
    subst h
    refine upd_all b2 ⟨?_, ?_⟩
    · rw [l4]; exact (b2 k).fit
    · rw [l2]; exact (b2 k).told

theorem joinAll_fit {X : DS.XEnv} (hX : X.Ok) (hW : W.Ok addr port) (hc : Clock t) {o : Orders} (ho : o.Ok) (k : ι) (ht : t ≤ L)
    (hL : L ≤ t + 198000000000) : ∀ (ids : List String) (σ σ' : ι → Node), (∀ l, Settled addr port t l (σ l)) → (∀ l, FitAt i c L l (σ l)) →
    joinAll X W t o k ids σ = .ok σ' → ∀ l, FitAt i c L l (σ' l)
  | [], σ, σ', _, hf, h => by
    simp only [joinAll, Res.ok.injEq] at h
    subst h
    exact hf
  | id :: ids, σ, σ', hσ, hf, h => by
    obtain ⟨σ1, a1, a2, -⟩ := joinOne_ok hX hW hc ho k σ hσ id
    rw [joinAll, a1] at h
    exact joinAll_fit hX hW hc ho k ht hL ids σ1 σ' a2 (joinOne_fit hX hW hc ho k hσ hf ht hL a1) h

theorem join_fit {X : DS.XEnv} (hX : X.Ok) (hW : W.Ok addr port) (hc : Clock t) {o : Orders} (ho : o.Ok) (k : ι) {σ σ' : ι → Node}
    (hσ : ∀ l, Settled addr port t l (σ l)) (hf : ∀ l, FitAt i c L l (σ l)) (ht : t ≤ L) (hL : L ≤ t + 198000000000)
    (h : join X W t o k σ = .ok σ') : (∀ l, FitAt i c L l (σ' l)) ∧ (k = i → ∀ l, FitAt i c (t + 198000000000) l (σ' l)) := by
  obtain ⟨m, p, h1, h2, h3, h4, h5, -⟩ := nodeInfo_fit hX hc ho (hσ k) (hf k) ht hL
  simp only [join, h1, Res.bind] at h
  refine ⟨joinAll_fit hX hW hc ho k ht hL _ _ _ (upd_all hσ h2) (upd_all hf h4) h, ?_⟩
  intro hk
  refine joinAll_fit hX hW hc ho k (by omega) (Int.le_refl _) _ _ _ (upd_all hσ h2) ?_ h
  intro l
  by_cases hl : l = k
  · subst hl
    rw [upd_self]
    exact h5 hk
  · rw [upd_ne _ _ hl]
    exact ⟨⟨(hf l).fit.confs, fun e => absurd (e.trans hk.symm) hl⟩, (hf l).told⟩

theorem deliver_fit {X : DS.XEnv} : ∀ (out : List (String × Peer)) (σ : ι → Node), (∀ m ∈ out, ∀ c ∈ m.2.dataList, Long c) →
    (∀ l, FitAt i c L l (σ l)) → ∀ l, FitAt i c L l (deliver X W t out σ l)
  | [], σ, _, hf => hf
  | (id, p) :: out, σ, ho, hf => by
    unfold deliver
    have ho' : ∀ m ∈ out, ∀ c ∈ m.2.dataList, Long c := fun m hm => ho m (List.mem_cons_of_mem _ hm)
    cases hd : W.dial id with
    | none => exact deliver_fit out σ ho' hf
    | some j => exact deliver_fit out _ ho' (upd_all hf (announce_fit (hf j) (ho (id, p) List.mem_cons_self)))

theorem sync_fit {X : DS.XEnv} (hX : X.Ok) {o : Orders} (ho : o.Ok) (k : ι) {σ σ' : ι → Node}
    (hσ : ∀ l, Settled addr port t l (σ l)) (hf : ∀ l, FitAt i c L l (σ l)) (ht : t ≤ L) (hL : L ≤ t + 198000000000)
    (h : sync X W t o k σ = .ok σ') : ∀ l, FitAt i c L l (σ' l) := by
  have hn := hσ k
  let ps := (o.peers (peerItems t (σ k))).map fun p => (p, o.inner p (peerItems t (σ k)))
  have hrec : ∀ p ∈ peerItems t (σ k), ∀ c ∈ p.dataList, Keepable c ∧ Long c := by
    intro p hp c1 hc1
    obtain ⟨id, s, h1, h2, rfl⟩ := (mem_peerItems hn.nodup).1 hp
    obtain ⟨l, rfl, h4, -⟩ := hn.recs id s h1
    exact ⟨h4.keep c1 hc1, (hf k).told _ _ h1 c1 hc1⟩
  have hps : ∀ r ∈ ps, r.1 ∈ peerItems t (σ k) ∧ ∀ q, q ∈ r.2 ↔ q ∈ peerItems t (σ k) := by
    intro r hr
    obtain ⟨p, hp, rfl⟩ := List.mem_map.1 hr
    exact ⟨(ho.peers _).mem_iff.1 hp, fun q => (ho.inner p _).mem_iff⟩
  obtain ⟨n', out, h1, -⟩ := syncLoop_ok hX (now := t) ps hn.data fun r hr c hcm => (hrec r.1 (hps r hr).1 c hcm).1
  have hfit := fit_syncLoop hX ht hL ps hn.data (hf k).fit (fun r hr => hrec r.1 (hps r hr).1) h1
  obtain ⟨tb, sv, m, he, hsub⟩ := syncLoop_eff ps h1
  have hsync : sync X W t o k σ = .ok (deliver X W t out (upd σ k { n' with ready := true })) := by
    unfold sync syncWithPeers
    show Res.bind (Res.bind (syncLoop X t ps (σ k)) _) _ = _
    rw [h1]
    rfl
  rw [hsync] at h
  injection h with h
  rw [← h]
  refine deliver_fit out _ ?_ (upd_all hf ⟨hfit, ?_⟩)
  · rintro ⟨to, q⟩ hq
    obtain ⟨-, -, r, hr, -, hqr⟩ := C61_sent X t ps (σ k) n' out h1 to q hq
    exact fun c1 h1 => (hrec q (((hps r hr).2 q).1 hqr) c1 h1).2
  · intro id s hs
    exact (hf k).told id s (hsub _ s (by rw [he] at hs; exact hs))

theorem step_fit {X : DS.XEnv} (hX : X.Ok) (hW : W.Ok addr port) (hc : Clock t) {e : Ev ι} (ho : e.orders.Ok)
    (hk : ∀ c, e.kind = .create c → Keepable c) (hl : ∀ c, e.kind = .create c → Long c)
    (hm : ∀ m, e.kind = .change m → ∀ k s c, m.get? k = some s → s.data.config = some c → Long c) {σ σ' : ι → Node}
    (hσ : ∀ k, Settled addr port t k (σ k)) (hsp : Spared i c e σ) (hf : ∀ l, FitAt i c L l (σ l)) (ht : t ≤ L) (hL : L ≤ t + 198000000000)
    (h : Gossip.step X W t e σ = .ok σ') : (∀ l, FitAt i c L l (σ' l)) ∧
      (e.who = i → e.kind = .join → ∀ l, FitAt i c (t + 198000000000) l (σ' l)) := by
  unfold Gossip.step at h
  cases hkind : e.kind with
  | join =>
    rw [hkind] at h
    obtain ⟨a1, a2⟩ := join_fit hX hW hc ho e.who hσ hf ht hL h
    exact ⟨a1, fun h _ => a2 h⟩
  | sync =>
    rw [hkind] at h
    exact ⟨sync_fit hX ho e.who hσ hf ht hL h, fun _ h => by cases h⟩
  | create c1 =>
    rw [hkind] at h
    refine ⟨?_, fun _ h => by cases h⟩
    have hg := (hσ e.who).data
    obtain ⟨m1, a1, a2, ⟨s, c', a3, -⟩, -⟩ := good_create (now := t) hg (hk c1 hkind)
    have f1 := fit_create (hf e.who).fit ht (hl c1 hkind) a1
    obtain ⟨e', b1, -, -, b4⟩ := fit_get hX a2 f1 hL a3
    simp only [DS.getOrCreate, a1, Res.bind, b1, Res.ok.injEq] at h
    rw [← h]
    exact upd_all hf ⟨b4, (hf e.who).told⟩
  | change m =>
    rw [hkind] at h
    refine ⟨?_, fun _ h => by cases h⟩
    simp only [Res.ok.injEq] at h
    rw [← h]
    refine upd_all hf ⟨⟨hm m hkind, ?_⟩, (hf e.who).told⟩
    intro hi
    obtain ⟨s, c', x, g1, g2, g3, g4, g5⟩ := (hf e.who).fit.last hi
    rw [hi] at g1
    obtain ⟨s2, c2, x2, q1, q2, q3, q4, q5⟩ := hsp hi m hkind s c' x g1 g2 g4
    exact ⟨s2, c2, x2, q1, q2, UInt64.le_trans g3 q3, q4, by omega⟩
  | idle =>
    rw [hkind] at h
    simp only [Res.ok.injEq] at h
    rw [← h]
    exact ⟨hf, fun _ h => by cases h⟩

/-- A stretch of time in which the invariant holds throughout. -/
theorem exec_fit {X : DS.XEnv} (hX : X.Ok) (hW : W.Ok addr port) : ∀ (w : List (Ev ι)) (t L : Int) (σ : ι → Node),
    Fine w → LongEvents w → 0 ≤ t → Clock (t + duration w) → (∀ k, Settled addr port t k (σ k)) → Sparing X W i c w (t, σ) →
    (∀ l, FitAt i c L l (σ l)) → t + duration w ≤ L → L ≤ t + 198000000000 →
    ∃ σ', exec X W w (t, σ) = .ok (t + duration w, σ') ∧ (∀ k, Settled addr port (t + duration w) k (σ' k)) ∧ (∀ l, FitAt i c L l (σ' l)) ∧
      Keeping X W i c w (t, σ) ∧ ((∃ e ∈ w, e.who = i ∧ e.kind = .join) → ∀ L', t + duration w ≤ L' → L' ≤ t + 198000000000 → ∀ l, FitAt i c L' l (σ' l))
  | [], t, L, σ, _, _, _, _, hσ, _, hf, _, _ => ⟨σ, by simp [exec, duration], by simpa [duration] using hσ, hf, trivial, by simp⟩
  | e :: w, t, L, σ, hfine, hlong, h0, hc, hσ, hsp, hf, hL1, hL2 => by
    have hd := duration_nonneg w
    rw [duration_cons] at hc hL1 ⊢
    rw [show t + (↑e.wait + duration w) = t + ↑e.wait + duration w by omega] at hc hL1 ⊢
    have hc1 : Clock (t + e.wait) := hc.before (by omega) (by omega)
    have hσ1 : ∀ k, Settled addr port (t + e.wait) k (σ k) := fun k => (hσ k).later (by omega)
    have hfe := hfine e (by simp)
    have hle := hlong e (by simp)
    obtain ⟨σ1, a1, a2, -⟩ := step_ok hX hW hc1 hfe.1 hfe.2.1 hfe.2.2 σ hσ1
    obtain ⟨f1, f2⟩ := step_fit hX hW hc1 hfe.1 hfe.2.1 hle.1 hle.2 hσ1 hsp.1 hf (by omega) (by omega) a1
    have hfine' : Fine w := fun e' he' => hfine e' (by simp [he'])
    have hlong' : LongEvents w := fun e' he' => hlong e' (by simp [he'])
    obtain ⟨σ2, b1, b2, b3, b4, b5⟩ := exec_fit hX hW w (t + e.wait) L σ1 hfine' hlong' (by omega) hc a2 (hsp.2 σ1 a1) f1 hL1 (by omega)
    refine ⟨σ2, by rw [exec, a1]; exact b1, b2, b3, ⟨?_, ?_⟩, ?_⟩
    · intro _ _
      obtain ⟨s, c', q1, q2, q3⟩ := (hf i).fit.found (t := t + e.wait) (by omega) rfl
      exact ⟨s, c', q1, q2, q3⟩
    · intro σ' hs'
      rw [a1] at hs'
      injection hs' with hs'
      rw [← hs']; exact b4
    · rintro ⟨e', he', hw1, hw2⟩ L' hL'1 hL'2
      rcases List.mem_cons.1 he' with rfl | he'
      · have g := f2 hw1 hw2
        obtain ⟨σ3, c1, -, c3, -⟩ := exec_fit hX hW w (t + e'.wait) L' σ1 hfine' hlong' (by omega) hc a2 (hsp.2 σ1 a1)
          (fun l => (g l).less (by omega)) hL'1 (by omega)
        rw [b1] at c1
        simp only [Res.ok.injEq, Prod.mk.injEq, true_and] at c1
        rw [c1]
        exact c3
      · exact b5 ⟨e', he', hw1, hw2⟩ L' hL'1 (by omega)

theorem keeping_append {X : DS.XEnv} : ∀ (w w' : List (Ev ι)) (s s' : Int × (ι → Node)), Keeping X W i c w s → exec X W w s = .ok s' → Keeping X W i c w' s' →
    Keeping X W i c (w ++ w') s
  | [], w', s, s', _, h, hk => by
    simp only [exec, Res.ok.injEq] at h
    rw [List.nil_append, h]; exact hk
  | e :: w, w', (t, σ), s', h1, h, hk => by
    refine ⟨h1.1, ?_⟩
    intro σ1 hs
    rw [exec, hs] at h
    exact keeping_append w w' _ s' (h1.2 σ1 hs) h hk

theorem sparing_append {X : DS.XEnv} : ∀ (w w' : List (Ev ι)) (s s' : Int × (ι → Node)), Sparing X W i c (w ++ w') s → exec X W w s = .ok s' →
    Sparing X W i c w s ∧ Sparing X W i c w' s'
  | [], w', s, s', h1, h => by
    simp only [exec, Res.ok.injEq] at h
    rw [← h]; exact ⟨trivial, h1⟩
  | e :: w, w', (t, σ), s', h1, h => by
    cases hs : Gossip.step X W (t + e.wait) e σ with
    | err x => rw [exec, hs] at h; cases h
    | panic => rw [exec, hs] at h; cases h
    | ok σ1 =>
      rw [exec, hs] at h
      obtain ⟨a1, a2⟩ := sparing_append w w' _ s' (h1.2 σ1 hs) h
      refine ⟨⟨h1.1, ?_⟩, a2⟩
      intro σ2 hs2
      rw [hs] at hs2
      injection hs2 with hs2
      rw [← hs2]; exact a1

/-- Over any number of windows, and a part of one more. -/
theorem windows_fit {X : DS.XEnv} (hX : X.Ok) (hW : W.Ok addr port) {acts : ι → Prop} (hi : acts i) (pre : List (Ev ι)) (hpre : Fine pre)
    (hpl : LongEvents pre) (hps : duration pre ≤ 99000000000) :
    ∀ (ws : List (List (Ev ι))) (t : Int) (σ : ι → Node), (∀ w ∈ ws, Window acts w) → (∀ w ∈ ws, LongEvents w) → 0 ≤ t →
    Clock (t + duration (ws.flatten ++ pre)) → (∀ k, Settled addr port t k (σ k)) → Sparing X W i c (ws.flatten ++ pre) (t, σ) →
    (∀ l, FitAt i c (t + 99000000000) l (σ l)) → Keeping X W i c (ws.flatten ++ pre) (t, σ)
  | [], t, σ, _, _, h0, hc, hσ, hsp, hf => by
    obtain ⟨-, -, -, -, h, -⟩ := exec_fit hX hW pre t (t + 99000000000) σ hpre hpl h0 hc hσ hsp hf (by omega) (by omega)
    exact h
  | w :: ws, t, σ, hws, hls, h0, hc, hσ, hsp, hf => by
    have hw := hws w (by simp)
    have hs := hw.short
    have d1 := duration_nonneg w
    have d2 := duration_nonneg (ws.flatten ++ pre)
    rw [List.flatten_cons, List.append_assoc] at hc hsp ⊢
    rw [duration_append] at hc
    have hc1 : Clock (t + duration w) := hc.before (by omega) (by omega)
    obtain ⟨σ0, e0, -⟩ := exec_ok hX hW w t σ hw.fine h0 hc1 hσ
    obtain ⟨sp1, sp2⟩ := sparing_append w (ws.flatten ++ pre) _ _ hsp e0
    obtain ⟨σ1, a1, a2, -, a4, a5⟩ := exec_fit hX hW w t (t + 99000000000) σ hw.fine (hls w (by simp)) h0 hc1 hσ sp1 hf (by omega) (by omega)
    rw [e0] at a1
    simp only [Res.ok.injEq, Prod.mk.injEq, true_and] at a1
    subst a1
    refine keeping_append w _ _ _ a4 e0 ?_
    exact windows_fit hX hW hi pre hpre hpl hps ws (t + duration w) σ0 (fun x hx => hws x (by simp [hx])) (fun x hx => hls x (by simp [hx])) (by omega)
      (by rw [show t + duration w + duration (ws.flatten ++ pre) = t + (duration w + duration (ws.flatten ++ pre)) by omega]; exact hc) a2 sp2
      (a5 (hw.joins i hi) _ (by omega) (by omega))

end
end Gossip

open Gossip Net

/-- C156 for a data set that nobody removes: if all retentions in the cluster are of at least 198 seconds (the default is 14 days), a
data set that one of the nodes has for another 99 seconds is kept by the periodic work itself, and is known everywhere. -/
theorem C156_unremoved {ι : Type} [DecidableEq ι] {X : DS.XEnv} (hX : X.Ok) (W : World ι) (addr : ι → List String) (port : ι → UInt32)
    (hW : W.Ok addr port) (acts : ι → Prop) (t : Int) (σ : ι → Node) (h0 : 0 ≤ t) (hσ : ∀ k, Settled addr port t k (σ k))
    (ws : List (List (Ev ι))) (hws : ∀ w ∈ ws, Window acts w) (hb : ∀ w ∈ ws.head?, Begins acts w) (hlong : 100000000000 ≤ duration ws.flatten)
    (pre post : List (Ev ι)) (e : Ev ι) (hw : Window acts (pre ++ e :: post)) (hc : Clock (t + duration ws.flatten + duration (pre ++ e :: post)))
    (hsync : e.kind = .sync) (i : ι) (c : DataConfig) (hn : ∀ k, LongNode (σ k)) (hl : LongEvents (ws.flatten ++ pre))
    (hu : Until c (t + 99000000000) (σ i).dataset) (hsp : Sparing X W i c (ws.flatten ++ pre) (t, σ))
    (m n : Nat) (hch : Chain acts (Link W σ) n i e.who) (hn2 : n ≤ 2 ^ m) (hm : 3 + 2 * m ≤ ws.length) (hij : e.who ≠ i) :
    ∃ t' σ', exec X W (ws.flatten ++ pre ++ [e]) (t, σ) = .ok (t', σ') ∧ t' = t + duration (ws.flatten ++ pre ++ [e]) ∧
      ∃ a ∈ addr i, Served t' a c (σ' e.who).dataset := by
  have hs := hw.short
  have d1 := duration_nonneg pre
  have d2 := duration_nonneg post
  have hd : duration (pre ++ e :: post) = duration pre + e.wait + duration post := by rw [duration_append, duration_cons]; omega
  refine C156_spreads hX W addr port hW acts t σ h0 hσ ws hws hb hlong pre post e hw hc hsync i c ?_ m n hch hn2 hm hij
  rw [hd] at hs hc
  refine windows_fit hX hW hch.ends.1 pre (fun e' he' => hw.fine e' (by simp [he'])) (fun e' he' => hl e' (by simp [he'])) (by omega) ws t σ hws
    (fun w hw e' he' => hl e' (List.mem_append_left _ (List.mem_flatten.2 ⟨w, hw, he'⟩))) h0
    (by rw [duration_append]; exact hc.before (by have := duration_nonneg ws.flatten; omega) (by omega)) hσ hsp ?_
  intro l
  refine ⟨⟨(hn l).own, ?_⟩, (hn l).told⟩
  rintro rfl
  exact hu

namespace Gossip

/-- Where nothing but joins, synchronisations and creations happens, nothing is removed. -/
theorem sparing_of {ι : Type} [DecidableEq ι] {X : DS.XEnv} {W : World ι} {i : ι} {c : DataConfig} : ∀ (w : List (Ev ι)) (s : Int × (ι → Node)),
    (∀ e ∈ w, ∀ m, e.kind ≠ .change m) → Sparing X W i c w s
  | [], _, _ => trivial
  | e :: w, (_, _), h => ⟨fun _ m hm => absurd hm (h e (by simp) m), fun _ _ => sparing_of w _ fun e' he' => h e' (by simp [he'])⟩

theorem exEvents {e : Ev (Fin 3)} (h : e ∈ (List.replicate 5 exWindow).flatten ++ exWindow.take 3) : e.kind = .join ∨ e.kind = .sync := by
  have : ∀ e ∈ exWindow, e.kind = .join ∨ e.kind = .sync := by simp [exWindow]
  rcases List.mem_append.1 h with h | h
  · obtain ⟨w, hw, he⟩ := List.mem_flatten.1 h
    rw [List.eq_of_mem_replicate hw] at he
    exact this e he
  · exact this e (List.mem_of_mem_take h)

end Gossip

/-- The same three nodes: nobody removes the data set. -/
theorem C156_unremoved_example : ∃ t' σ', exec (DS.toy 0) exWorld ((List.replicate 5 exWindow).flatten ++ exWindow.take 3 ++ [⟨0, 2, .sync, exOrders⟩]) (0, exData) =
    .ok (t', σ') ∧ t' = 540000000000 ∧ Served t' "a:1" (DS.defaultConfig "x") (σ' 2).dataset ∧ (exData 2).dataset = [] := by
  obtain ⟨t', σ', h1, h2, a, h3, h4⟩ := C156_unremoved (DS.toy_ok 0) exWorld exAddr (fun _ => 1) exWorld_ok (fun _ => True) 0 exData (by decide) exData_settled
    (List.replicate 5 exWindow) (fun w hw => by rw [List.eq_of_mem_replicate hw]; exact exWindow_ok)
    (fun w hw => by simp only [List.replicate, List.head?_cons, Option.mem_def, Option.some.injEq] at hw; rw [← hw]; exact exWindow_begins)
    (by decide) (exWindow.take 3) (exWindow.drop 4) ⟨0, 2, .sync, exOrders⟩ exWindow_ok (by unfold Clock; decide) rfl 0 (DS.defaultConfig "x")
    (fun k => ⟨(by
      intro k' s c hs hc
      unfold exData at hs
      simp only at hs
      split at hs
      · simp only [AMap.get?] at hs
        split at hs
        · injection hs with hs
          subst hs
          rw [DS.newData_config] at hc
          injection hc with hc
          subst hc
          unfold Long; decide
        · cases hs
      · cases hs), by intro id s h; cases h⟩)
    (fun e he => by rcases exEvents he with h | h <;> rw [h] <;> exact ⟨fun _ h => (by cases h), fun _ h => (by cases h)⟩)
    ⟨_, _, _, rfl, DS.newData_config _, by decide, rfl, by decide⟩
    (sparing_of _ _ fun e he m hm => by rcases exEvents he with h | h <;> rw [h] at hm <;> cases hm) 1 2
    (.step (.step (.refl 0 trivial) (j := 1) trivial (.inl ⟨"b:1", by decide, by decide⟩)) trivial (.inr ⟨"b:1", by decide, by decide⟩))
    (by decide) (by decide) (by decide)
  refine ⟨t', σ', h1, by rw [h2]; decide, ?_, rfl⟩
  simp only [exAddr, List.mem_singleton] at h3
  rw [← show a = "a:1" from h3]
  exact h4

end Veri
