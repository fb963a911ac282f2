import Verif.Node.Robust
/-
C89 - C92: what a synchronisation with the peers does to the list of data sets and to the peer table.
-/
set_option autoImplicit false
namespace Veri
open Net

namespace Net

/-! ### Specification -/

/-- The peer `id` is a source of the data set at this time. -/
def IsSource (t : Int) (dt : Data) (id : SourceId) : Prop := ∃ m e, dt.sources = some m ∧ m.get? id = some e ∧ t ≤ e

/-- The data set is listed with at least this version, and this peer is one of its sources. -/
def Served (now : Int) (id : SourceId) (c : DataConfig) (m : DS.DL) : Prop :=
  ∃ s c', DS.lookup now m c.name = some s ∧ s.data.config = some c' ∧ c.version ≤ c'.version ∧ IsSource now s.data id

/-- The retention of this configuration fits the time arithmetic: it is less than 292 years. -/
def Keepable (c : DataConfig) : Prop := 0 < DS.getRetention c.retention

/-- A list of data sets as the operations make it from configurations that can be kept. -/
structure Good (m : DS.DL) : Prop where
  wf : DS.WF m
  inited : DS.Inited m
  timed : ∀ k s, m.get? k = some s → ∃ e, s.expires = some e
  keep : ∀ k s c, m.get? k = some s → s.data.config = some c → Keepable c

/-- A record that the synchronisation handles: not our own, not stale, with an address that is not ours. -/
def Handled (now : Int) (n : Node) (p : Peer) : Prop :=
  similar n p = false ∧ isRecent now p.timestamp = true ∧ differentAddress n (sortedPeer p) ≠ ""

instance (now : Int) (n : Node) (p : Peer) : Decidable (Handled now n p) := by unfold Handled; infer_instance

/-! ### Lemmas -/

theorem good_nil : Good [] := ⟨DS.wf_nil, by intro k s h; simp at h, by intro k s h; simp at h, by intro k s c h; simp at h⟩

theorem good_set {m : DS.DL} (hg : Good m) {k : String} {s : DS.Slot} {c : DataConfig} {e : Int} (hc : s.data.config = some c)
    (hk : c.name = k) (hi : s.data.sources ≠ none) (he : s.expires = some e) (hr : Keepable c) : Good (m.set k s) := by
  refine ⟨DS.wf_set hg.wf hc hk, DS.inited_set hg.inited hi, ?_, ?_⟩
  · intro k' s' h'
    rw [AMap.get?_set] at h'
    split at h'
    · injection h' with h'; rw [← h']; exact ⟨e, he⟩
    · exact hg.timed _ _ h'
  · intro k' s' c' h' hc'
    rw [AMap.get?_set] at h'
    split at h'
    · injection h' with h'
      rw [← h', hc, Option.some.injEq] at hc'
      rw [← hc']; exact hr
    · exact hg.keep _ _ _ h' hc'

/-- `CreateIfNotExists` in a good list. -/
theorem good_create {now : Int} {m : DS.DL} (hg : Good m) {c : DataConfig} (hr : Keepable c) :
    ∃ m', DS.createIfNotExists now m c = .ok m' ∧ Good m' ∧
      (∃ s c', DS.lookup now m' c.name = some s ∧ s.data.config = some c' ∧ c.version ≤ c'.version) ∧
      (∀ id c', Served now id c' m → Served now id c' m') ∧ (∀ k, k ≠ c.name → m'.get? k = m.get? k) := by
  cases hl : DS.lookup now m c.name with
  | none =>
    have he : DS.expiry now (DS.getRetention c.retention) = some (now + DS.getRetention c.retention) := by
      unfold DS.expiry
      unfold Keepable at hr
      rw [if_neg (by omega), if_pos hr]
    refine ⟨_, DS.create_new hl, good_set hg (c := c) (DS.newData_config c) rfl (DS.inited_newData c) he hr, ?_, ?_, ?_⟩
    · refine ⟨⟨Data.newData c, DS.expiry now (DS.getRetention c.retention)⟩, c, ?_, DS.newData_config c, UInt64.le_refl _⟩
      rw [DS.lookup_set_self, if_pos (DS.expiry_live _ _ _)]
    · rintro id c' ⟨s, c2, h1, h2⟩
      have : c.name ≠ c'.name := fun e => by rw [← e, hl] at h1; cases h1
      exact ⟨s, c2, by rw [DS.lookup_set_ne this]; exact h1, h2⟩
    · exact fun k hk => AMap.get?_set_ne _ _ hk.symm
  | some s =>
    have hs := (DS.lookup_some.mp hl).1
    obtain ⟨c0, h0, h1⟩ := hg.wf.2 _ _ hs
    refine ⟨_, DS.create_old hl h0, ?_⟩
    split
    · rename_i hv
      obtain ⟨e, he⟩ := hg.timed _ _ hs
      have hlive : DS.live now { s with data := { s.data with config := some c } } = true := (DS.lookup_some.mp hl).2
      refine ⟨good_set hg (c := c) (e := e) rfl rfl (hg.inited _ _ hs : s.data.sources ≠ none) he hr, ?_, ?_, ?_⟩
      · refine ⟨{ s with data := { s.data with config := some c } }, c, ?_, rfl, UInt64.le_refl _⟩
        rw [DS.lookup_set_self, if_pos hlive]
      · rintro id c' ⟨s', c2, g1, g2, g3, g4⟩
        by_cases hn : c.name = c'.name
        · rw [← hn, hl, Option.some.injEq] at g1
          subst g1
          rw [h0, Option.some.injEq] at g2
          subst g2
          refine ⟨{ s with data := { s.data with config := some c } }, c, ?_, rfl, UInt64.le_trans g3 (UInt64.le_of_lt hv), g4⟩
          rw [← hn, DS.lookup_set_self, if_pos hlive]
        · exact ⟨s', c2, by rw [DS.lookup_set_ne hn]; exact g1, g2, g3, g4⟩
      · exact fun k hk => AMap.get?_set_ne _ _ hk.symm
    · rename_i hv
      exact ⟨hg, ⟨s, c0, hl, h0, UInt64.not_lt.mp hv⟩, fun _ _ h => h, fun _ _ => rfl⟩

/-- `Get` of a listed name in a good list. -/
theorem good_get {X : DS.XEnv} (hX : X.Ok) {now : Int} {m : DS.DL} (hg : Good m) {name : String} {s : DS.Slot}
    (hl : DS.lookup now m name = some s) :
    ∃ e', DS.get X now m name = .ok (m.set name { s with expires := some e' }, s.data) ∧ now ≤ e' := by
  obtain ⟨hs, hlive⟩ := DS.lookup_some.mp hl
  obtain ⟨c, h0, -⟩ := hg.wf.2 _ _ hs
  obtain ⟨e, he⟩ := hg.timed _ _ hs
  have hk : 0 < DS.getRetention c.retention := hg.keep _ _ _ hs h0
  have hle : now ≤ e := by
    simp only [DS.live, he, decide_eq_true_eq] at hlive
    exact hlive
  obtain ⟨e', h1, h2, -⟩ := hX.extend e now _ hle hk
  refine ⟨e', ?_, by omega⟩
  rw [DS.get_old hl h0, he, h1]

theorem isSource_addSource {now : Int} {dt : Data} (h : dt.sources ≠ none) (id : SourceId) :
    IsSource now (addSource now dt id) id ∧ (∀ t id', IsSource t dt id' → IsSource t (addSource now dt id) id' ∨ (id' = id ∧ t < now)) ∧
    (addSource now dt id).config = dt.config ∧ (addSource now dt id).sources ≠ none := by
  unfold addSource
  simp only [if_neg h]
  cases hs : dt.sources with
  | none => exact absurd hs h
  | some m =>
    simp only
    cases hg : m.get? id with
    | none =>
      simp only [Option.any_none, Bool.false_eq_true, if_false]
      refine ⟨⟨_, _, rfl, AMap.get?_set_self _ _ _, by simp [minute]; omega⟩, ?_, trivial, by simp⟩
      rintro t id' ⟨m', e, h1, h2, h3⟩
      rw [hs, Option.some.injEq] at h1
      subst h1
      have : id ≠ id' := fun e0 => by rw [← e0, hg] at h2; cases h2
      exact Or.inl ⟨_, e, rfl, by rw [AMap.get?_set_ne _ _ this]; exact h2, h3⟩
    | some e =>
      by_cases hle : now ≤ e
      · simp only [Option.any_some, hle, decide_true, if_true]
        exact ⟨⟨m, e, hs, hg, hle⟩, fun t id' h => Or.inl h, trivial, by simp [hs]⟩
      · simp only [Option.any_some, hle, decide_false, Bool.false_eq_true, if_false]
        refine ⟨⟨_, _, rfl, AMap.get?_set_self _ _ _, by simp [minute]; omega⟩, ?_, trivial, by simp⟩
        rintro t id' ⟨m', e', h1, h2, h3⟩
        rw [hs, Option.some.injEq] at h1
        subst h1
        by_cases hid : id = id'
        · subst hid
          rw [hg, Option.some.injEq] at h2
          subst h2
          exact Or.inr ⟨rfl, by omega⟩
        · exact Or.inl ⟨_, e', rfl, by rw [AMap.get?_set_ne _ _ hid]; exact h2, h3⟩

theorem syncData_ok {X : DS.XEnv} (hX : X.Ok) {now : Int} {id : String} {m : DS.DL} (hg : Good m) {c : DataConfig} (hr : Keepable c) :
    ∃ m', syncData X now id m c = .ok m' ∧ Good m' ∧ Served now id c m' ∧ (∀ id' c', Served now id' c' m → Served now id' c' m') ∧
      (∀ k, k ≠ c.name → m'.get? k = m.get? k) := by
  obtain ⟨m1, h1, g1, ⟨s, c', h2, h3, h4⟩, h5, h6⟩ := good_create (now := now) hg hr
  obtain ⟨e', h7, h8⟩ := good_get hX g1 h2
  have hs := (DS.lookup_some.mp h2).1
  have hi : s.data.sources ≠ none := g1.inited _ _ hs
  obtain ⟨a1, a2, a3, a4⟩ := isSource_addSource (now := now) hi id
  obtain ⟨c2, w1, w2⟩ := g1.wf.2 _ _ hs
  have hcc : c2 = c' := by rw [h3, Option.some.injEq] at w1; exact w1.symm
  subst hcc
  have hkeep := g1.keep _ _ _ hs w1
  have he : syncData X now id m c = .ok ((m1.set c.name { s with expires := some e' }).set c.name
      ⟨addSource now s.data id, some e'⟩) := by
    unfold syncData DS.getOrCreate
    rw [h1]
    simp only [Res.bind]
    rw [h7]
    simp only
    rw [AMap.get?_set_self]
  have hlk : DS.lookup now ((m1.set c.name { s with expires := some e' }).set c.name ⟨addSource now s.data id, some e'⟩) c.name =
      some ⟨addSource now s.data id, some e'⟩ := by
    rw [DS.lookup_set_self, if_pos (by simp [DS.live, h8])]
  refine ⟨_, he, ?_, ?_, ?_, ?_⟩
  · exact good_set (good_set g1 (s := { s with expires := some e' }) (c := c2) (e := e') w1 w2 hi rfl hkeep)
      (s := ⟨addSource now s.data id, some e'⟩) (c := c2) (e := e') (by rw [a3]; exact w1) w2 a4 rfl hkeep
  · exact ⟨⟨addSource now s.data id, some e'⟩, c2, hlk, by rw [a3]; exact w1, h4, a1⟩
  · intro id' c3 hsv
    obtain ⟨s3, c4, b1, b2, b3, b4⟩ := h5 id' c3 hsv
    by_cases hn : c.name = c3.name
    · rw [← hn, h2, Option.some.injEq] at b1
      subst b1
      refine ⟨⟨addSource now s.data id, some e'⟩, c4, by rw [← hn]; exact hlk, by rw [a3]; exact b2, b3, ?_⟩
      rcases a2 now id' b4 with h | ⟨-, h⟩
      · exact h
      · omega
    · refine ⟨s3, c4, ?_, b2, b3, b4⟩
      rw [DS.lookup_set_ne hn, DS.lookup_set_ne hn]
      exact b1
  · intro k hk
    rw [AMap.get?_set_ne _ _ hk.symm, AMap.get?_set_ne _ _ hk.symm]
    exact h6 k hk

theorem syncDatas_ok {X : DS.XEnv} (hX : X.Ok) {now : Int} {id : String} : ∀ (cs : List DataConfig) {m : DS.DL}, Good m →
    (∀ c ∈ cs, Keepable c) →
    ∃ m', syncDatas X now id cs m = .ok m' ∧ Good m' ∧ (∀ c ∈ cs, Served now id c m') ∧ (∀ id' c', Served now id' c' m → Served now id' c' m') ∧
      (∀ k, (∀ c ∈ cs, c.name ≠ k) → m'.get? k = m.get? k)
  | [], m, hg, _ => ⟨m, rfl, hg, by simp, fun _ _ h => h, fun _ _ => rfl⟩
  | c :: cs, m, hg, hr => by
    obtain ⟨m1, h1, g1, s1, p1, f1⟩ := syncData_ok hX (now := now) (id := id) hg (hr c (by simp))
    obtain ⟨m2, h2, g2, s2, p2, f2⟩ := syncDatas_ok hX cs g1 (fun c' hc' => hr c' (by simp [hc']))
    refine ⟨m2, ?_, g2, ?_, fun id' c' h => p2 id' c' (p1 id' c' h), ?_⟩
    · rw [syncDatas, h1]; exact h2
    · intro c' hc'
      rcases List.mem_cons.mp hc' with rfl | hc'
      · exact p2 _ _ s1
      · exact s2 c' hc'
    · intro k hk
      rw [f2 k (fun c' hc' => hk c' (by simp [hc'])), f1 k (fun e => hk c (by simp) e.symm)]

theorem addresses_of {n : Node} {t : PeerTable} {sv : AMap String (Option Int)} {m : DS.DL} :
    addresses { n with peers := t, services := sv, dataset := m } = addresses n := rfl

theorem handled_of {now : Int} {n n' : Node} (h : addresses n' = addresses n) (p : Peer) : Handled now n' p ↔ Handled now n p := by
  simp [Handled, similar, differentAddress, h]

/-- One turn of the loop, in a good list. -/
theorem syncPeer_ok {X : DS.XEnv} (hX : X.Ok) {now : Int} {inner : List Peer} {n : Node} {p : Peer} (hg : Good n.dataset)
    (hr : ∀ c ∈ p.dataList, Keepable c) :
    ∃ n' out, syncPeer X now inner n p = .ok (n', out) ∧ addresses n' = addresses n ∧ Good n'.dataset ∧
      (Handled now n p → ∀ c ∈ p.dataList, Served now (differentAddress n (sortedPeer p)) c n'.dataset) ∧
      (∀ id' c', Served now id' c' n.dataset → Served now id' c' n'.dataset) ∧
      (∀ k, (Handled now n p → ∀ c ∈ p.dataList, c.name ≠ k) → n'.dataset.get? k = n.dataset.get? k) := by
  unfold syncPeer
  have hcp := checkPeer_peers now n p
  have hok : (checkPeer now n p).2 = decide (similar n p = false ∧ isRecent now p.timestamp = true) := by
    unfold checkPeer
    by_cases h1 : similar n p = true
    · simp [h1]
    · by_cases h2 : isRecent now p.timestamp = true <;> simp [h1, h2]
  generalize checkPeer now n p = r at hcp hok
  obtain ⟨n1, ok⟩ := r
  simp only at hcp hok
  have h1 : ∃ t, n1 = { n with peers := t } := by
    rcases hcp with h1 | ⟨h1, -⟩
    · exact ⟨n.peers, h1⟩
    · exact ⟨_, h1⟩
  obtain ⟨t, rfl⟩ := h1
  simp only
  by_cases hok' : ok = false
  · rw [if_pos hok']
    have : ¬ Handled now n p := fun h => by
      rw [hok', eq_comm, decide_eq_false_iff_not] at hok
      exact hok ⟨h.1, h.2.1⟩
    exact ⟨_, _, rfl, rfl, hg, fun h => absurd h this, fun _ _ h => h, fun _ _ => rfl⟩
  · rw [if_neg hok']
    have hok2 : similar n p = false ∧ isRecent now p.timestamp = true := by
      have : ok = true := by simpa using hok'
      rw [this, eq_comm, decide_eq_true_eq] at hok
      exact hok
    have hd : differentAddress { n with peers := t } (sortedPeer p) = differentAddress n (sortedPeer p) := rfl
    rw [hd]
    by_cases hid : differentAddress n (sortedPeer p) = ""
    · rw [if_pos hid]
      exact ⟨_, _, rfl, rfl, hg, fun h => absurd hid h.2.2, fun _ _ h => h, fun _ _ => rfl⟩
    · rw [if_neg hid]
      obtain ⟨sv, hsv⟩ := addServices_eq X now p.serviceList { n with peers := t }
      rw [hsv]
      obtain ⟨m', h1, g1, s1, p1, f1⟩ := syncDatas_ok hX (now := now) (id := differentAddress n (sortedPeer p)) p.dataList hg hr
      simp only [h1, Res.bind]
      exact ⟨_, _, rfl, rfl, g1, fun _ => s1, p1, fun k hk => f1 k (hk ⟨hok2.1, hok2.2, hid⟩)⟩

theorem syncLoop_ok {X : DS.XEnv} (hX : X.Ok) {now : Int} : ∀ (ps : List (Peer × List Peer)) {n : Node}, Good n.dataset →
    (∀ q ∈ ps, ∀ c ∈ q.1.dataList, Keepable c) →
    ∃ n' out, syncLoop X now ps n = .ok (n', out) ∧ Good n'.dataset ∧
      (∀ q ∈ ps, Handled now n q.1 → ∀ c ∈ q.1.dataList, Served now (differentAddress n (sortedPeer q.1)) c n'.dataset) ∧
      (∀ id' c', Served now id' c' n.dataset → Served now id' c' n'.dataset) ∧
      (∀ k, (∀ q ∈ ps, Handled now n q.1 → ∀ c ∈ q.1.dataList, c.name ≠ k) → n'.dataset.get? k = n.dataset.get? k)
  | [], n, hg, _ => ⟨n, [], rfl, hg, by simp, fun _ _ h => h, fun _ _ => rfl⟩
  | (p, inner) :: ps, n, hg, hr => by
    obtain ⟨n1, o1, h1, a1, g1, s1, p1, f1⟩ := syncPeer_ok hX (now := now) (inner := inner) hg (hr (p, inner) (by simp))
    obtain ⟨n2, o2, h2, g2, s2, p2, f2⟩ := syncLoop_ok hX ps g1 (fun q hq => hr q (by simp [hq]))
    refine ⟨n2, o1 ++ o2, ?_, g2, ?_, fun id' c' h => p2 id' c' (p1 id' c' h), ?_⟩
    · rw [syncLoop, h1]
      simp only [Res.bind]
      rw [h2]
    · intro q hq hh c hc
      rcases List.mem_cons.mp hq with rfl | hq
      · exact p2 _ _ (s1 hh c hc)
      · have := s2 q hq ((handled_of a1 q.1).mpr hh) c hc
        have hd : differentAddress n1 (sortedPeer q.1) = differentAddress n (sortedPeer q.1) := by simp [differentAddress, a1]
        rwa [hd] at this
    · intro k hk
      rw [f2 k (fun q hq hh => hk q (by simp [hq]) ((handled_of a1 q.1).mp hh)), f1 k (fun hh => hk (p, inner) (by simp) hh)]

end Net

/-! ### C89 -/

/-- C89: a synchronisation always ends, and then the node lists every data set of every peer it handled, with at least the
peer's version of the configuration, and asks that peer, at its address, for the data. -/
theorem C89_complete {X : DS.XEnv} (hX : X.Ok) (now : Int) (ps : List (Peer × List Peer)) (n : Node) (hg : Good n.dataset)
    (hr : ∀ q ∈ ps, ∀ c ∈ q.1.dataList, Keepable c) :
    ∃ n' out, syncWithPeers X now ps n = .ok (n', out) ∧ n'.ready = true ∧ Good n'.dataset ∧
      ∀ q ∈ ps, Handled now n q.1 → ∀ c ∈ q.1.dataList, Served now (differentAddress n (sortedPeer q.1)) c n'.dataset := by
  obtain ⟨n', out, h1, h2, h3, -⟩ := syncLoop_ok hX ps hg hr
  exact ⟨{ n' with ready := true }, out, by rw [syncWithPeers, h1]; rfl, rfl, h2, h3⟩

/-- C89: what the node served before, it serves still; and data sets that no peer has are as they were. -/
theorem C89_keeps {X : DS.XEnv} (hX : X.Ok) (now : Int) (ps : List (Peer × List Peer)) (n n' : Node) (out : List (String × Peer))
    (hg : Good n.dataset) (hr : ∀ q ∈ ps, ∀ c ∈ q.1.dataList, Keepable c) (h : syncWithPeers X now ps n = .ok (n', out)) :
    (∀ id c, Served now id c n.dataset → Served now id c n'.dataset) ∧
    (∀ k, (∀ q ∈ ps, Handled now n q.1 → ∀ c ∈ q.1.dataList, c.name ≠ k) → n'.dataset.get? k = n.dataset.get? k) := by
  obtain ⟨n1, o1, h1, -, -, h4, h5⟩ := syncLoop_ok hX ps hg hr
  rw [syncWithPeers, h1] at h
  simp only [Res.bind, Res.ok.injEq, Prod.mk.injEq] at h
  obtain ⟨rfl, -⟩ := h
  exact ⟨h4, h5⟩

namespace Net
theorem exGood : Good DS.exList := by
  refine ⟨DS.exList_wf, ?_, ?_, ?_⟩
  · intro k s h
    have := AMap.mem_of_get? h
    simp only [DS.exList, List.mem_cons, Prod.mk.injEq, List.not_mem_nil, or_false] at this
    rcases this with ⟨-, rfl⟩ | ⟨-, rfl⟩ <;> exact DS.inited_newData _
  · intro k s h
    have := AMap.mem_of_get? h
    simp only [DS.exList, List.mem_cons, Prod.mk.injEq, List.not_mem_nil, or_false] at this
    rcases this with ⟨-, rfl⟩ | ⟨-, rfl⟩ <;> exact ⟨_, rfl⟩
  · intro k s c h hc
    have := AMap.mem_of_get? h
    simp only [DS.exList, List.mem_cons, Prod.mk.injEq, List.not_mem_nil, or_false] at this
    rcases this with ⟨-, rfl⟩ | ⟨-, rfl⟩ <;>
    · cases hc
      unfold Keepable
      decide +kernel
end Net

example : Good DS.exList ∧ Keepable (DS.exA 7) ∧ Handled exNow { exNode with dataset := DS.exList } (exServer 1700000000) ∧
    (exServer 1700000000).dataList ≠ [] := by
  refine ⟨exGood, ?_, ?_, ?_⟩
  · unfold Keepable; decide +kernel
  · decide +kernel
  · decide +kernel

/-! ### C90 -/

namespace Net

/-- The peer is made a source at each of these times. -/
def addAll (id : SourceId) (times : List Int) (dt : Data) : Data := times.foldl (fun dt t => addSource t dt id) dt

/-- In order, and never more than a minute apart. -/
def Regular : List Int → Prop
  | a :: b :: l => (a ≤ b ∧ b ≤ a + minute) ∧ Regular (b :: l)
  | _ => True

theorem addSource_of {dt : Data} {m : AMap SourceId Int} (h : dt.sources = some m) (now : Int) (id : SourceId) :
    addSource now dt id = if ((m.get? id).any fun e => decide (now ≤ e)) = true then dt
      else { dt with sources := some (m.set id (now + 10 * minute)) } := by
  unfold addSource
  simp only [h, reduceCtorEq, if_false]

end Net

/-- C90, full statement: a peer that is seen at every synchronisation, once a minute, is a source all the time.  FALSE of the
code. -/
def C90_statement : Prop := ∀ (dt : Data) (id : SourceId) (times : List Int) (last t : Int), dt.sources ≠ none → Regular (times ++ [last]) →
  last ≤ t → t ≤ last + minute → IsSource t (addAll id (times ++ [last]) dt) id

/-- C90, the part that holds: the peer is a source at the time of each synchronisation that sees it, and for ten minutes from the
one that added it; `e - 10 * minute` is when that was. -/
theorem C90_partial (dt : Data) (id : SourceId) (times : List Int) (last : Int) (h0 : dt.sources ≠ none) (hn : ∀ m, dt.sources = some m → m.get? id = none)
    (hr : (times ++ [last]).Pairwise (· ≤ ·)) :
    ∃ e, e - 10 * minute ∈ times ++ [last] ∧ last ≤ e ∧ ∀ t, IsSource t (addAll id (times ++ [last]) dt) id ↔ t ≤ e := by
  have key : ∀ (times : List Int) (dt : Data) (e : Int), dt.sources ≠ none → (∀ t, IsSource t dt id ↔ t ≤ e) →
      ∃ e', (e' = e ∨ e' - 10 * minute ∈ times) ∧ (∀ t ∈ times, times.Pairwise (· ≤ ·) → t ≤ e') ∧
        (∀ t, IsSource t (addAll id times dt) id ↔ t ≤ e') := by
    intro times
    induction times with
    | nil => intro dt e h0 h; exact ⟨e, Or.inl rfl, by simp, h⟩
    | cons a times ih =>
      intro dt e h0 h
      obtain ⟨m, hm⟩ := Option.ne_none_iff_exists'.mp h0
      by_cases hle : a ≤ e
      · have : addSource a dt id = dt := by
          obtain ⟨m', e', h1, h2, h3⟩ := (h a).mpr hle
          rw [addSource_of h1]
          simp [h2, h3]
        obtain ⟨e', g1, g2, g3⟩ := ih dt e h0 h
        refine ⟨e', ?_, ?_, ?_⟩
        · rcases g1 with g1 | g1
          · exact Or.inl g1
          · exact Or.inr (List.mem_cons_of_mem _ g1)
        · intro t ht hp
          rw [List.pairwise_cons] at hp
          rcases List.mem_cons.mp ht with rfl | ht
          · cases times with
            | nil =>
              simp only [List.not_mem_nil, or_false] at g1
              omega
            | cons b times =>
              have := g2 b (by simp) hp.2
              have := hp.1 b (by simp)
              omega
          · exact g2 t ht hp.2
        · intro t
          have he : addAll id (a :: times) dt = addAll id times dt := by simp [addAll, this]
          rw [he]
          exact g3 t
      · have hx : ∀ e', m.get? id = some e' → ¬ a ≤ e' := by
          intro e' h1 h2
          have := (h e').mp ⟨m, e', hm, h1, Int.le_refl _⟩
          omega
        have hadd : addSource a dt id = { dt with sources := some (m.set id (a + 10 * minute)) } := by
          rw [addSource_of hm, if_neg]
          intro hc
          cases hg : m.get? id with
          | none => rw [hg] at hc; simp at hc
          | some e' => rw [hg] at hc; simp at hc; exact hx e' hg hc
        have hsrc : ∀ t, IsSource t (addSource a dt id) id ↔ t ≤ a + 10 * minute := by
          intro t
          rw [hadd]
          constructor
          · rintro ⟨m', e', h1, h2, h3⟩
            simp only [Option.some.injEq] at h1
            rw [← h1, AMap.get?_set_self, Option.some.injEq] at h2
            omega
          · intro ht
            exact ⟨_, _, rfl, AMap.get?_set_self _ _ _, ht⟩
        obtain ⟨e', g1, g2, g3⟩ := ih (addSource a dt id) (a + 10 * minute) (by rw [hadd]; simp) hsrc
        refine ⟨e', Or.inr ?_, ?_, g3⟩
        · rcases g1 with g1 | g1
          · rw [g1]; simp
          · exact List.mem_cons_of_mem _ g1
        · intro t ht hp
          rw [List.pairwise_cons] at hp
          rcases List.mem_cons.mp ht with rfl | ht
          · cases times with
            | nil =>
              simp only [List.not_mem_nil, or_false] at g1
              rw [g1]
              unfold minute
              omega
            | cons b times =>
              have := g2 b (by simp) hp.2
              have := hp.1 b (by simp)
              omega
          · exact g2 t ht hp.2
  obtain ⟨m, hm⟩ := Option.ne_none_iff_exists'.mp h0
  have hm0 := hn m hm
  have start : ∀ (a : Int), addSource a dt id = { dt with sources := some (m.set id (a + 10 * minute)) } := by
    intro a
    rw [addSource_of hm]
    simp [hm0]
  have hsrc : ∀ (a t : Int), IsSource t (addSource a dt id) id ↔ t ≤ a + 10 * minute := by
    intro a t
    rw [start]
    constructor
    · rintro ⟨m', e', h1, h2, h3⟩
      simp only [Option.some.injEq] at h1
      rw [← h1, AMap.get?_set_self, Option.some.injEq] at h2
      omega
    · intro ht
      exact ⟨_, _, rfl, AMap.get?_set_self _ _ _, ht⟩
  cases times with
  | nil =>
    refine ⟨last + 10 * minute, by simp, by simp [minute]; omega, ?_⟩
    exact hsrc last
  | cons a times =>
    obtain ⟨e', g1, g2, g3⟩ := key (times ++ [last]) (addSource a dt id) (a + 10 * minute) (by rw [start]; simp) (hsrc a)
    rw [List.cons_append, List.pairwise_cons] at hr
    refine ⟨e', ?_, g2 last (by simp) hr.2, g3⟩
    rcases g1 with g1 | g1
    · rw [g1]; simp
    · exact List.mem_cons_of_mem _ g1

/-- C90, counterexample: added at 0:00, seen every minute up to 10:00, and not a source at 10:30. -/
theorem C90_fails : ¬ C90_statement := by
  intro h
  have h1 := h (Data.newData (DS.exA 1)) "b:1" [0, minute, 2 * minute, 3 * minute, 4 * minute, 5 * minute, 6 * minute, 7 * minute, 8 * minute,
    9 * minute] (10 * minute) (10 * minute + minute / 2) (DS.inited_newData _) (by simp [Regular, minute]) (by decide) (by decide)
  obtain ⟨m, e, g1, g2, g3⟩ := h1
  have h2 : ((addAll "b:1" ([0, minute, 2 * minute, 3 * minute, 4 * minute, 5 * minute, 6 * minute, 7 * minute, 8 * minute,
    9 * minute] ++ [10 * minute]) (Data.newData (DS.exA 1))).sources.bind fun m => m.get? "b:1") = some (10 * minute) := by decide +kernel
  rw [g1, Option.bind_some, g2, Option.some.injEq] at h2
  unfold minute at *
  omega

example : (Data.newData (DS.exA 1)).sources ≠ none ∧ (∀ m, (Data.newData (DS.exA 1)).sources = some m → m.get? "b:1" = none) ∧
    ([0, minute] ++ [12 * minute]).Pairwise (· ≤ ·) := by
  refine ⟨DS.inited_newData _, ?_, by decide +kernel⟩
  intro m hm
  simp only [Data.newData, Data.newPreData, Data.initData, Bool.false_eq_true, if_false, Option.some.injEq] at hm
  rw [← hm]
  rfl

/-! ### C91 -/

/-- C91, full statement: a data set that was deleted on a node does not come back because of the synchronisation.  FALSE of the
code. -/
def C91_statement : Prop := ∀ (X : DS.XEnv), X.Ok → ∀ (now : Int) (ps : List (Peer × List Peer)) (n n' : Node) (m : DS.DL)
  (out : List (String × Peer)) (name : String), Good n.dataset → (∀ q ∈ ps, ∀ c ∈ q.1.dataList, Keepable c) →
  DS.delete now n.dataset name = .ok m → syncWithPeers X now ps { n with dataset := m } = .ok (n', out) →
  name ∉ DS.names now n'.dataset

/-- C91, exactly: a data set that is not listed is listed after a synchronisation if and only if a peer it handled has it. -/
theorem C91_exact {X : DS.XEnv} (hX : X.Ok) (now : Int) (ps : List (Peer × List Peer)) (n n' : Node) (out : List (String × Peer)) (name : String)
    (hg : Good n.dataset) (hr : ∀ q ∈ ps, ∀ c ∈ q.1.dataList, Keepable c) (hd : DS.lookup now n.dataset name = none)
    (h : syncWithPeers X now ps n = .ok (n', out)) :
    name ∈ DS.names now n'.dataset ↔ ∃ q ∈ ps, Handled now n q.1 ∧ ∃ c ∈ q.1.dataList, c.name = name := by
  obtain ⟨n1, o1, h1, -, g1, h2⟩ := C89_complete hX now ps n hg hr
  have hk := (C89_keeps hX now ps n n' out hg hr h).2
  rw [h, Res.ok.injEq, Prod.mk.injEq] at h1
  obtain ⟨rfl, -⟩ := h1
  rw [DS.mem_names g1.wf.1]
  constructor
  · intro hs
    by_cases hq : ∃ q ∈ ps, Handled now n q.1 ∧ ∃ c ∈ q.1.dataList, c.name = name
    · exact hq
    · exfalso
      have := hk name (fun q hq1 hh c hc e => hq ⟨q, hq1, hh, c, hc, e⟩)
      rw [DS.lookup_congr this, hd] at hs
      cases hs
  · rintro ⟨q, hq, hh, c, hc, rfl⟩
    obtain ⟨s, c', h3, -⟩ := h2 q hq hh c hc
    rw [h3]
    rfl

/-- C91, counterexample: the peer still has it. -/
theorem C91_fails : ¬ C91_statement := by
  intro h
  have hr : ∀ q ∈ [(exServer 1700000000, ([] : List Peer))], ∀ c ∈ q.1.dataList, Keepable c := by
    intro q hq c hc
    simp only [List.mem_singleton] at hq
    subst hq
    simp only [exServer, List.mem_singleton] at hc
    subst hc
    unfold Keepable
    decide +kernel
  have hd : DS.delete 0 DS.exList "a" = .ok (DS.exList.erase "a") := rfl
  have hge : Good (AMap.erase DS.exList "a") := by
    refine ⟨DS.wf_erase exGood.wf _, ?_, ?_, ?_⟩
    · intro k s hk
      rw [AMap.get?_erase] at hk
      split at hk
      · cases hk
      · exact exGood.inited _ _ hk
    · intro k s hk
      rw [AMap.get?_erase] at hk
      split at hk
      · cases hk
      · exact exGood.timed _ _ hk
    · intro k s c hk
      rw [AMap.get?_erase] at hk
      split at hk
      · cases hk
      · exact exGood.keep _ _ _ hk
  obtain ⟨n', out, h1, -⟩ := C89_complete (DS.toy_ok 0) 0 [(exServer 1700000000, [])] { exNode with dataset := DS.exList.erase "a" } hge hr
  refine h _ (DS.toy_ok 0) 0 _ { exNode with dataset := DS.exList } n' _ out "a" exGood hr hd h1 ?_
  refine (C91_exact (DS.toy_ok 0) 0 _ { exNode with dataset := DS.exList.erase "a" } n' out "a" hge hr (by decide +kernel) h1).mpr ?_
  exact ⟨(exServer 1700000000, []), by simp, by decide +kernel, DS.exA 1, by simp [exServer], rfl⟩

/-! ### C92 -/

/-- C92, full statement: a synchronisation never takes a record out of the table that is recent.  `ps` are the records the
synchronisation took from the table when it began.  FALSE of the code. -/
def C92_statement : Prop := ∀ (X : DS.XEnv), X.Ok → ∀ (now : Int) (ps : List (Peer × List Peer)) (n n' : Node) (out : List (String × Peer))
  (id : String) (q : Peer), syncWithPeers X now ps n = .ok (n', out) → peerAt now n.peers id = some q → isRecent now q.timestamp = true →
  peerAt now n'.peers id = some q

namespace Net

theorem syncLoop_table {X : DS.XEnv} {now : Int} (id : String) : ∀ (ps : List (Peer × List Peer)) {n n' : Node} {out : List (String × Peer)},
    syncLoop X now ps n = .ok (n', out) →
    n'.peers.get? id = if ∃ q ∈ ps, idOfPeer q.1 = id ∧ similar n q.1 = false ∧ isRecent now q.1.timestamp = false then none else n.peers.get? id
  | [], n, n', out, h => by
    cases h
    simp
  | (p, inner) :: ps, n, n', out, h => by
    rw [syncLoop] at h
    cases h1 : syncPeer X now inner n p with
    | err e => rw [h1] at h; cases h
    | panic => rw [h1] at h; cases h
    | ok r =>
      obtain ⟨n1, o1⟩ := r
      rw [h1] at h
      simp only [Res.bind] at h
      cases h2 : syncLoop X now ps n1 with
      | err e => rw [h2] at h; cases h
      | panic => rw [h2] at h; cases h
      | ok r =>
        obtain ⟨n2, o2⟩ := r
        rw [h2] at h
        simp only [Res.ok.injEq, Prod.mk.injEq] at h
        obtain ⟨rfl, -⟩ := h
        have ih := syncLoop_table id ps h2
        have ht : n1.peers = (checkPeer now n p).1.peers ∧ addresses n1 = addresses n := by
          unfold syncPeer at h1
          have hcp := checkPeer_peers now n p
          generalize checkPeer now n p = r at h1 hcp
          obtain ⟨n0, ok⟩ := r
          simp only at h1 hcp
          have h0 : addresses n0 = addresses n := by
            rcases hcp with h1 | ⟨h1, -⟩ <;> rw [h1] <;> rfl
          split at h1
          · cases h1; exact ⟨rfl, h0⟩
          · split at h1
            · cases h1; exact ⟨rfl, h0⟩
            · obtain ⟨sv, hsv⟩ := addServices_eq X now p.serviceList n0
              rw [hsv] at h1
              simp only at h1
              cases hd : syncDatas X now (differentAddress n0 (sortedPeer p)) p.dataList n0.dataset with
              | ok m =>
                rw [hd] at h1
                cases h1
                exact ⟨rfl, h0⟩
              | err e => rw [hd] at h1; cases h1
              | panic => rw [hd] at h1; cases h1
        have hsim : ∀ q, similar n1 q = similar n q := fun q => by simp [similar, ht.2]
        simp only [hsim] at ih
        rw [ih, ht.1]
        have hc : (checkPeer now n p).1.peers.get? id =
            if idOfPeer p = id ∧ similar n p = false ∧ isRecent now p.timestamp = false then none else n.peers.get? id := by
          unfold checkPeer
          by_cases hs : similar n p = true
          · simp [hs]
          · by_cases hr : isRecent now p.timestamp = true
            · simp [hs, hr]
            · simp only [hs, hr, if_false, Bool.false_eq_true, AMap.get?_erase]
              by_cases hi : idOfPeer p = id <;> simp [hi]
        rw [hc]
        by_cases hA : ∃ q ∈ ps, idOfPeer q.1 = id ∧ similar n q.1 = false ∧ isRecent now q.1.timestamp = false
        · rw [if_pos hA, if_pos]
          obtain ⟨q, h1, h2⟩ := hA
          exact ⟨q, by simp [h1], h2⟩
        · rw [if_neg hA]
          by_cases hB : idOfPeer p = id ∧ similar n p = false ∧ isRecent now p.timestamp = false
          · rw [if_pos hB, if_pos]
            exact ⟨(p, inner), by simp, hB⟩
          · rw [if_neg hB, if_neg]
            rintro ⟨q, h1, h2⟩
            rcases List.mem_cons.mp h1 with rfl | h1
            · exact hB h2
            · exact hA ⟨q, h1, h2⟩

end Net

/-- C92, exactly: a record is taken out if and only if one of the records that the synchronisation took when it began has the
same identity and is stale now. -/
theorem C92_exact (X : DS.XEnv) (now : Int) (ps : List (Peer × List Peer)) (n n' : Node) (out : List (String × Peer)) (id : String) (q : Peer)
    (h : syncWithPeers X now ps n = .ok (n', out)) (hq : peerAt now n.peers id = some q) :
    peerAt now n'.peers id =
      if ∃ p ∈ ps, idOfPeer p.1 = id ∧ similar n p.1 = false ∧ isRecent now p.1.timestamp = false then none else some q := by
  unfold syncWithPeers at h
  cases hl : syncLoop X now ps n with
  | err e => rw [hl] at h; cases h
  | panic => rw [hl] at h; cases h
  | ok r =>
    rw [hl] at h
    simp only [Res.bind, Res.ok.injEq, Prod.mk.injEq] at h
    obtain ⟨rfl, -⟩ := h
    have := syncLoop_table id ps (n' := r.1) (out := r.2) hl
    simp only
    unfold peerAt
    rw [this]
    split
    · rfl
    · exact hq

/-- C92, the part that holds: if the table has not changed since the synchronisation began, that is, the records it took are those
in the table, recent records stay. -/
theorem C92_partial (X : DS.XEnv) (now : Int) (ps : List (Peer × List Peer)) (n n' : Node) (out : List (String × Peer)) (id : String) (q : Peer)
    (h : syncWithPeers X now ps n = .ok (n', out)) (hq : peerAt now n.peers id = some q) (hr : isRecent now q.timestamp = true)
    (hps : ∀ p ∈ ps, peerAt now n.peers (idOfPeer p.1) = some p.1) : peerAt now n'.peers id = some q := by
  rw [C92_exact X now ps n n' out id q h hq, if_neg]
  rintro ⟨p, h1, h2, -, h3⟩
  have := hps p h1
  rw [h2, hq, Option.some.injEq] at this
  rw [← this, hr] at h3
  cases h3

/-- C92, counterexample: while the synchronisation is under way the peer announces itself again; its old record, which the
synchronisation looks at, has become stale. -/
theorem C92_fails : ¬ C92_statement := by
  intro h
  have h2 : peerAt exNow (announce (DS.toy 0) exNow exNode (exPeer 1700000000)).peers "a:1,b:1" = some (sortedPeer (exPeer 1700000000)) := by
    decide +kernel
  have hd : (announce (DS.toy 0) exNow exNode (exPeer 1700000000)).dataset = [] := by decide +kernel
  obtain ⟨n', out, h1, -⟩ := C89_complete (DS.toy_ok 0) exNow [(exPeer 1699999700, [])] (announce (DS.toy 0) exNow exNode (exPeer 1700000000))
    (by rw [hd]; exact good_nil) (by intro q hq c hc; rw [List.mem_singleton.mp hq] at hc; simp [exPeer] at hc)
  have h3 := h _ (DS.toy_ok 0) exNow _ _ n' out _ _ h1 h2 (by decide +kernel)
  rw [C92_exact _ _ _ _ _ _ _ _ h1 h2, if_pos ⟨_, List.mem_singleton.mpr rfl, by decide +kernel, by decide +kernel, by decide +kernel⟩] at h3
  cases h3

example : ∃ q, peerAt exNow (announce (DS.toy 0) exNow exNode (exPeer 1700000000)).peers "a:1,b:1" = some q ∧
    isRecent exNow q.timestamp = true ∧ idOfPeer q = "a:1,b:1" := ⟨sortedPeer (exPeer 1700000000), by decide +kernel⟩

end Veri
