import Verif.Node.Props
/-
The services a node knows (node/node.go:46, 61, 64-66, 74-77, 86-90, 131-138, 172, 247-249): addresses that it sends join requests to
(node/node.go:280-283).  A service of the configuration never expires; the others are learned from the records of peers.
-/
set_option autoImplicit false
namespace Veri
namespace Net

/-- The service has been learned, if it is known at all: it has an expiry time. -/
def Learned (n : Node) (s : String) : Prop := n.services.get? s ≠ some none

theorem addService_self {X : DS.XEnv} (hX : X.Ok) (now : Int) (n : Node) (s : String) (h : Learned n s) :
    ∃ e, (addService X now n s).services.get? s = some (some e) ∧ now + 10 * minute ≤ e := by
  have hm : (0 : Int) < 10 * minute := by decide
  unfold addService
  simp only [AMap.get?_set_self]
  cases hs : n.services.get? s with
  | none =>
    obtain ⟨e, h1, h2, -⟩ := hX.extend (now + 5 * minute) now (10 * minute) (by unfold minute; omega) hm
    exact ⟨e, by simp only; rw [h1], h2⟩
  | some x =>
    cases x with
    | none => exact absurd hs h
    | some old =>
      by_cases ha : alive now (some old) = true
      · obtain ⟨e, h1, h2, -⟩ := hX.extend old now (10 * minute) (by simpa [alive] using ha) hm
        exact ⟨e, by simp only [ha, if_true]; rw [h1], h2⟩
      · obtain ⟨e, h1, h2, -⟩ := hX.extend (now + 5 * minute) now (10 * minute) (by unfold minute; omega) hm
        exact ⟨e, by simp only [ha]; simp [h1], h2⟩

theorem addService_other (X : DS.XEnv) (now : Int) (n : Node) {s s' : String} (h : s' ≠ s) :
    (addService X now n s').services.get? s = n.services.get? s := by
  unfold addService
  simp only [AMap.get?_set_ne _ _ h]

theorem addService_nodup (X : DS.XEnv) (now : Int) (n : Node) (s : String) (h : AMap.Nodup n.services) :
    AMap.Nodup (addService X now n s).services := AMap.nodup_set h _ _

/-- Known for ten minutes from now on. -/
def Fresh (now : Int) (n : Node) (s : String) : Prop := ∃ e, n.services.get? s = some (some e) ∧ now + 10 * minute ≤ e

theorem Fresh.learned {now : Int} {n : Node} {s : String} (h : Fresh now n s) : Learned n s := by
  obtain ⟨e, h1, -⟩ := h
  unfold Learned
  rw [h1]; simp

theorem addServices_fresh {X : DS.XEnv} (hX : X.Ok) (now : Int) (s : String) : ∀ (l : List String) (n : Node),
    Learned n s → s ∈ l ∨ Fresh now n s → Fresh now (l.foldl (addService X now) n) s
  | [], n, _, h => by
    rcases h with h | h
    · simp at h
    · exact h
  | a :: l, n, hl, h => by
    rw [List.foldl_cons]
    by_cases ha : a = s
    · subst ha
      have hf : Fresh now (addService X now n a) a := addService_self hX now n a hl
      exact addServices_fresh hX now a l _ hf.learned (Or.inr hf)
    · have e := addService_other X now n ha
      refine addServices_fresh hX now s l _ (by unfold Learned; rw [e]; exact hl) ?_
      rcases h with h | h
      · exact Or.inl (by simpa [Ne.symm ha] using h)
      · exact Or.inr (by unfold Fresh; rw [e]; exact h)

theorem addServices_other (X : DS.XEnv) (now : Int) (s : String) : ∀ (l : List String) (n : Node), s ∉ l →
    (l.foldl (addService X now) n).services.get? s = n.services.get? s
  | [], _, _ => rfl
  | a :: l, n, h => by
    rw [List.foldl_cons, addServices_other X now s l _ (fun h' => h (by simp [h'])), addService_other X now n (fun h' => h (by simp [h']))]

theorem addServices_nodup (X : DS.XEnv) (now : Int) : ∀ (l : List String) (n : Node), AMap.Nodup n.services →
    AMap.Nodup (l.foldl (addService X now) n).services
  | [], _, h => h
  | a :: l, n, h => by rw [List.foldl_cons]; exact addServices_nodup X now l _ (addService_nodup X now n a h)

/-- The record is one that a synchronisation follows: of another node, not stale, with an address to send to. -/
def Followed (now : Int) (n : Node) (p : Peer) : Prop :=
  similar n p = false ∧ isRecent now p.timestamp = true ∧ differentAddress n (sortedPeer p) ≠ ""

theorem followed_congr {now : Int} {n n' : Node} {p : Peer} (h : addresses n' = addresses n) (hf : Followed now n p) :
    Followed now n' p := by
  unfold Followed similar differentAddress at *
  rw [h]; exact hf

/-- What one turn does to the services. -/
theorem syncPeer_services {X : DS.XEnv} {now : Int} {inner : List Peer} {n n' : Node} {p : Peer} {out : List (String × Peer)}
    (h : syncPeer X now inner n p = .ok (n', out)) :
    addresses n' = addresses n ∧
    (n'.services = n.services ∧ ¬ Followed now n p ∨ n'.services = (p.serviceList.foldl (addService X now) n).services) := by
  obtain ⟨t, sv, m, he, -⟩ := syncPeer_eff h
  refine ⟨by rw [he]; rfl, ?_⟩
  unfold syncPeer checkPeer at h
  by_cases hs : similar n p = true
  · simp only [hs, if_true] at h
    cases h
    exact Or.inl ⟨rfl, fun hf => by rw [hf.1] at hs; cases hs⟩
  · by_cases hr : isRecent now p.timestamp = true
    · simp only [hs, hr, if_true, Bool.false_eq_true, if_false, Bool.true_eq_false] at h
      by_cases hi : differentAddress n (sortedPeer p) = ""
      · simp only [hi, if_true] at h
        cases h
        exact Or.inl ⟨rfl, fun hf => hf.2.2 hi⟩
      · simp only [hi, if_false] at h
        right
        cases hd : syncDatas X now (differentAddress n (sortedPeer p)) p.dataList (p.serviceList.foldl (addService X now) n).dataset with
        | ok m =>
          rw [hd] at h
          simp only [Res.bind] at h
          cases h
          rfl
        | err e => rw [hd] at h; cases h
        | panic => rw [hd] at h; cases h
    · simp only [hs, hr, Bool.false_eq_true, if_false, if_true] at h
      cases h
      exact Or.inl ⟨rfl, fun hf => hr hf.2.1⟩

theorem syncLoop_fresh {X : DS.XEnv} (hX : X.Ok) {now : Int} (s : String) : ∀ (ps : List (Peer × List Peer)) {n n' : Node}
    {out : List (String × Peer)}, syncLoop X now ps n = .ok (n', out) → Learned n s →
    (∃ r ∈ ps, Followed now n r.1 ∧ s ∈ r.1.serviceList) ∨ Fresh now n s → Fresh now n' s
  | [], n, n', out, h, _, hf => by
    simp only [syncLoop, Res.ok.injEq, Prod.mk.injEq] at h
    obtain ⟨rfl, -⟩ := h
    rcases hf with ⟨r, hr, -⟩ | hf
    · simp at hr
    · exact hf
  | (p, inner) :: ps, n, n', out, h, hl, hf => by
    rw [syncLoop] at h
    cases h1 : syncPeer X now inner n p with
    | err e => rw [h1] at h; cases h
    | panic => rw [h1] at h; cases h
    | ok r =>
      obtain ⟨n1, o1⟩ := r
      rw [h1] at h
      simp only [Res.bind] at h
      cases h2 : syncLoop X now ps n1 with
      | err e => rw [h2] at h; cases h
      | panic => rw [h2] at h; cases h
      | ok r =>
        obtain ⟨n2, o2⟩ := r
        rw [h2] at h
        simp only [Res.ok.injEq, Prod.mk.injEq] at h
        obtain ⟨rfl, -⟩ := h
        obtain ⟨ha, hs⟩ := syncPeer_services h1
        have hl1 : Learned n1 s := by
          rcases hs with ⟨hs, -⟩ | hs
          · unfold Learned; rw [hs]; exact hl
          · by_cases hm : s ∈ p.serviceList
            · have := (addServices_fresh hX now s p.serviceList n hl (Or.inl hm)).learned
              unfold Learned at this ⊢; rw [hs]; exact this
            · unfold Learned; rw [hs, addServices_other X now s _ _ hm]; exact hl
        refine syncLoop_fresh hX s ps h2 hl1 ?_
        rcases hf with ⟨r, hr, hr1, hr2⟩ | hf
        · rcases List.mem_cons.1 hr with rfl | hr
          · right
            rcases hs with ⟨-, hs⟩ | hs
            · exact absurd hr1 hs
            · have := addServices_fresh hX now s p.serviceList n hl (Or.inl hr2)
              unfold Fresh at this ⊢; rw [hs]; exact this
          · exact Or.inl ⟨r, hr, followed_congr ha hr1, hr2⟩
        · right
          rcases hs with ⟨hs, -⟩ | hs
          · unfold Fresh; rw [hs]; exact hf
          · have := addServices_fresh hX now s p.serviceList n hl (Or.inr hf)
            unfold Fresh at this ⊢; rw [hs]; exact this

theorem syncLoop_other {X : DS.XEnv} {now : Int} (s : String) : ∀ (ps : List (Peer × List Peer)) {n n' : Node}
    {out : List (String × Peer)}, syncLoop X now ps n = .ok (n', out) →
    (AMap.Nodup n.services → AMap.Nodup n'.services) ∧ ((∀ r ∈ ps, s ∉ r.1.serviceList) → n'.services.get? s = n.services.get? s)
  | [], n, n', out, h => by
    simp only [syncLoop, Res.ok.injEq, Prod.mk.injEq] at h
    obtain ⟨rfl, -⟩ := h
    exact ⟨id, fun _ => rfl⟩
  | (p, inner) :: ps, n, n', out, h => by
    rw [syncLoop] at h
    cases h1 : syncPeer X now inner n p with
    | err e => rw [h1] at h; cases h
    | panic => rw [h1] at h; cases h
    | ok r =>
      obtain ⟨n1, o1⟩ := r
      rw [h1] at h
      simp only [Res.bind] at h
      cases h2 : syncLoop X now ps n1 with
      | err e => rw [h2] at h; cases h
      | panic => rw [h2] at h; cases h
      | ok r =>
        obtain ⟨n2, o2⟩ := r
        rw [h2] at h
        simp only [Res.ok.injEq, Prod.mk.injEq] at h
        obtain ⟨rfl, -⟩ := h
        obtain ⟨-, hs⟩ := syncPeer_services h1
        obtain ⟨g1, g2⟩ := syncLoop_other s ps h2
        constructor
        · intro hn
          refine g1 ?_
          rcases hs with ⟨hs, -⟩ | hs
          · rw [hs]; exact hn
          · rw [hs]; exact addServices_nodup X now _ _ hn
        · intro hno
          rw [g2 fun r hr => hno r (List.mem_cons_of_mem _ hr)]
          rcases hs with ⟨hs, -⟩ | hs
          · rw [hs]
          · rw [hs, addServices_other X now s _ _ (hno _ (List.mem_cons_self ..))]

/-- What one event does to the services. -/
theorem step_services {X : DS.XEnv} {s s' : NS} {e : Ev} (h : step X s e = some s') (sv : String) :
    (AMap.Nodup s.node.services → AMap.Nodup s'.node.services) ∧
    ((∀ ps, e = .sync ps → ∀ r ∈ ps, sv ∉ r.1.serviceList) → s'.node.services.get? sv = s.node.services.get? sv) := by
  have same : ∀ {x y : Node}, y.services = x.services →
      (AMap.Nodup x.services → AMap.Nodup y.services) ∧ ((∀ ps, e = .sync ps → ∀ r ∈ ps, sv ∉ r.1.serviceList) →
        y.services.get? sv = x.services.get? sv) := fun he => ⟨fun hn => by rw [he]; exact hn, fun _ => by rw [he]⟩
  unfold step at h
  split at h
  · split at h
    · cases h; exact same rfl
    · cases h
  · cases h
    refine same ?_
    simp only [Net.announce]
    split <;> rfl
  · rename_i ps
    cases hsy : syncWithPeers X s.now ps s.node with
    | err e => rw [hsy] at h; cases h
    | panic => rw [hsy] at h; cases h
    | ok r =>
      obtain ⟨n1, out⟩ := r
      rw [hsy] at h
      simp only [Option.some.injEq] at h
      subst h
      unfold syncWithPeers at hsy
      cases hl : syncLoop X s.now ps s.node with
      | err e => rw [hl] at hsy; cases hsy
      | panic => rw [hl] at hsy; cases hsy
      | ok r =>
        obtain ⟨n2, o2⟩ := r
        rw [hl] at hsy
        simp only [Res.bind, Res.ok.injEq, Prod.mk.injEq] at hsy
        obtain ⟨rfl, -⟩ := hsy
        obtain ⟨g1, g2⟩ := syncLoop_other sv ps hl
        exact ⟨g1, fun hno => g2 (hno ps rfl)⟩
  · cases h
    refine same ?_
    simp only [Net.learn]
    split
    · rfl
    · split <;> rfl
  · cases h; exact same rfl
  · split at h
    · split at h
      · cases h
      · cases h; exact same rfl
    · cases h

theorem mem_serviceKeys {t : Int} {n : Node} {s : String} (hn : AMap.Nodup n.services) :
    s ∈ serviceKeys t n ↔ ∃ e, n.services.get? s = some e ∧ alive t e = true := by
  unfold serviceKeys
  simp only [List.mem_map, List.mem_filter]
  constructor
  · rintro ⟨⟨k, e⟩, ⟨h1, h2⟩, rfl⟩
    exact ⟨e, AMap.get?_of_mem hn h1, h2⟩
  · rintro ⟨e, h1, h2⟩
    exact ⟨(s, e), ⟨AMap.mem_of_get? h1, h2⟩, rfl⟩

theorem Fresh.known {now t : Int} {n : Node} {s : String} (h : Fresh now n s) (ht : t ≤ now + 10 * minute) : s ∈ serviceKeys t n := by
  obtain ⟨e, h1, h2⟩ := h
  unfold serviceKeys
  simp only [List.mem_map, List.mem_filter]
  exact ⟨(s, some e), ⟨AMap.mem_of_get? h1, by simp only [alive, decide_eq_true_eq]; omega⟩, rfl⟩

/-! ### Two nodes that tell each other what they know -/

/-- node/node.go:278-283 with nodeservice.go:53-55, and node/node.go:218-267: `a` sends its record to `b`, and `b` synchronises. -/
def tell (X : DS.XEnv) (now : Int) (a b : Node) : Res (Node × Node) :=
  (nodeInfo X now (AMap.keys a.dataset) a).bind fun (a, p) =>
  let b := announce X now b p
  (syncWithPeers X now ((peerItems now b).map fun q => (q, peerItems now b)) b).bind fun (b, _) => .ok (a, b)

/-- One round: each tells the other. -/
def gossip (X : DS.XEnv) (now : Int) (a b : Node) : Res (Node × Node) :=
  (tell X now a b).bind fun (a, b) => (tell X now b a).bind fun (b, a) => .ok (a, b)

/-- `k` rounds, one a minute (node/node.go:297). -/
def rounds (X : DS.XEnv) : Nat → Int → Node → Node → Res (Node × Node)
  | 0, _, a, b => .ok (a, b)
  | k + 1, now, a, b => (gossip X now a b).bind fun (a, b) => rounds X k (now + minute) a b

/-- A node with this address that has no data sets and knows at most one other. -/
structure Plain (now : Int) (n : Node) (own other : String) : Prop where
  own : addresses n = [own]
  dataset : n.dataset = []
  peers : ∀ id x, (id, x) ∈ n.peers → id = serialize [other] ∧ x.peer.addressList = [other] ∧ x.peer.dataList = [] ∧
    (x.peer.timestamp.toNat : Int) + 60 ≤ now / 1000000000

theorem serialize_one (a : String) : serialize [a] = a := rfl

theorem syncLoop_plain (X : DS.XEnv) (now : Int) : ∀ (ps : List (Peer × List Peer)) (n : Node), (∀ r ∈ ps, r.1.dataList = []) →
    ∃ r, syncLoop X now ps n = .ok r
  | [], n, _ => ⟨_, rfl⟩
  | (p, inner) :: ps, n, h => by
    have h1 : ∃ r, syncPeer X now inner n p = .ok r := by
      have hd : p.dataList = [] := h (p, inner) (List.mem_cons_self ..)
      unfold syncPeer
      simp only [hd, syncDatas, Res.bind]
      split
      · exact ⟨_, rfl⟩
      · split <;> exact ⟨_, rfl⟩
    obtain ⟨⟨n1, o1⟩, h1⟩ := h1
    obtain ⟨⟨n2, o2⟩, h2⟩ := syncLoop_plain X now ps n1 fun r hr => h r (List.mem_cons_of_mem _ hr)
    refine ⟨(n2, o1 ++ o2), ?_⟩
    rw [syncLoop, h1]
    simp only [Res.bind, h2]

theorem mem_erase_peers {n : Node} {t : PeerTable} {id : String} (h : t = n.peers ∨ t = n.peers.erase id) (x : String × PSlot) (hx : x ∈ t) :
    x ∈ n.peers := by
  rcases h with rfl | rfl
  · exact hx
  · exact ((AMap.mem_erase _ _ _).1 hx).1

theorem syncLoop_sub {X : DS.XEnv} {now : Int} : ∀ (ps : List (Peer × List Peer)) {n n' : Node} {out : List (String × Peer)},
    syncLoop X now ps n = .ok (n', out) → (∀ r ∈ ps, r.1.dataList = []) →
    (∀ x ∈ n'.peers, x ∈ n.peers) ∧ n'.dataset = n.dataset ∧ addresses n' = addresses n
  | [], n, n', out, h, _ => by
    simp only [syncLoop, Res.ok.injEq, Prod.mk.injEq] at h
    obtain ⟨rfl, -⟩ := h
    exact ⟨fun _ h => h, rfl, rfl⟩
  | (p, inner) :: ps, n, n', out, h, hd => by
    rw [syncLoop] at h
    cases h1 : syncPeer X now inner n p with
    | err e => rw [h1] at h; cases h
    | panic => rw [h1] at h; cases h
    | ok r =>
      obtain ⟨n1, o1⟩ := r
      rw [h1] at h
      simp only [Res.bind] at h
      cases h2 : syncLoop X now ps n1 with
      | err e => rw [h2] at h; cases h
      | panic => rw [h2] at h; cases h
      | ok r =>
        obtain ⟨n2, o2⟩ := r
        rw [h2] at h
        simp only [Res.ok.injEq, Prod.mk.injEq] at h
        obtain ⟨rfl, -⟩ := h
        obtain ⟨g1, g2, g3⟩ := syncLoop_sub ps h2 fun r hr => hd r (List.mem_cons_of_mem _ hr)
        obtain ⟨t, sv, m, he, ht⟩ := syncPeer_eff h1
        have hm : n1.dataset = n.dataset := by
          have hd1 : p.dataList = [] := hd (p, inner) (List.mem_cons_self ..)
          unfold syncPeer at h1
          simp only [hd1, syncDatas, Res.bind] at h1
          have hc : (checkPeer now n p).1.dataset = n.dataset := by
            rcases checkPeer_peers now n p with h | ⟨h, -⟩ <;> rw [h]
          split at h1
          · cases h1; exact hc
          · split at h1
            · cases h1; exact hc
            · cases h1
              obtain ⟨sv, hsv⟩ := addServices_eq X now p.serviceList (checkPeer now n p).1
              rw [hsv]; exact hc
        refine ⟨fun x hx => ?_, g2.trans hm, g3.trans (by rw [he]; rfl)⟩
        have := g1 x hx
        rw [he] at this
        exact mem_erase_peers ht x this

/-- The teller knows the service: then the other one does, for ten minutes. -/
theorem tell_fresh {X : DS.XEnv} (hX : X.Ok) {now : Int} (h0 : 0 ≤ now) (h1 : now / 1000000000 + 300 < 18446744073709551616) {a b : Node} {A B s : String}
    (hAB : A ≠ B) (hA0 : A ≠ "")
    (oa : addresses a = [A]) (da : a.dataset = []) (hb : Plain now b B A) (hs : s ∈ serviceKeys now a) (hl : Learned b s) :
    ∃ b', tell X now a b = .ok (a, b') ∧ Fresh now b' s ∧ addresses b' = [B] ∧ b'.dataset = [] ∧
      ∀ id x, (id, x) ∈ b'.peers → id = serialize [A] ∧ x.peer.addressList = [A] ∧ x.peer.dataList = [] ∧
        (x.peer.timestamp.toNat : Int) ≤ now / 1000000000 := by
  have hsec : (seconds now).toNat = now / 1000000000 := by rw [seconds_toNat h0 (by omega)]; omega
  have hinfo : nodeInfo X now (AMap.keys a.dataset) a = .ok (a, ⟨a.version, [A], seconds now, serviceKeys now a, []⟩) := by
    unfold nodeInfo
    rw [da, oa]
    have : a = { a with dataset := [] } := by rw [← da]
    conv => rhs; rw [this]
    rfl
  -- the announcement is taken
  have hrec : isRecent now (seconds now) = true := isRecent_new (by omega) (by omega)
  have hsim : similar b ⟨a.version, [A], seconds now, serviceKeys now a, []⟩ = false := by
    unfold similar idOfPeer
    rw [hb.own]
    simp only [serialize_one]
    simp [Ne.symm hAB]
  have hann : announce X now b ⟨a.version, [A], seconds now, serviceKeys now a, []⟩ =
      { b with peers := putPeer X now b.peers A ⟨a.version, [A], seconds now, serviceKeys now a, []⟩ } := by
    unfold announce announceCheck
    rw [hsim]
    have hid : idOfPeer ⟨a.version, [A], seconds now, serviceKeys now a, []⟩ = A := rfl
    have hsp : sortedPeer ⟨a.version, [A], seconds now, serviceKeys now a, []⟩ = ⟨a.version, [A], seconds now, serviceKeys now a, []⟩ := rfl
    rw [hid, hsp]
    simp only [Bool.false_eq_true, if_false, hrec, if_true]
    cases hp : peerAt now b.peers A with
    | none => rfl
    | some old =>
      obtain ⟨x, g1, g2, g3⟩ := peerAt_some.1 hp
      obtain ⟨-, -, -, g⟩ := hb.peers A _ (AMap.mem_of_get? g1)
      have : ¬ old.timestamp ≥ seconds now := by
        intro hge
        have := UInt64.le_iff_toNat_le.1 hge
        rw [g3] at g
        omega
      simp only [this, if_false]
  obtain ⟨e, he, he1, he2⟩ := hX.extend (now + 5 * minute) now (10 * minute) (by unfold minute; omega) (by decide)
  generalize hb1 : ({ b with peers := putPeer X now b.peers A ⟨a.version, [A], seconds now, serviceKeys now a, []⟩ } : Node) = b1 at *
  have hpeers : b1.peers = putPeer X now b.peers A ⟨a.version, [A], seconds now, serviceKeys now a, []⟩ := by rw [← hb1]
  have hall : ∀ id x, (id, x) ∈ b1.peers → id = serialize [A] ∧ x.peer.addressList = [A] ∧ x.peer.dataList = [] ∧
        (x.peer.timestamp.toNat : Int) ≤ now / 1000000000 := by
    intro id x hx
    rw [hpeers] at hx
    unfold putPeer at hx
    rcases (AMap.mem_set _ _ _ _).1 hx with h | ⟨h, -⟩
    · simp only [Prod.mk.injEq] at h
      obtain ⟨rfl, rfl⟩ := h
      exact ⟨rfl, rfl, rfl, by simp only; omega⟩
    · obtain ⟨g1, g2, g3, g4⟩ := hb.peers id x h
      exact ⟨g1, g2, g3, by omega⟩
  have hitem : (⟨a.version, [A], seconds now, serviceKeys now a, []⟩ : Peer) ∈ peerItems now b1 := by
    unfold peerItems
    rw [hpeers]
    unfold putPeer
    simp only [List.mem_map, List.mem_filter]
    refine ⟨_, ⟨(AMap.mem_set _ _ _ _).2 (Or.inl rfl), ?_⟩, rfl⟩
    rw [he]
    unfold minute at he1
    simp only [alive, decide_eq_true_eq]; omega
  have hdl : ∀ r ∈ (peerItems now b1).map (fun q => (q, peerItems now b1)), r.1.dataList = [] := by
    intro r hr
    obtain ⟨q, hq, rfl⟩ := List.mem_map.1 hr
    unfold peerItems at hq
    obtain ⟨⟨id, x⟩, hx, rfl⟩ := List.mem_map.1 hq
    exact (hall id x (List.mem_filter.1 hx).1).2.2.1
  obtain ⟨⟨b2, out⟩, hsy⟩ := syncLoop_plain X now ((peerItems now b1).map fun q => (q, peerItems now b1)) b1 hdl
  have hown : addresses b1 = [B] := by rw [← hb1]; exact hb.own
  have hl1 : Learned b1 s := by rw [← hb1]; exact hl
  obtain ⟨s1, s2, s3⟩ := syncLoop_sub _ hsy hdl
  have hfr := syncLoop_fresh hX s _ hsy hl1 (Or.inl ⟨_, List.mem_map.2 ⟨_, hitem, rfl⟩, ⟨?_, hrec, ?_⟩, hs⟩)
  · refine ⟨{ b2 with ready := true }, ?_, hfr, by show addresses b2 = _; rw [s3, hown], by show b2.dataset = _; rw [s2, ← hb1]; exact hb.dataset,
      fun id x hx => hall id x (s1 _ hx)⟩
    unfold tell
    rw [hinfo]
    simp only [Res.bind]
    rw [hann]
    unfold syncWithPeers
    rw [hsy]
    rfl
  · rw [← hb1]; exact hsim
  · unfold differentAddress
    rw [hown]
    show firstDifferent [B] (sortStrings [A]) ≠ ""
    have : sortStrings [A] = [A] := rfl
    rw [this]
    simp [firstDifferent, hAB, hA0]

theorem plain_later {now : Int} {n : Node} {own other : String} (h : addresses n = [own]) (hd : n.dataset = [])
    (hp : ∀ id x, (id, x) ∈ n.peers → id = serialize [other] ∧ x.peer.addressList = [other] ∧ x.peer.dataList = [] ∧
      (x.peer.timestamp.toNat : Int) ≤ now / 1000000000) : Plain (now + minute) n own other :=
  ⟨h, hd, fun id x hx => by
    obtain ⟨g1, g2, g3, g4⟩ := hp id x hx
    exact ⟨g1, g2, g3, by unfold minute; omega⟩⟩

/-- Both know the service, and go on knowing it. -/
theorem rounds_fresh {X : DS.XEnv} (hX : X.Ok) {A B s : String} (hAB : A ≠ B) (hA : A ≠ "") (hB : B ≠ "") : ∀ (k : Nat) (now : Int) (a b : Node),
    0 ≤ now → now / 1000000000 + 60 * k + 300 < 18446744073709551616 → Plain now a A B → Plain now b B A →
    s ∈ serviceKeys now a → Learned a s → Learned b s →
    ∃ a' b', rounds X k now a b = .ok (a', b') ∧ s ∈ serviceKeys (now + k * minute) a' ∧ (0 < k → s ∈ serviceKeys (now + k * minute) b') ∧
      Learned a' s ∧ Learned b' s
  | 0, now, a, b, _, _, _, _, hs, hla, hlb => ⟨a, b, rfl, by simpa using hs, by simp, hla, hlb⟩
  | k + 1, now, a, b, h0, h1, ha, hb, hs, hla, hlb => by
    obtain ⟨b1, t1, f1, o1, d1, p1⟩ := tell_fresh hX h0 (by omega) hAB hA ha.own ha.dataset hb hs hlb
    have hm : (0 : Int) < minute := by decide
    -- the reply: the record of `a` that `b` has just got does not matter
    obtain ⟨a1, t2, f2, o2, d2, p2⟩ := tell_fresh hX h0 (by omega) (Ne.symm hAB) hB o1 d1 ha (f1.known (by omega)) hla
    have hr : rounds X (k + 1) now a b = rounds X k (now + minute) a1 b1 := by
      rw [rounds, gossip, t1]
      simp only [Res.bind, t2]
    have e : now + ((k + 1 : Nat) : Int) * minute = now + minute + (k : Int) * minute := by
      push_cast; rw [Int.add_mul]; omega
    rw [hr, e]
    obtain ⟨a', b', g1, g2, g3, g4, g5⟩ := rounds_fresh hX hAB hA hB k (now + minute) a1 b1 (by omega)
      (by unfold minute; push_cast at h1; omega) (plain_later o2 d2 p2) (plain_later o1 d1 p1)
      (f2.known (by omega)) f2.learned f1.learned
    refine ⟨a', b', g1, g2, fun _ => ?_, g4, g5⟩
    by_cases hk : 0 < k
    · exact g3 hk
    · have : k = 0 := by omega
      subst this
      simp only [rounds, Res.ok.injEq, Prod.mk.injEq] at g1
      obtain ⟨-, rfl⟩ := g1
      exact f1.known (by unfold minute; omega)

end Net

open Net

/-- C151, full statement: a service that no node has in its configuration is forgotten some time
(before the clock of seconds overflows). -/
def C151_forgotten_statement : Prop := ∀ (X : DS.XEnv), X.Ok → ∀ (now : Int) (a b : Node) (s : String), Learned a s → Learned b s →
  ∃ (k : Nat) (a' b' : Node), now / 1000000000 + 60 * k + 300 < 18446744073709551616 ∧ rounds X k now a b = .ok (a', b') ∧ s ∉ serviceKeys (now + k * minute) a' ∧ s ∉ serviceKeys (now + k * minute) b'

/-- C151, while a peer reports it: a service in a record that a synchronisation follows is known for ten minutes from then on. -/
theorem C151_kept {X : DS.XEnv} (hX : X.Ok) (now : Int) (ps : List (Peer × List Peer)) (n n' : Node) (out : List (String × Peer)) (s : String)
    (h : syncWithPeers X now ps n = .ok (n', out)) (hl : Learned n s) (p : Peer) (inner : List Peer) (hp : (p, inner) ∈ ps)
    (hf : Followed now n p) (hs : s ∈ p.serviceList) (t : Int) (ht : t ≤ now + 10 * minute) : s ∈ serviceKeys t n' := by
  unfold syncWithPeers at h
  cases hsy : syncLoop X now ps n with
  | err e => rw [hsy] at h; cases h
  | panic => rw [hsy] at h; cases h
  | ok r =>
    obtain ⟨n1, o1⟩ := r
    rw [hsy] at h
    simp only [Res.bind, Res.ok.injEq, Prod.mk.injEq] at h
    obtain ⟨rfl, -⟩ := h
    exact (syncLoop_fresh hX s ps hsy hl (Or.inl ⟨_, hp, hf, hs⟩)).known ht

/-- C151, the part that holds: the expiry time of a service changes only when a record that names it is synchronised with.  Without
one, it is forgotten when that time is over, and a service that is not known does not become so. -/
theorem C151_forgotten_partial {X : DS.XEnv} (s : String) : ∀ (es : List Ev) (s0 s1 : NS), run X s0 es = some s1 →
    AMap.Nodup s0.node.services → (∀ ps, Ev.sync ps ∈ es → ∀ r ∈ ps, s ∉ r.1.serviceList) →
    (s ∈ serviceKeys s1.now s1.node ↔ ∃ e, s0.node.services.get? s = some e ∧ alive s1.now e = true) := by
  have key : ∀ (es : List Ev) (s0 s1 : NS), run X s0 es = some s1 → AMap.Nodup s0.node.services →
      (∀ ps, Ev.sync ps ∈ es → ∀ r ∈ ps, s ∉ r.1.serviceList) →
      AMap.Nodup s1.node.services ∧ s1.node.services.get? s = s0.node.services.get? s := by
    intro es
    induction es with
    | nil => intro s0 s1 h hn _; cases h; exact ⟨hn, rfl⟩
    | cons e es ih =>
      intro s0 s1 h hn hno
      rw [run] at h
      cases hst : step X s0 e with
      | none => rw [hst] at h; cases h
      | some s2 =>
        rw [hst] at h
        obtain ⟨g1, g2⟩ := step_services hst s
        obtain ⟨g3, g4⟩ := ih s2 s1 h (g1 hn) fun ps hps => hno ps (List.mem_cons_of_mem _ hps)
        exact ⟨g3, g4.trans (g2 fun ps hps => hno ps (by rw [hps]; exact List.mem_cons_self ..))⟩
  intro es s0 s1 h hn hno
  obtain ⟨g1, g2⟩ := key es s0 s1 h hn hno
  rw [mem_serviceKeys g1, g2]

/-- C151, why not: two nodes that know it remind each other of it, whoever else is there, as long as they run (and the clock fits). -/
theorem C151_reminded {X : DS.XEnv} (hX : X.Ok) (A B s : String) (hAB : A ≠ B) (hA : A ≠ "") (hB : B ≠ "") (k : Nat) (now : Int) (a b : Node)
    (h0 : 0 ≤ now) (h1 : now / 1000000000 + 60 * k + 300 < 18446744073709551616) (ha : Plain now a A B) (hb : Plain now b B A)
    (hs : s ∈ serviceKeys now a) (hla : Learned a s) (hlb : Learned b s) :
    ∃ a' b', rounds X k now a b = .ok (a', b') ∧ s ∈ serviceKeys (now + k * minute) a' ∧ (0 < k → s ∈ serviceKeys (now + k * minute) b') := by
  obtain ⟨a', b', g1, g2, g3, -⟩ := rounds_fresh hX hAB hA hB k now a b h0 h1 ha hb hs hla hlb
  exact ⟨a', b', g1, g2, g3⟩

namespace Net
/-- Two nodes without configured services.  The first has learned of one. -/
def exGone : Node := { newNode 7000 ["a:1"] [] [] with services := [("gone:1", some (exNow + minute))] }
def exFriend : Node := newNode 7000 ["b:1"] [] []
end Net

/-- C151 is false: `gone:1` is in no configuration, and known to both for as long as the clock has room. -/
theorem C151_example : Plain exNow exGone "a:1" "b:1" ∧ Plain exNow exFriend "b:1" "a:1" ∧ Learned exGone "gone:1" ∧ Learned exFriend "gone:1" ∧
    "gone:1" ∈ serviceKeys exNow exGone ∧ "gone:1" ∉ serviceKeys exNow exFriend := by
  refine ⟨⟨by decide, rfl, by simp [exGone, newNode]⟩, ⟨by decide, rfl, by simp [exFriend, newNode]⟩, ?_, ?_, by decide, by decide⟩
  · unfold Learned; decide
  · unfold Learned; decide

theorem C151_forgotten_fails : ¬ C151_forgotten_statement := by
  intro h
  obtain ⟨h1, h2, h3, h4, h5, -⟩ := C151_example
  obtain ⟨k, a', b', g0, g1, g2, -⟩ := h (DS.toy 0) (DS.toy_ok 0) exNow exGone exFriend "gone:1" h3 h4
  obtain ⟨a2, b2, e1, e2, -⟩ := C151_reminded (DS.toy_ok 0) "a:1" "b:1" "gone:1" (by decide) (by decide) (by decide) k exNow exGone exFriend
    (by decide) g0 h1 h2 h5 h3 h4
  rw [g1] at e1
  simp only [Res.ok.injEq, Prod.mk.injEq] at e1
  rw [e1.1] at g2
  exact g2 e2

end Veri
