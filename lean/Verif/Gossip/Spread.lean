import Verif.Gossip.Props
/-
C156: data sets are known to the nodes of a connected cluster.
-/
set_option autoImplicit false
set_option linter.unusedSectionVars false
namespace Veri
namespace Gossip
open Net

variable {ι : Type} [DecidableEq ι]

/-- Each time the node joins it lists the data set, with at least this version. -/
def Keeping (X : DS.XEnv) (W : World ι) (i : ι) (c : DataConfig) : List (Ev ι) → Int × (ι → Node) → Prop
  | [], _ => True
  | e :: es, (t, σ) => (e.who = i → e.kind = .join → Has (t + e.wait) (σ i) c) ∧
    ∀ σ', step X W (t + e.wait) e σ = .ok σ' → Keeping X W i c es (t + e.wait, σ')

section
variable {W : World ι} {addr : ι → List String} {port : ι → UInt32}

/-- The records of `i` in this table that are newer than `τ` list the data set. -/
def ToldAt (addr : ι → List String) (i : ι) (c : DataConfig) (τ : Int) (n : Node) : Prop :=
  ∀ s, n.peers.get? (serialize (addr i)) = some s → τ < (s.peer.timestamp.toNat : Int) → Lists s.peer c

theorem announce_told {X : DS.XEnv} (hW : W.Ok addr port) {t : Int} {i k : ι} {c : DataConfig} {τ : Int} {n : Node} {p : Peer} (hp : RecOf addr t k p)
    (h : ToldAt addr i c τ n) (hl : k = i → τ < (p.timestamp.toNat : Int) → Lists p c) : ToldAt addr i c τ (announce X t n p) := by
  unfold announce
  cases hch : announceCheck t n p with
  | none => exact h
  | some r =>
    obtain ⟨-, -, rfl, -⟩ := announceCheck_some hch
    intro s hs hτ
    simp only [putPeer, AMap.get?_set] at hs
    split at hs
    · rename_i hid
      injection hs with hs
      subst hs
      rw [hp.id] at hid
      exact hl (id_inj hW hid) hτ
    · exact h s hs hτ

theorem nodeInfo_has {X : DS.XEnv} (hX : X.Ok) {t : Int} (hc : Clock t) {o : Orders} (ho : o.Ok) {k : ι} {n : Node}
    (hn : Settled addr port t k n) : ∃ m p, nodeInfo X t (o.names (DS.names t n.dataset)) n = .ok ({ n with dataset := m }, p) ∧
      Settled addr port t k { n with dataset := m } ∧ RecOf addr t k p ∧ (∀ c, Has t n c → Lists p c) ∧ ∀ c, Has t n c → Has t { n with dataset := m } c := by
  have hnd : (o.names (DS.names t n.dataset)).Nodup := (ho.names _).nodup_iff.2 (DS.nodup_names hn.data.wf.1)
  obtain ⟨m, cs, w1, -, -, -, w5⟩ := good_walk hX _ hn.data hnd fun x hx => (DS.mem_names hn.data.wf.1).1 ((ho.names _).mem_iff.1 hx)
  obtain ⟨m', p, h1, h2, h3, -, h5⟩ := nodeInfo_ok hX hc hn (ho.names _)
  have hm : m' = m := by
    rw [nodeInfo, w1] at h1
    simp only [Res.bind, Res.ok.injEq, Prod.mk.injEq] at h1
    have := congrArg Node.dataset h1.1
    exact this.symm
  subst hm
  refine ⟨m', p, h1, h2, h3, h5, ?_⟩
  rintro c ⟨s, c', b1, b2, b3⟩
  obtain ⟨s', d1, d2⟩ := w5 _ _ b1
  exact ⟨s', c', d1, by rw [d2]; exact b2, b3⟩

theorem joinOne_told {X : DS.XEnv} (hX : X.Ok) (hW : W.Ok addr port) {t : Int} (hc : Clock t) {o : Orders} (ho : o.Ok) (k : ι) {σ σ' : ι → Node}
    (hσ : ∀ l, Settled addr port t l (σ l)) {id : String} (h : joinOne X W t o k σ id = .ok σ') {i : ι} {c : DataConfig} {τ : Int}
    (hh : k = i → Has t (σ i) c) (hT : ∀ l, ToldAt addr i c τ (σ l)) :
    (∀ l, ToldAt addr i c τ (σ' l)) ∧ (k = i → Has t (σ' i) c) := by
  obtain ⟨m', p, h1, h2, h3, h5, w5⟩ := nodeInfo_has hX hc ho (hσ k)
  unfold joinOne at h
  rw [h1] at h
  simp only [Res.bind] at h
  have a1 : ∀ l, Settled addr port t l (upd σ k { σ k with dataset := m' } l) := upd_all hσ h2
  have a2 : ∀ l, ToldAt addr i c τ (upd σ k { σ k with dataset := m' } l) := upd_all (P := fun _ => ToldAt addr i c τ) hT (hT k)
  have a3 : k = i → Has t (upd σ k { σ k with dataset := m' } i) c := by
    rintro rfl
    rw [upd_self]
    exact w5 c (hh rfl)
  have a4 : k = i → τ < (p.timestamp.toNat : Int) → Lists p c := by
    rintro rfl -
    exact h5 c (hh rfl)
  generalize upd σ k { σ k with dataset := m' } = σ1 at *
  cases hd : W.dial id with
  | none =>
    rw [hd] at h
    simp only [Res.ok.injEq] at h
    subst h
    exact ⟨a2, a3⟩
  | some j =>
    rw [hd] at h
    simp only [Res.ok.injEq] at h
    have b1 : ∀ l, Settled addr port t l (upd σ1 j (announce X t (σ1 j) p) l) := upd_all a1 (announce_settled hX (a1 j) h3)
    have b2 : ∀ l, ToldAt addr i c τ (upd σ1 j (announce X t (σ1 j) p) l) :=
      upd_all (P := fun _ => ToldAt addr i c τ) a2 (announce_told hW h3 (a2 j) a4)
    have b3 : ∀ l, (upd σ1 j (announce X t (σ1 j) p) l).dataset = (σ1 l).dataset := by
      intro l
      unfold upd
      split
      · rename_i e; rw [e]; unfold announce; split <;> rfl
      · rfl
    generalize upd σ1 j (announce X t (σ1 j) p) = σ2 at *
    obtain ⟨-, l2, -, l4⟩ := learn_settled hW (j := j) (b1 k)
    subst h
    refine ⟨upd_all (P := fun _ => ToldAt addr i c τ) b2 ?_, ?_⟩
    · unfold ToldAt; rw [l2]; exact b2 k
    · rintro rfl
      rw [upd_self]
      unfold Has
      rw [l4, b3]
      exact a3 rfl

theorem joinAll_told {X : DS.XEnv} (hX : X.Ok) (hW : W.Ok addr port) {t : Int} (hc : Clock t) {o : Orders} (ho : o.Ok) (k : ι) {i : ι} {c : DataConfig}
    {τ : Int} : ∀ (ids : List String) (σ σ' : ι → Node), (∀ l, Settled addr port t l (σ l)) → joinAll X W t o k ids σ = .ok σ' →
    (k = i → Has t (σ i) c) → (∀ l, ToldAt addr i c τ (σ l)) → ∀ l, ToldAt addr i c τ (σ' l)
  | [], σ, σ', _, h, _, hT => by
    simp only [joinAll, Res.ok.injEq] at h
    subst h
    exact hT
  | id :: ids, σ, σ', hσ, h, hh, hT => by
    obtain ⟨σ1, a1, a2, -⟩ := joinOne_ok hX hW hc ho k σ hσ id
    rw [joinAll, a1] at h
    obtain ⟨b1, b2⟩ := joinOne_told hX hW hc ho k hσ a1 hh hT
    exact joinAll_told hX hW hc ho k ids σ1 σ' a2 h b2 b1

theorem deliver_told {X : DS.XEnv} (hW : W.Ok addr port) {t : Int} {i : ι} {c : DataConfig} {τ : Int} : ∀ (out : List (String × Peer)) (σ : ι → Node),
    (∀ m ∈ out, ∃ k, RecOf addr t k m.2 ∧ (k = i → τ < (m.2.timestamp.toNat : Int) → Lists m.2 c)) → (∀ l, ToldAt addr i c τ (σ l)) →
    (∀ l, ToldAt addr i c τ (deliver X W t out σ l)) ∧ ∀ l, (deliver X W t out σ l).dataset = (σ l).dataset
  | [], σ, _, hT => ⟨hT, fun _ => rfl⟩
  | (id, p) :: out, σ, ho, hT => by
    unfold deliver
    have ho' : ∀ m ∈ out, ∃ k, RecOf addr t k m.2 ∧ (k = i → τ < (m.2.timestamp.toNat : Int) → Lists m.2 c) := fun m hm => ho m (List.mem_cons_of_mem _ hm)
    obtain ⟨k, hk1, hk2⟩ := ho (id, p) List.mem_cons_self
    cases hd : W.dial id with
    | none => exact deliver_told hW out σ ho' hT
    | some j =>
      obtain ⟨h1, h2⟩ := deliver_told (X := X) hW out (upd σ j (announce X t (σ j) p)) ho'
        (upd_all (P := fun _ => ToldAt addr i c τ) hT (announce_told hW hk1 (hT j) hk2))
      refine ⟨h1, fun l => (h2 l).trans ?_⟩
      unfold upd
      split
      · rename_i e; rw [e]; unfold announce; split <;> rfl
      · rfl

/-- A synchronisation: what is told stays told, and the node takes up the data sets of the nodes that it knows. -/
theorem sync_told {X : DS.XEnv} (hX : X.Ok) (hW : W.Ok addr port) {t : Int} (hc : Clock t) {o : Orders} (ho : o.Ok) (k : ι) {σ σ' : ι → Node}
    (hσ : ∀ l, Settled addr port t l (σ l)) (h : sync X W t o k σ = .ok σ') {i : ι} {c : DataConfig} {τ : Int} (hT : ∀ l, ToldAt addr i c τ (σ l)) :
    (∀ l, ToldAt addr i c τ (σ' l)) ∧
    (k ≠ i → ∀ τ', τ < τ' → t / 1000000000 < τ' + 300 → Knows addr (σ k) i τ' → ∃ a ∈ addr i, Served t a c (σ' k).dataset) := by
  have hn := hσ k
  let ps := (o.peers (peerItems t (σ k))).map fun p => (p, o.inner p (peerItems t (σ k)))
  have hrec : ∀ p ∈ peerItems t (σ k), ∃ l, RecOf addr t l p ∧ (l = i → τ < (p.timestamp.toNat : Int) → Lists p c) := by
    intro p hp
    obtain ⟨id, s, h1, h2, rfl⟩ := (mem_peerItems hn.nodup).1 hp
    obtain ⟨l, rfl, h4, -⟩ := hn.recs id s h1
    refine ⟨l, h4, ?_⟩
    rintro rfl hτ
    exact hT k s h1 hτ
  have hps : ∀ r ∈ ps, r.1 ∈ peerItems t (σ k) ∧ ∀ q, q ∈ r.2 ↔ q ∈ peerItems t (σ k) := by
    intro r hr
    obtain ⟨p, hp, rfl⟩ := List.mem_map.1 hr
    exact ⟨(ho.peers _).mem_iff.1 hp, fun q => (ho.inner p _).mem_iff⟩
  obtain ⟨n', out, h1, h2, h3, -⟩ := syncLoop_ok hX (now := t) ps hn.data fun r hr c hcm => by
    obtain ⟨l, hl, -⟩ := hrec r.1 (hps r hr).1
    exact hl.keep c hcm
  obtain ⟨tb, sv, m, he, hsub⟩ := syncLoop_eff ps h1
  have hsync : sync X W t o k σ = .ok (deliver X W t out (upd σ k { n' with ready := true })) := by
    unfold sync syncWithPeers
    show Res.bind (Res.bind (syncLoop X t ps (σ k)) _) _ = _
    rw [h1]
    rfl
  rw [hsync] at h
  injection h with h
  have hout : ∀ x ∈ out, ∃ l, RecOf addr t l x.2 ∧ (l = i → τ < (x.2.timestamp.toNat : Int) → Lists x.2 c) := by
    rintro ⟨to, q⟩ hq
    obtain ⟨-, -, r, hr, -, hqr⟩ := C61_sent X t ps (σ k) n' out h1 to q hq
    exact hrec q (((hps r hr).2 q).1 hqr)
  obtain ⟨d1, d2⟩ := deliver_told (X := X) hW out (upd σ k { n' with ready := true }) hout
    (upd_all (P := fun _ => ToldAt addr i c τ) hT (fun s hs => hT k s (hsub _ s (by rw [he] at hs; exact hs))))
  rw [← h]
  refine ⟨d1, ?_⟩
  intro hki τ' hτ ht hk
  obtain ⟨s, g1, g2, g3⟩ := hn.alive hk ht
  have hr := hn.recAt hW g1
  obtain ⟨e1, e2⟩ := handled hW hc (Ne.symm hki) hn hr (by omega)
  obtain ⟨c', l1, l2, l3⟩ := hT k s g1 (by omega)
  have hp : s.peer ∈ o.peers (peerItems t (σ k)) := (ho.peers _).mem_iff.2 ((mem_peerItems hn.nodup).2 ⟨_, s, g1, g3, rfl⟩)
  obtain ⟨s2, c2, f1, f2, f3, f4⟩ := h3 _ (List.mem_map.2 ⟨s.peer, hp, rfl⟩) e1 c' l1
  refine ⟨_, e2, s2, c2, ?_, f2, UInt64.le_trans l3 f3, f4⟩
  rw [d2, upd_self]
  show DS.lookup t n'.dataset c.name = _
  rw [← l2]
  exact f1

theorem step_told {X : DS.XEnv} (hX : X.Ok) (hW : W.Ok addr port) {t : Int} (hc : Clock t) {e : Ev ι} (ho : e.orders.Ok) {σ σ' : ι → Node}
    (hσ : ∀ k, Settled addr port t k (σ k)) (h : step X W t e σ = .ok σ') {i : ι} {c : DataConfig} {τ : Int}
    (hh : e.who = i → e.kind = .join → Has t (σ i) c) (hT : ∀ l, ToldAt addr i c τ (σ l)) : ∀ l, ToldAt addr i c τ (σ' l) := by
  unfold step at h
  cases hk : e.kind with
  | join =>
    rw [hk] at h
    obtain ⟨m, p, a1, a2, -, -, a5⟩ := nodeInfo_has hX hc ho (hσ e.who)
    simp only [join, a1, Res.bind] at h
    refine joinAll_told hX hW hc ho e.who _ (upd σ e.who { σ e.who with dataset := m }) σ' (upd_all hσ a2) h ?_
      (upd_all (P := fun _ => ToldAt addr i c τ) hT (hT e.who))
    intro e0
    have := hh e0 hk
    rw [← e0] at this ⊢
    rw [upd_self]
    exact a5 c this
  | sync =>
    rw [hk] at h
    exact (sync_told hX hW hc ho e.who hσ h hT).1
  | create c' =>
    rw [hk] at h
    simp only at h
    cases hg : DS.getOrCreate X t (σ e.who).dataset c' with
    | ok r =>
      rw [hg] at h
      simp only [Res.bind, Res.ok.injEq] at h
      rw [← h]
      exact upd_all (P := fun _ => ToldAt addr i c τ) hT (hT e.who)
    | err x => rw [hg] at h; cases h
    | panic => rw [hg] at h; cases h
  | change m =>
    rw [hk] at h
    simp only [Res.ok.injEq] at h
    rw [← h]
    exact upd_all (P := fun _ => ToldAt addr i c τ) hT (hT e.who)
  | idle =>
    rw [hk] at h
    simp only [Res.ok.injEq] at h
    rw [← h]
    exact hT

theorem exec_told {X : DS.XEnv} (hX : X.Ok) (hW : W.Ok addr port) {i : ι} {c : DataConfig} {τ : Int} : ∀ (w : List (Ev ι)) (t : Int) (σ σ' : ι → Node),
    Fine w → 0 ≤ t → Clock (t + duration w) → (∀ k, Settled addr port t k (σ k)) → exec X W w (t, σ) = .ok (t + duration w, σ') →
    Keeping X W i c w (t, σ) → (∀ l, ToldAt addr i c τ (σ l)) → ∀ l, ToldAt addr i c τ (σ' l)
  | [], t, σ, σ', _, _, _, _, h, _, hT => by
    simp only [exec, Res.ok.injEq, Prod.mk.injEq] at h
    rw [← h.2]; exact hT
  | e :: w, t, σ, σ', hf, h0, hc, hσ, h, hk, hT => by
    have hd := duration_nonneg w
    rw [duration_cons] at hc h
    rw [show t + (↑e.wait + duration w) = t + ↑e.wait + duration w by omega] at hc h
    have hc1 : Clock (t + e.wait) := hc.before (by omega) (by omega)
    have hσ1 : ∀ k, Settled addr port (t + e.wait) k (σ k) := fun k => (hσ k).later (by omega)
    obtain ⟨σ1, a1, a2, -⟩ := step_ok hX hW hc1 (hf e (by simp)).1 (hf e (by simp)).2.1 (hf e (by simp)).2.2 σ hσ1
    rw [exec, a1] at h
    exact exec_told hX hW w _ σ1 σ' (fun e' he' => hf e' (by simp [he'])) (by omega) hc a2 h (hk.2 σ1 a1)
      (step_told hX hW hc1 (hf e (by simp)).1 hσ1 a1 hk.1 hT)

end
end Gossip

open Gossip Net

/-- C156.  In a cluster as in C155, if a node keeps listing a data set from some time on, then from `3 + 2 * m` windows and 100 seconds
later on each synchronisation of a node connected to it by at most `2 ^ m` entries of the configurations leaves that node with the data
set listed, with at least that version of its configuration, and with an address of the first node among its sources. -/
theorem C156_spreads {ι : Type} [DecidableEq ι] {X : DS.XEnv} (hX : X.Ok) (W : World ι) (addr : ι → List String) (port : ι → UInt32)
    (hW : W.Ok addr port) (acts : ι → Prop) (t : Int) (σ : ι → Node) (h0 : 0 ≤ t) (hσ : ∀ k, Settled addr port t k (σ k))
    (ws : List (List (Ev ι))) (hws : ∀ w ∈ ws, Window acts w) (hb : ∀ w ∈ ws.head?, Begins acts w) (hlong : 100000000000 ≤ duration ws.flatten)
    (pre post : List (Ev ι)) (e : Ev ι) (hw : Window acts (pre ++ e :: post)) (hc : Clock (t + duration ws.flatten + duration (pre ++ e :: post)))
    (hsync : e.kind = .sync) (i : ι) (c : DataConfig) (hkeep : Keeping X W i c (ws.flatten ++ pre) (t, σ))
    (m n : Nat) (hch : Chain acts (Link W σ) n i e.who) (hn : n ≤ 2 ^ m) (hm : 3 + 2 * m ≤ ws.length) (hij : e.who ≠ i) :
    ∃ t' σ', exec X W (ws.flatten ++ pre ++ [e]) (t, σ) = .ok (t', σ') ∧ t' = t + duration (ws.flatten ++ pre ++ [e]) ∧
      ∃ a ∈ addr i, Served t' a c (σ' e.who).dataset := by
  have hs := hw.short
  have d1 := duration_nonneg pre
  have d2 := duration_nonneg post
  have d3 := duration_nonneg ws.flatten
  have hd : duration (pre ++ e :: post) = duration pre + e.wait + duration post := by rw [duration_append, duration_cons]; omega
  rw [hd] at hs hc
  obtain ⟨σ1, a1, a2⟩ := windows_ok hX hW ws hws h0 (hc.before (by omega) (by omega)) hσ
  have hmut := mutual_chain hX hW h0 hσ m ws hws hb (hc.before (by omega) (by omega)) hm a1 n i e.who hch hn (Ne.symm hij)
  have hfp : Fine pre := fun e' he' => hw.fine e' (by simp [he'])
  obtain ⟨σ2, b1, b2, b3, -⟩ := exec_ok hX hW pre _ σ1 hfp (by omega) (hc.before (by omega) (by omega)) a2
  have hfe := hw.fine e (by simp)
  have b1' : exec X W (ws.flatten ++ pre) (t, σ) = .ok (t + duration (ws.flatten ++ pre), σ2) := by
    rw [exec_append, a1, duration_append, show t + (duration ws.flatten + duration pre) = t + duration ws.flatten + duration pre by omega]
    exact b1
  have hfw : Fine (ws.flatten ++ pre) := by
    intro e' he'
    rcases List.mem_append.1 he' with h | h
    · obtain ⟨w, hw1, hw2⟩ := List.mem_flatten.1 h
      exact (hws w hw1).fine e' hw2
    · exact hfp e' h
  have hT := exec_told (τ := t / 1000000000) hX hW (ws.flatten ++ pre) t σ σ2 hfw h0
    (by rw [duration_append]; exact hc.before (by omega) (by omega)) hσ b1' hkeep (by
      intro l s hs hτ
      have := ((hσ l).recAt hW hs).past
      omega)
  have hc3 : Clock (t + duration ws.flatten + duration pre + e.wait) := hc.before (by omega) (by omega)
  have hσ3 : ∀ k, Settled addr port (t + duration ws.flatten + duration pre + e.wait) k (σ2 k) := fun k => (b2 k).later (by omega)
  obtain ⟨σ3, c1, -⟩ := step_ok hX hW hc3 hfe.1 hfe.2.1 hfe.2.2 σ2 hσ3
  refine ⟨t + duration ws.flatten + duration pre + e.wait, σ3, ?_, ?_, ?_⟩
  · rw [exec_append, b1', duration_append, show t + (duration ws.flatten + duration pre) = t + duration ws.flatten + duration pre by omega]
    simp only [Res.bind, exec, c1]
  · simp only [duration_append, duration_cons]
    simp only [duration, List.map_nil, List.sum_nil]
    omega
  · have hst : sync X W (t + duration ws.flatten + duration pre + e.wait) e.orders e.who σ2 = .ok σ3 := by
      unfold Gossip.step at c1
      rw [hsync] at c1
      exact c1
    exact (sync_told hX hW hc3 hfe.1 e.who hσ3 hst hT).2 hij ((t + duration ws.flatten) / 1000000000 - 99) (by omega) (by omega)
      (b3 _ _ _ (by omega) hmut.2)

namespace Gossip

def hasB (t : Int) (n : Node) (c : DataConfig) : Bool :=
  ((DS.lookup t n.dataset c.name).bind fun s => s.data.config).any fun c' => decide (c.version ≤ c'.version)

theorem has_of {t : Int} {n : Node} {c : DataConfig} (h : hasB t n c = true) : Has t n c := by
  unfold hasB at h
  cases h1 : DS.lookup t n.dataset c.name with
  | none => rw [h1] at h; cases h
  | some s =>
    rw [h1] at h
    simp only [Option.bind_some] at h
    cases h2 : s.data.config with
    | none => rw [h2] at h; cases h
    | some c' =>
      rw [h2] at h
      exact ⟨s, c', h1, h2, by simpa using h⟩

def isJoin : Kind → Bool
  | .join => true
  | _ => false

def keepingB {ι : Type} [DecidableEq ι] (X : DS.XEnv) (W : World ι) (i : ι) (c : DataConfig) : List (Ev ι) → Int × (ι → Node) → Bool
  | [], _ => true
  | e :: es, (t, σ) => (!(decide (e.who = i) && isJoin e.kind) || hasB (t + e.wait) (σ i) c) &&
    match Gossip.step X W (t + e.wait) e σ with
    | .ok σ' => keepingB X W i c es (t + e.wait, σ')
    | _ => true

theorem keeping_of {ι : Type} [DecidableEq ι] {X : DS.XEnv} {W : World ι} {i : ι} {c : DataConfig} : ∀ (es : List (Ev ι)) (s : Int × (ι → Node)),
    keepingB X W i c es s = true → Keeping X W i c es s
  | [], _, _ => trivial
  | e :: es, (t, σ), h => by
    rw [keepingB, Bool.and_eq_true] at h
    refine ⟨?_, ?_⟩
    · intro h1 h2
      have := h.1
      simp only [h1, h2, isJoin, decide_true, Bool.and_self, Bool.not_true, Bool.false_or] at this
      exact has_of this
    · intro σ' h1
      have := h.2
      rw [h1] at this
      exact keeping_of es _ this

/-- The cluster of C155, with a data set on the first node. -/
def exData (i : Fin 3) : Node := { exNode i with dataset := if i = 0 then [("x", ⟨Data.newData (DS.defaultConfig "x"), some (14 * 24 * 3600 * DS.second)⟩)] else [] }

theorem exData_settled (i : Fin 3) : Settled exAddr (fun _ => 1) 0 i (exData i) where
  own := (exNode_settled i).own
  port := rfl
  data := by
    unfold exData
    split
    · exact good_set good_nil (c := DS.defaultConfig "x") (DS.newData_config _) rfl (DS.inited_newData _) rfl (by unfold Keepable; decide)
    · exact good_nil
  nodup := List.nodup_nil
  recs := by intro id s h; cases h

end Gossip

/-- After five times 90 seconds the third node, at its next synchronisation, has the data set of the first. -/
theorem C156_example : ∃ t' σ', exec (DS.toy 0) exWorld ((List.replicate 5 exWindow).flatten ++ exWindow.take 3 ++ [⟨0, 2, .sync, exOrders⟩]) (0, exData) =
    .ok (t', σ') ∧ t' = 540000000000 ∧ Served t' "a:1" (DS.defaultConfig "x") (σ' 2).dataset ∧ (exData 2).dataset = [] := by
  have hd : (0 : Int) + duration (List.replicate 5 exWindow).flatten = 450000000000 := by decide
  obtain ⟨t', σ', h1, h2, a, h3, h4⟩ := C156_spreads (DS.toy_ok 0) exWorld exAddr (fun _ => 1) exWorld_ok (fun _ => True) 0 exData (by decide) exData_settled
    (List.replicate 5 exWindow) (fun w hw => by rw [List.eq_of_mem_replicate hw]; exact exWindow_ok)
    (fun w hw => by simp only [List.replicate, List.head?_cons, Option.mem_def, Option.some.injEq] at hw; rw [← hw]; exact exWindow_begins)
    (by decide) (exWindow.take 3) (exWindow.drop 4) ⟨0, 2, .sync, exOrders⟩ exWindow_ok (by unfold Clock; decide) rfl 0 (DS.defaultConfig "x")
    (keeping_of _ _ (by decide +kernel)) 1 2
    (.step (.step (.refl 0 trivial) (j := 1) trivial (.inl ⟨"b:1", by decide, by decide⟩)) trivial (.inr ⟨"b:1", by decide, by decide⟩))
    (by decide) (by decide) (by decide)
  refine ⟨t', σ', h1, by rw [h2]; decide, ?_, rfl⟩
  simp only [exAddr, List.mem_singleton] at h3
  rw [← show a = "a:1" from h3]
  exact h4

end Veri
