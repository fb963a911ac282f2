import Verif.Cluster.Whole
import Verif.Gossip.Sources
/-
C190: from the entries of the configurations to the answers: a search of a cluster that has found itself.
-/
set_option autoImplicit false
namespace Veri
namespace Clu
open Search Net Gossip

/-- The nodes that the sources of the data set `name` of a node at the time `t` are (data/data.go:222-233, data/search.go:186-200). -/
def SourceNodes {N : Nat} (W : World (Fin N)) (t : Int) (n : Node) (name : String) (l : List (Fin N)) : Prop :=
  ∃ ids : List SourceId, ids.Nodup ∧ (∀ id, id ∈ ids ↔ ∃ s, n.dataset.get? name = some s ∧ IsSource t s.data id) ∧ l = ids.filterMap W.dial

/-- The nodes have the sources which they have in the states `σ`, the node `j` at the time `t` and the others at some time from then on. -/
structure Wired {N : Nat} (W : World (Fin N)) (t : Int) (σ : Fin N → Node) (name : String) (j : Fin N) (C : Cluster) : Prop where
  node : ∀ v : Fin N, ∃ tv l, t ≤ tv ∧ (v = j → tv = t) ∧ SourceNodes W tv (σ v) name l ∧ C.next v = l.map (·.val)
  none : ∀ v, N ≤ v → C.next v = []

theorem wired_next {N : Nat} {W : World (Fin N)} {t : Int} {σ : Fin N → Node} {name : String} {j : Fin N} {C : Cluster}
    (h : Wired W t σ name j C) (v w : Nat) (hw : w ∈ C.next v) : w < N := by
  by_cases hv : v < N
  · obtain ⟨tv, l, -, -, -, h4⟩ := h.node ⟨v, hv⟩
    rw [show C.next v = l.map (·.val) from h4] at hw
    obtain ⟨x, -, rfl⟩ := List.mem_map.1 hw
    exact x.isLt
  · rw [h.none v (by omega)] at hw; cases hw

/-- At most seven nodes, each source another one and none twice: at most six sources. -/
theorem wired_six {N : Nat} (hN : N ≤ 7) {W : World (Fin N)} {t : Int} {σ : Fin N → Node} {name : String} {j : Fin N} {C : Cluster}
    (h : Wired W t σ name j C) (hoth : ∀ i id, SourceIn (σ i).dataset name id → ∃ k, k ≠ i ∧ W.dial id = some k)
    (honce : ∀ i a b, SourceIn (σ i).dataset name a → SourceIn (σ i).dataset name b → W.dial a = W.dial b → a = b) (v : Nat) :
    (C.next v).length ≤ 6 := by
  by_cases hv : v < N
  · obtain ⟨tv, l, -, -, ⟨ids, h1, h2, h3⟩, h4⟩ := h.node ⟨v, hv⟩
    rw [show C.next v = l.map (·.val) from h4, List.length_map]
    have hsrc : ∀ id ∈ ids, SourceIn (σ ⟨v, hv⟩).dataset name id := by
      intro id hid
      obtain ⟨s, g1, m, e, g2, g3, -⟩ := (h2 id).1 hid
      exact ⟨s, m, e, g1, g2, g3⟩
    have hnd : (⟨v, hv⟩ :: l).Nodup := by
      rw [List.nodup_cons]
      constructor
      · intro hm
        rw [h3, List.mem_filterMap] at hm
        obtain ⟨id, hid, hd⟩ := hm
        obtain ⟨k, g1, g2⟩ := hoth _ id (hsrc id hid)
        rw [g2] at hd
        injection hd with hd
        exact g1 hd
      · rw [h3]
        clear h3 h2
        induction ids with
        | nil => simp
        | cons a ids ih =>
          have hn := List.nodup_cons.1 h1
          have ih := ih hn.2 fun id hid => hsrc id (by simp [hid])
          cases hd : W.dial a with
          | none => rw [List.filterMap_cons_none hd]; exact ih
          | some k =>
            rw [List.filterMap_cons_some hd, List.nodup_cons]
            refine ⟨?_, ih⟩
            intro hm
            obtain ⟨b, hb, hdb⟩ := List.mem_filterMap.1 hm
            have := honce _ a b (hsrc a (by simp)) (hsrc b (by simp [hb])) (hd.trans hdb.symm)
            subst this
            exact hn.1 hb
    have hle := (List.subperm_of_subset hnd (fun x _ => List.mem_finRange x)).length_le
    rw [List.length_finRange, List.length_cons] at hle
    omega
  · rw [h.none v (by omega)]; simp

def once : List SourceId → List SourceId
  | [] => []
  | a :: l => if a ∈ once l then once l else a :: once l

theorem mem_once {a : SourceId} : ∀ {l : List SourceId}, a ∈ once l ↔ a ∈ l
  | [] => .rfl
  | b :: l => by
    unfold once
    have ih := mem_once (a := a) (l := l)
    split
    · rename_i hb
      rw [ih, List.mem_cons]
      refine ⟨.inr, fun h => h.elim (fun h => ?_) id⟩
      rw [h]; exact mem_once.1 hb
    · rw [List.mem_cons, List.mem_cons, ih]

theorem nodup_once : ∀ (l : List SourceId), (once l).Nodup
  | [] => List.nodup_nil
  | b :: l => by
    unfold once
    split
    · exact nodup_once l
    · rename_i hb; exact List.nodup_cons.2 ⟨hb, nodup_once l⟩

/-- The sources of a map that have not expired, each once. -/
def liveIds (t : Int) (m : AMap SourceId Int) : List SourceId :=
  (once (m.map (·.1))).filter fun id => match m.get? id with
    | some e => decide (t ≤ e)
    | none => false

theorem mem_liveIds {t : Int} {m : AMap SourceId Int} {id : SourceId} : id ∈ liveIds t m ↔ ∃ e, m.get? id = some e ∧ t ≤ e := by
  unfold liveIds
  rw [List.mem_filter, mem_once]
  constructor
  · rintro ⟨-, h⟩
    cases hg : m.get? id with
    | none => rw [hg] at h; cases h
    | some e => rw [hg] at h; exact ⟨e, rfl, by simpa using h⟩
  · rintro ⟨e, h1, h2⟩
    refine ⟨List.mem_map.2 ⟨_, AMap.mem_of_get? h1, rfl⟩, ?_⟩
    rw [h1]
    simpa using h2

/-- The nodes have sources, whatever they are. -/
theorem wired_exists {N : Nat} (W : World (Fin N)) (t : Int) (σ : Fin N → Node) (name : String) (j : Fin N) (holds : Nat → Site → Prop)
    (faulty : Nat → Prop) : ∃ C : Cluster, C.holds = holds ∧ C.faulty = faulty ∧ Wired W t σ name j C := by
  let ids (v : Fin N) : List SourceId := match (σ v).dataset.get? name with
    | none => []
    | some s => match s.data.sources with
      | none => []
      | some m => liveIds t m
  refine ⟨⟨fun v => if h : v < N then ((ids ⟨v, h⟩).filterMap W.dial).map (·.val) else [], holds, faulty⟩, rfl, rfl, fun v => ?_, fun v hv => ?_⟩
  · refine ⟨t, (ids v).filterMap W.dial, by omega, fun _ => rfl, ⟨ids v, ?_, ?_, rfl⟩, by simp⟩
    · simp only [ids]
      split
      · exact List.nodup_nil
      · split
        · exact List.nodup_nil
        · exact (nodup_once _).filter _
    · intro id
      simp only [ids]
      cases h1 : (σ v).dataset.get? name with
      | none => simp
      | some s =>
        cases h2 : s.data.sources with
        | none => simp [IsSource, h2]
        | some m => simp [IsSource, h2, mem_liveIds]
  · simp only [dif_neg (show ¬ v < N by omega)]

end Clu
open Clu Search Store Net Gossip

/-- **C190.**  A cluster of at most seven nodes that do their periodic work at least every 99 seconds: from `3 + 2 * m` windows and 100 seconds
on, a client that searches at a node `j` after a synchronisation of `j` gets every datum that matches and is stored, throughout the search, at
`j` or at any node that keeps listing the data set, does not fail, and is connected with `j` by at most `2 ^ m` entries of the configurations;
nothing else but matching data of nodes of the cluster; and none twice.  (There is such an answer, after at most `12 N + 14` steps: C188.) -/
theorem C190_joined {N : Nat} (hN : N ≤ 7) {X : DS.XEnv} (hX : X.Ok) (W : World (Fin N)) (addr : Fin N → List String) (port : Fin N → UInt32)
    (hW : W.Ok addr port) (acts : Fin N → Prop) (t : Int) (σ : Fin N → Node) (h0 : 0 ≤ t) (hσ : ∀ k, Settled addr port t k (σ k))
    (hstart : ∀ k, Starts W k (σ k))
    (ws : List (List (Ev (Fin N)))) (hws : ∀ w ∈ ws, Window acts w) (hb : ∀ w ∈ ws.head?, Begins acts w) (hlong : 100000000000 ≤ duration ws.flatten)
    (pre post : List (Ev (Fin N))) (e : Ev (Fin N)) (hw : Window acts (pre ++ e :: post))
    (hc : Clock (t + duration ws.flatten + duration (pre ++ e :: post))) (hsync : e.kind = .sync)
    (hadd : Adding X W (ws.flatten ++ pre ++ [e]) (t, σ)) :
    ∃ t' σ', exec X W (ws.flatten ++ pre ++ [e]) (t, σ) = .ok (t', σ') ∧ t' = t + duration (ws.flatten ++ pre ++ [e]) ∧
    ∀ (c : DataConfig) (C : Cluster), Wired W t' σ' c.name e.who C → ¬ C.faulty e.who →
    ∀ (E : Env) (_ : E.Ok) (anon : Bool) (config : SearchConfig) (context : Option SearchContext) (q : DatumKey) (qv : Option DatumValue)
      (keys : List (Option DatumKey)),
      0 < config.limit → config.resultLimit.toNat < 2^63 → config.groupLimit = 0 → ¬ "Annoy".toList <+: config.scoreFuncName.toList →
      (∀ v site, C.holds v site → site.Ok) → keys.length ≤ Ref.asked config →
      (∀ v site, C.holds v site → ∀ x, Ref.IsHit E config q (Ref.shows (abs site.dt.dbMap) site.clock) x → x.datum.key ∈ keys) →
    ∀ (s : WState) (a : WAns) (out : List ScoredDatum), WReach E ⟨some q, qv⟩ C anon config e.who s → s.ans 0 = some a →
      MultiOut E config context [a.found] out →
      (∀ (i : Fin N) (m n : Nat), i = e.who ∨ (Keeping X W i c (ws.flatten ++ pre) (t, σ) ∧ Chain acts (Link W σ) n i e.who ∧ n ≤ 2 ^ m ∧
          3 + 2 * m ≤ ws.length ∧ ¬ C.faulty i) →
        ∀ x, (∀ site, C.holds i site → Ref.IsHit E config q (Ref.shows (abs site.dt.dbMap) site.clock) x) → ∃ y ∈ out, y.datum.key = x.datum.key) ∧
      (∀ y ∈ out, ∃ v site x, C.holds v site ∧ Ref.IsHit E config q (Ref.shows (abs site.dt.dbMap) site.clock) x ∧ y.datum = x.datum) ∧
      (out.map (·.datum.key)).Nodup := by
  have hs := hw.short
  have d1 := duration_nonneg pre
  have d2 := duration_nonneg post
  have d3 := duration_nonneg ws.flatten
  have hd : duration (pre ++ e :: post) = duration pre + e.wait + duration post := by rw [duration_append, duration_cons]; omega
  obtain ⟨σ1, a1, a2⟩ := windows_ok hX hW ws hws h0 (hc.before (by omega) (by omega)) hσ
  have hd2 : duration (pre ++ [e]) = duration pre + e.wait := by simp [duration]
  obtain ⟨σ2, b1, -, -, -⟩ := exec_ok hX hW (pre ++ [e]) _ σ1 (fun e' he' => hw.fine e' (by
      rcases List.mem_append.1 he' with h | h
      · simp [h]
      · simp at h; simp [h])) (by omega) (hc.before (by omega) (by omega)) a2
  have hex : exec X W (ws.flatten ++ pre ++ [e]) (t, σ) = .ok (t + duration (ws.flatten ++ pre ++ [e]), σ2) := by
    rw [List.append_assoc, exec_append, a1, duration_append, show t + (duration ws.flatten + duration (pre ++ [e])) =
      t + duration ws.flatten + duration (pre ++ [e]) by omega]
    exact b1
  refine ⟨_, σ2, hex, rfl, ?_⟩
  have hords : ∀ e' ∈ ws.flatten ++ pre ++ [e], e'.orders.Ok := by
    intro e' he'
    rcases List.mem_append.1 he' with he' | he'
    · rcases List.mem_append.1 he' with he' | he'
      · obtain ⟨w, hw1, hw2⟩ := List.mem_flatten.1 he'
        exact (hws w hw1).orders e' hw2
      · exact hw.orders e' (by simp [he'])
    · exact hw.orders e' (by simp at he'; simp [he'])
  have hfix : FixedAddresses W σ := by
    intro k j
    refine (hW.seen k j).imp_right fun h => ?_
    rw [(hσ k).port]
    exact (hσ k).own.mem_iff.2 h
  have hseen : Seen W fun i => (σ i).port := fun i j => (hfix i j).imp_right fun h => (hstart i).own _ h
  intro c C hwire hf E hE anon config context q qv keys hl hr hg hname hok hroom hk s a out hs ha ho
  have h6 := wired_six hN hwire (fun i id => C164_others X W σ t hstart hseen _ hords hadd _ σ2 hex i c.name id)
    (fun i a b => C165_once_partial X W σ t hstart hfix _ hords hadd _ σ2 hex i c.name a b)
  obtain ⟨r1, r2, r3⟩ := C187_whole_cluster E hE C anon config context e.who q qv s a out h6 hf hl hr hg hname hok keys hroom hk hs ha ho
  refine ⟨fun i m n hi x hx => r1 i ?_ x hx, r2, r3⟩
  by_cases hij : i = e.who
  · rw [hij]; exact .refl
  · rcases hi with hi | ⟨k1, k2, k3, k4, k5⟩
    · exact absurd hi hij
    · obtain ⟨t', σ', g1, -, id, hid, sl, c', g2, -, -, g3⟩ :=
        C156_spreads hX W addr port hW acts t σ h0 hσ ws hws hb hlong pre post e hw hc hsync i c k1 m n k2 k3 k4 (Ne.symm hij)
      rw [hex] at g1
      simp only [Res.ok.injEq, Prod.mk.injEq] at g1
      obtain ⟨rfl, rfl⟩ := g1
      obtain ⟨tv, l, -, w2, ⟨ids, w3, w4, w5⟩, w6⟩ := hwire.node e.who
      rw [w2 rfl] at w4
      refine .step .refl ?_ k5
      rw [w6, w5]
      exact List.mem_map.2 ⟨i, List.mem_filterMap.2 ⟨id, (w4 id).2 ⟨sl, (DS.lookup_some.1 g2).1, g3⟩, hW.dial i id hid⟩, rfl⟩

namespace Clu

/-- The first of the three nodes has the point 1, the others have nothing. -/
def exHolds (v : Nat) (site : Site) : Prop := v = 0 ∧ site = exSite [0x3F800000] ∨ v = 1 ∧ site = exSite [] ∨ v = 2 ∧ site = exSite []

theorem exHolds_ok {v : Nat} {site : Site} (h : exHolds v site) : site.Ok := by
  rcases h with ⟨-, rfl⟩ | ⟨-, rfl⟩ | ⟨-, rfl⟩ <;> exact exSite_ok _ (by decide)

end Clu

/-- C190 at work in the cluster of C155 and C156: only the second node is in the configurations; a client that searches at the third one gets the
point of the first. -/
theorem C190_example : ∃ t' σ', exec (DS.toy 0) exWorld ((List.replicate 5 exWindow).flatten ++ exWindow.take 3 ++ [⟨0, 2, .sync, exOrders⟩]) (0, exData) =
      .ok (t', σ') ∧
    ∃ C : Cluster, C.holds = exHolds ∧ Wired exWorld t' σ' "x" 2 C ∧
    ∃ s a out, WReach exEnv ⟨some (exPoint 0), none⟩ C false exBoth 2 s ∧ s.ans 0 = some a ∧ MultiOut exEnv exBoth none [a.found] out ∧
      ∃ y ∈ out, y.datum.key = some (exPoint 0x3F800000) := by
  obtain ⟨t', σ', h1, -, h2⟩ := C190_joined (N := 3) (by decide) (DS.toy_ok 0) exWorld exAddr (fun _ => 1) exWorld_ok (fun _ => True) 0 exData (by decide)
    exData_settled exData_starts
    (List.replicate 5 exWindow) (fun w hw => by rw [List.eq_of_mem_replicate hw]; exact exWindow_ok)
    (fun w hw => by simp only [List.replicate, List.head?_cons, Option.mem_def, Option.some.injEq] at hw; rw [← hw]; exact exWindow_begins)
    (by decide) (exWindow.take 3) (exWindow.drop 4) ⟨0, 2, .sync, exOrders⟩ exWindow_ok (by unfold Clock; decide) rfl
    (adding_of _ _ fun e he => by
      rcases List.mem_append.1 he with he | he
      · exact exEvents he
      · simp only [List.mem_singleton] at he; rw [he]; exact .inr rfl)
  obtain ⟨C, hh, hf, hwire⟩ := wired_exists exWorld t' σ' "x" 2 exHolds (fun _ => False)
  have hok : ∀ v site, C.holds v site → site.Ok := by rw [hh]; exact fun v site h => exHolds_ok h
  have hfl : ∀ v, ¬ C.faulty v := by rw [hf]; exact fun _ h => h
  obtain ⟨s, a, out, r1, r2, r3⟩ := C188_answer exEnv exEnv_ok C false exBoth 2 3 (exPoint 0) none (by decide) (wired_next hwire) (by decide)
    (by decide) rfl (by decide) hok (fun v hv _ => by
      rw [hh]
      match v, hv with
      | 0, _ => exact ⟨_, Or.inl ⟨rfl, rfl⟩⟩
      | 1, _ => exact ⟨_, Or.inr (Or.inl ⟨rfl, rfl⟩)⟩
      | 2, _ => exact ⟨_, Or.inr (Or.inr ⟨rfl, rfl⟩)⟩)
  refine ⟨t', σ', h1, C, hh, hwire, s, a, out, r1, r2, r3, ?_⟩
  have hit : ∀ (xs : List F32), xs.Nodup → ∀ x, Ref.IsHit exEnv exBoth (exPoint 0) (Ref.shows (abs (exSite xs).dt.dbMap) (exSite xs).clock) x ↔
      ∃ y ∈ xs, x = exFound ((Vec.getVectorComparisonFunction exBoth.scoreFuncName).eval exEnv.o [y] [0]) y := by
    intro xs hxs x
    have := exHits (config := exBoth) rfl rfl (xss := [xs]) (by simpa using hxs) x
    simpa [Ref.IsHitIn, shelves] using this
  have hn1 : [(0x3F800000 : F32)].Nodup := by decide
  obtain ⟨r, -, -⟩ := h2 (DS.defaultConfig "x") C hwire (hfl _) exEnv exEnv_ok false exBoth none (exPoint 0) none [some (exPoint 0x3F800000)]
    (by decide) (by decide) rfl (by decide) hok (by decide) (by
      rw [hh]
      rintro v site (⟨-, rfl⟩ | ⟨-, rfl⟩ | ⟨-, rfl⟩) x hx
      · obtain ⟨y, hy, rfl⟩ := (hit _ hn1 x).1 hx
        simp only [List.mem_singleton] at hy
        subst hy
        exact List.mem_singleton.2 rfl
      · obtain ⟨y, hy, -⟩ := (hit [] (by decide) x).1 hx
        cases hy
      · obtain ⟨y, hy, -⟩ := (hit [] (by decide) x).1 hx
        cases hy) s a out r1 r2 r3
  exact r 0 1 2 (.inr ⟨keeping_of _ _ (by decide +kernel),
    .step (.step (.refl 0 trivial) (j := 1) trivial (.inl ⟨"b:1", by decide, by decide⟩)) trivial (.inr ⟨"b:1", by decide, by decide⟩),
    by decide, by decide, hfl _⟩) _ fun site hsite => by
      rw [hh] at hsite
      rcases hsite with ⟨-, rfl⟩ | ⟨h, -⟩ | ⟨h, -⟩
      · exact (hit _ hn1 _).2 ⟨0x3F800000, by simp, rfl⟩
      · exact absurd h (by decide)
      · exact absurd h (by decide)

end Veri
