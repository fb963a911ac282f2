import Verif.Node.Services
import Verif.Dataset.Retention
/-
The records a node makes of itself, every minute (node/node.go:163-176, 221-250), count as uses of its data sets.
-/
set_option autoImplicit false
namespace Veri
namespace DS

theorem walk_other {X : XEnv} {now : Int} {k : String} : ∀ (ks : List String) {m m' : DL} {cs : List DataConfig}, WF m → k ∉ ks →
    walk X now ks m = .ok (m', cs) → m'.get? k = m.get? k
  | [], m, m', cs, _, _, h => by
    simp only [walk, Res.ok.injEq, Prod.mk.injEq] at h
    rw [h.1]
  | j :: ks, m, m', cs, hw, hk, h => by
    obtain ⟨m1, d, c, h1, h2, -, h4, h5, -⟩ := get_ok (X := X) (now := now) hw j
    simp only [walk, h1, Res.bind, h2, Res.ofOption] at h
    cases hr : walk X now ks m1 with
    | err e => rw [hr] at h; cases h
    | panic => rw [hr] at h; cases h
    | ok r =>
      obtain ⟨m2, cs2⟩ := r
      rw [hr] at h
      simp only [Res.ok.injEq, Prod.mk.injEq] at h
      rw [← h.1, walk_other ks h4 (fun hm => hk (List.mem_cons_of_mem _ hm)) hr, h5 k fun e => hk (e ▸ List.mem_cons_self)]

/-- A walk prolongs each data set on its way. -/
theorem walk_prolongs {X : XEnv} {now : Int} {k : String} {s : Slot} {c : DataConfig} : ∀ (ks : List String) {m m' : DL} {cs : List DataConfig},
    WF m → ks.Nodup → k ∈ ks → lookup now m k = some s → s.data.config = some c → walk X now ks m = .ok (m', cs) →
    m'.get? k = some { s with expires := X.extend s.expires now (getRetention c.retention) }
  | j :: ks, m, m', cs, hw, hn, hk, hs, hc, h => by
    have hn' := List.nodup_cons.1 hn
    obtain ⟨m1, d, c1, h1, h2, -, h4, h5, h6⟩ := get_ok (X := X) (now := now) hw j
    simp only [walk, h1, Res.bind, h2, Res.ofOption] at h
    cases hr : walk X now ks m1 with
    | err e => rw [hr] at h; cases h
    | panic => rw [hr] at h; cases h
    | ok r =>
      obtain ⟨m2, cs2⟩ := r
      rw [hr] at h
      simp only [Res.ok.injEq, Prod.mk.injEq] at h
      rw [← h.1]
      by_cases e : k = j
      · subst e
        obtain ⟨g1, g2⟩ := h6 s hs
        rw [g1, hc] at h2
        injection h2 with h2
        rw [walk_other ks h4 hn'.1 hr, g2, h2]
      · refine walk_prolongs ks h4 hn'.2 ((List.mem_cons.1 hk).resolve_left e) ?_ hc hr
        rw [lookup_congr (h5 k e)]
        exact hs

end DS

open Net

/-- C55, reports: after a node has made a record of itself each data set in it is there for its whole retention from then on. -/
theorem C55_reported_partial {X : DS.XEnv} (hX : X.Ok) (now t e : Int) (order : List String) (n : Node) (hw : DS.WF n.dataset)
    (ho : order.Perm (DS.names now n.dataset)) (name : String) (s : DS.Slot) (c : DataConfig) (hs : DS.lookup now n.dataset name = some s)
    (hc : s.data.config = some c) (he : s.expires = some e) (hr : c.retention.toNat ≤ 9223372036)
    (ht : t ≤ now + Ref.retention c.retention.toNat) :
    ∃ n' p, nodeInfo X now order n = .ok (n', p) ∧ p.dataList.map (·.name) = order ∧ c ∈ p.dataList ∧
      (DS.lookup t n'.dataset name).isSome = true := by
  have hn : order.Nodup := ho.nodup_iff.2 (DS.nodup_names hw.1)
  have hmem : ∀ k, k ∈ order ↔ (DS.lookup now n.dataset k).isSome = true := fun k => ho.mem_iff.trans (DS.mem_names hw.1)
  obtain ⟨m', cs, g1, -, g3, g4, -⟩ := DS.walk_spec (X := X) now order n.dataset hw hn fun k hk => (hmem k).1 hk
  have hk : name ∈ order := (hmem name).2 (by rw [hs]; rfl)
  have g6 := DS.walk_prolongs order hw hn hk hs hc g1
  refine ⟨{ n with dataset := m' }, _, by rw [nodeInfo, g1]; rfl, g3, ?_, ?_⟩
  · rw [← g3] at hk
    obtain ⟨c', hc', rfl⟩ := List.mem_map.1 hk
    have := g4 c' hc'
    rw [DS.liveConfig, hs] at this
    simp only [Option.bind_some, hc, Option.some.injEq] at this
    rw [this]
    exact hc'
  · have hlive : now ≤ e := by
      have := (DS.lookup_some.1 hs).2
      rw [DS.live, he] at this
      exact of_decide_eq_true this
    obtain ⟨e', a1, a2, -⟩ := hX.extend e now _ hlive (DS.retention_pos' c.retention.toNat)
    show (DS.lookup t m' name).isSome = true
    rw [DS.lookup, g6, DS.getRetention_small hr, he, a1]
    simp only [Option.filter]
    rw [if_pos (show DS.live t { s with expires := some e' } = true from decide_eq_true (by omega))]
    rfl

namespace Net
/-- A node with a data set made at time 0, to be kept for a minute. -/
def exReporter : Node := { exNode with dataset := AMap.set [] "a" ⟨Data.newData (DS.exA 1), some (60 * 1000000000)⟩ }
end Net

/-- C55: the node makes a record of itself after 50 seconds; after 110 the data set is there. -/
theorem C55_reported_example : ∃ n' p, nodeInfo (DS.toy 0) (50 * 1000000000) ["a"] exReporter = .ok (n', p) ∧
    DS.exA 1 ∈ p.dataList ∧ (DS.lookup (110 * 1000000000) n'.dataset "a").isSome = true := by
  obtain ⟨n', p, h1, -, h2, h3⟩ := C55_reported_partial (DS.toy_ok 0) (50 * 1000000000) (110 * 1000000000) (60 * 1000000000) ["a"] exReporter
    (DS.wf_set (c := DS.exA 1) DS.wf_nil rfl rfl) (by decide) "a" ⟨Data.newData (DS.exA 1), some (60 * 1000000000)⟩ (DS.exA 1) rfl rfl rfl
    (by decide) (by decide)
  exact ⟨n', p, h1, h2, h3⟩

end Veri
