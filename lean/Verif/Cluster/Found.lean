import Verif.Cluster.Whole
import Verif.Cluster.Survives
/-
C191: an acknowledged insert is found though nodes are lost.
-/
set_option autoImplicit false
namespace Veri
open Clu Search Store Net Gencoder

/-- **C191.**  An insert into a data set that asks for `r` nodes was acknowledged; fewer than `r` nodes (`lost`) lose what they have, or fail, before
or after, and the others do not take the datum away.  Then a search, at a node from which the nodes that are left can be reached by sources,
that has room for all that matches and that the datum matches, returns its key, unless the copies have expired. -/
theorem C191_found (X : DS.XEnv) (nodes : List Node) (ls ls2 : List ILabel) (s s' : IState) (j : Nat) (t : Task) (r : UInt32)
    (k : DatumKey) (v : DatumValue) (lost : List Nat) (h : iexec X ⟨nodes, []⟩ ls = some s) (ht : s.tasks[j]? = some t) (hp : t.phase = .over none)
    (hc : t.config.count = 0) (ha : AlwaysAsks X ⟨nodes, []⟩ ls t.node t.name r) (reach : SourceId → Option Nat)
    (hreach : CallsReach reach X ⟨nodes, []⟩ ls j) (hsrc : SourcesApart reach ls j t.node)
    (hd : t.datum = ⟨some k, some v⟩) (hlost : lost.length < r.toNat)
    (hsp : AllSpare X (fun e => getValueAsBytes e.datum = getValueAsBytes t.datum) lost t.name (encKey k) ⟨nodes, []⟩ (ls ++ ls2))
    (he : iexec X ⟨nodes, []⟩ (ls ++ ls2) = some s')
    (E : Env) (hE : E.Ok) (C : Cluster) (anon : Bool) (config : SearchConfig) (context : Option SearchContext) (i : Nat)
    (q : DatumKey) (qv : Option DatumValue) (h6 : ∀ w, (C.next w).length ≤ 6) (h0 : ¬ C.faulty i)
    (hleft : ∀ w, w < nodes.length → w ∉ lost → Intact C i w)
    (hstore : ∀ w site, C.holds w site → w ∉ lost → ∃ n x, s'.nodes[w]? = some n ∧ n.dataset.get? t.name = some x ∧ site.dt.dbMap = x.data.dbMap)
    (hlive : ∀ w site e, C.holds w site → w ∉ lost → site.dt.dbMap.get? (encKey k) = some e → e.expireAt = 0 ∨ site.clock k < e.expireAt)
    (hl : 0 < config.limit) (hr : config.resultLimit.toNat < 2^63) (hg : config.groupLimit = 0)
    (hname : ¬ "Annoy".toList <+: config.scoreFuncName.toList) (hok : ∀ w site, C.holds w site → site.Ok)
    (keys : List (Option DatumKey)) (hroom : keys.length ≤ Ref.asked config)
    (hk : ∀ w site, C.holds w site → ∀ x, Ref.IsHit E config q (Ref.shows (abs site.dt.dbMap) site.clock) x → x.datum.key ∈ keys)
    (hpass : Ref.Passes E.jsonHas config ⟨some k, some v⟩)
    (st : WState) (a : WAns) (out : List ScoredDatum)
    (hs : WReach E ⟨some q, qv⟩ C anon config i st) (hans : st.ans 0 = some a) (ho : MultiOut E config context [a.found] out) :
    ∃ y ∈ out, y.datum.key = some k := by
  have hkb : getKeyAsBytes t.datum = some (encKey k) := by rw [hd]; exact getKeyAsBytes_some k _
  obtain ⟨w, hw, n, x, kb, e, g1, g2, g3, g4, g5⟩ := C181_partial X nodes ls ls2 s s' j t r (encKey k) lost h ht hp hc ha reach hreach hsrc hkb hlost hsp he
  rw [hkb] at g3
  injection g3 with g3
  subst g3
  have hlen := iexec_length _ he
  have hwn : w < nodes.length := by
    have := (List.getElem?_eq_some_iff.mp g1).1
    simp only at hlen
    omega
  obtain ⟨h1, -, -⟩ := C187_whole_cluster E hE C anon config context i q qv st a out h6 h0 hl hr hg hname hok keys hroom hk hs hans ho
  refine h1 w (hleft w hwn hw) ⟨(Vec.getVectorComparisonFunction config.scoreFuncName).eval E.o k.feature q.feature, ⟨some k, some v⟩⟩ fun site hsite => ?_
  obtain ⟨n', x', e1, e2, e3⟩ := hstore w site hsite hw
  rw [g1] at e1
  injection e1 with e1
  subst e1
  rw [g2] at e2
  injection e2 with e2
  subst e2
  rw [← e3] at g4
  have hal := hlive w site e hsite hw g4
  have hwf := (hok w site hsite).wf
  obtain ⟨k', v', f1, f2⟩ := hwf.entry (AMap.mem_of_get? g4)
  have := encKey_inj f1
  subst this
  rw [f2, hd, getValueAsBytes_some, getValueAsBytes_some] at g5
  have : v' = v := encValue_inj (by simpa using g5)
  subst this
  refine ⟨k, v', rfl, ⟨⟨v', e.expireAt⟩, ?_, hal, rfl⟩, hpass, rfl⟩
  have hv : e.datum.value = some v' := by rw [f2]
  unfold Store.abs
  simp only [g4, hv]

namespace Clu

/-- What the second of the three nodes of C181 has in the end. -/
def exLeft : Option Data := (iexec (DS.toy 0) ⟨[exM, exM, exM], []⟩ (exThree ++ exLoss)).bind fun s => (s.nodes[1]?).bind fun n =>
  (n.dataset.get? "a").map (·.data)

theorem exLeft_map : exLeft.any (fun d => decide (d.dbMap = [(encKey (exKey 1), ⟨0, exD⟩)])) = true := by decide +kernel

/-- A node with this in store. -/
def exLeftSite (d : Data) : Site := ⟨d, d.dbMap.map fun x => ⟨x.1, x.2, 0⟩, [], fun _ => 0⟩

theorem exLeft_some : ∃ s' n x, iexec (DS.toy 0) ⟨[exM, exM, exM], []⟩ (exThree ++ exLoss) = some s' ∧ s'.nodes[1]? = some n ∧
    n.dataset.get? "a" = some x ∧ x.data.dbMap = [(encKey (exKey 1), ⟨0, exD⟩)] := by
  obtain ⟨d, hd, h⟩ := DS.any_some exLeft_map
  unfold exLeft at hd
  obtain ⟨s', h1, hd⟩ := Option.bind_eq_some_iff.1 hd
  obtain ⟨n, h2, hd⟩ := Option.bind_eq_some_iff.1 hd
  obtain ⟨x, h3, rfl⟩ := Option.map_eq_some_iff.1 hd
  exact ⟨s', n, x, h1, h2, h3, of_decide_eq_true h⟩

theorem exLeftSite_ok {d : Data} (h : d.dbMap = [(encKey (exKey 1), ⟨0, exD⟩)]) : (exLeftSite d).Ok where
  wf := by
    show WF d.dbMap
    rw [h]
    refine ⟨⟨by simp [AMap.Nodup, AMap.keys], ?_⟩, ?_⟩
    · intro b e he
      simp only [List.mem_singleton, Prod.mk.injEq] at he
      rw [he.1, he.2]
      exact ⟨exKey 1, rfl, rfl⟩
    · intro b e he
      simp only [List.mem_singleton, Prod.mk.injEq] at he
      rw [he.2]
      exact ⟨exVal 1, rfl⟩
  range := by
    show IsRange d.dbMap _
    unfold IsRange exLeftSite
    rw [List.map_map]
    exact .of_eq (List.map_id _)
  clock := by
    intro v hv k _
    unfold exLeftSite at hv ⊢
    obtain ⟨x, -, rfl⟩ := List.mem_map.1 hv
    rfl

end Clu

/-- C191 at work: three nodes had the insert, two of them have lost everything and do not answer; a search at the third returns the datum. -/
theorem C191_example : ∃ s' n x, iexec (DS.toy 0) ⟨[exM, exM, exM], []⟩ (exThree ++ exLoss) = some s' ∧ s'.nodes[1]? = some n ∧
    n.dataset.get? "a" = some x ∧
    ∃ C : Cluster, C.next 1 = [0, 2] ∧ C.faulty 0 ∧ C.faulty 2 ∧ C.holds 1 (exLeftSite x.data) ∧
    ∃ st a out, WReach exEnv ⟨some (exPoint 0), none⟩ C false exBoth 1 st ∧ st.ans 0 = some a ∧ MultiOut exEnv exBoth none [a.found] out ∧
      ∃ y ∈ out, y.datum.key = some (exKey 1) := by
  obtain ⟨s', n, x, he, hn, hx, hm⟩ := exLeft_some
  refine ⟨s', n, x, he, hn, hx, ?_⟩
  let C : Cluster := ⟨fun w => if w = 1 then [0, 2] else [], fun w site => w = 1 ∧ site = exLeftSite x.data, fun w => w ≠ 1⟩
  have hok : ∀ w site, C.holds w site → site.Ok := by
    rintro w site ⟨-, rfl⟩
    exact exLeftSite_ok hm
  refine ⟨C, rfl, show (0 : Nat) ≠ 1 by decide, show (2 : Nat) ≠ 1 by decide, ⟨rfl, rfl⟩, ?_⟩
  obtain ⟨st, a, out, r1, r2, r3⟩ := C188_answer exEnv exEnv_ok C false exBoth 1 3 (exPoint 0) none (by decide)
    (by
      intro v w hw
      simp only [C] at hw
      split at hw
      · simp at hw; omega
      · cases hw) (by decide) (by decide) rfl (by decide) hok (fun v _ hv => ⟨exLeftSite x.data, Decidable.of_not_not hv, rfl⟩)
  refine ⟨st, a, out, r1, r2, r3, ?_⟩
  obtain ⟨s, t, hs, ht, hp, h1, h2, h3, h4⟩ := acknowledged (X := DS.toy 0) (s0 := ⟨[exM, exM, exM], []⟩) (ls := exThree) (by decide +kernel)
  refine C191_found (DS.toy 0) [exM, exM, exM] exThree exLoss s s' 0 t 3 (exKey 1) (exVal 1) [0, 2] hs ht hp h4
    (by rw [h1, h2]; exact alwaysAsks_of (by decide +kernel))
    (fun a => if a = "x" then some 1 else if a = "z" then some 2 else none) (callsReach_of (by decide +kernel))
    (by
      intro now order hm
      simp only [exThree, List.mem_cons, List.not_mem_nil, or_false, ILabel.serve.injEq, reduceCtorEq, false_or] at hm
      rw [h1]
      rcases hm with ⟨-, -, rfl⟩ | ⟨h, -⟩ | ⟨h, -⟩
      · decide
      · cases h
      · cases h)
    h3 (by decide)
    (by
      have := allSpare_of (X := DS.toy 0) (R := fun d => decide (getValueAsBytes d = getValueAsBytes t.datum)) (lost := [0, 2]) (name := t.name)
        (k := encKey (exKey 1)) (s0 := ⟨[exM, exM, exM], []⟩) (ls := exThree ++ exLoss) (by rw [h2, h3]; decide +kernel)
      simpa only [decide_eq_true_eq] using this)
    he exEnv exEnv_ok C false exBoth none 1 (exPoint 0) none ?_ (by simp [C]) ?_ ?_ ?_ (by decide) (by decide) rfl (by decide) hok
    [some (exKey 1)] (by decide) ?_ ⟨by simp [exBoth, defaultSearchConfig], by simp [exBoth, defaultSearchConfig]⟩ st a out r1 r2 r3
  · intro w
    simp only [C]
    split <;> simp
  · intro w hw hl
    simp only [List.length_cons, List.length_nil, List.mem_cons, List.not_mem_nil, or_false, not_or] at hw hl
    have : w = 1 := by omega
    subst this
    exact .refl
  · rintro w site ⟨rfl, rfl⟩ -
    exact ⟨n, x, hn, by rw [h2]; exact hx, rfl⟩
  · rintro w site e ⟨rfl, rfl⟩ - hg
    have : (exLeftSite x.data).dt.dbMap = [(encKey (exKey 1), ⟨0, exD⟩)] := hm
    rw [this] at hg
    have hmem := AMap.mem_of_get? hg
    simp only [List.mem_singleton, Prod.mk.injEq] at hmem
    rw [hmem.2]
    exact .inl rfl
  · rintro w site ⟨-, rfl⟩ y ⟨k, v, hy, ⟨z, hz, -, -⟩, -, -⟩
    have h5 : (exLeftSite x.data).dt.dbMap = [(encKey (exKey 1), ⟨0, exD⟩)] := hm
    rw [h5] at hz
    unfold Store.abs at hz
    split at hz
    · rename_i e hg
      have hmem := AMap.mem_of_get? hg
      simp only [List.mem_singleton, Prod.mk.injEq] at hmem
      rw [hy, encKey_inj hmem.1]
      exact List.mem_singleton.2 rfl
    · cases hz

end Veri
