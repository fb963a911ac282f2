import Verif.Cluster.Search
import Verif.Search.Stable
/-
C184: a search over several nodes answers alike wherever it is asked and however the data are spread, and no worse with more nodes.
-/
set_option autoImplicit false
namespace Veri
open Gencoder Store

namespace Ref

/-- Every datum (by its key) that is among the hits in the first stores is also among those in the others. -/
def Covers (E : Env) (config : SearchConfig) (q : DatumKey) (sh sh' : List Shelf) : Prop :=
  ∀ x, IsHitIn E config q sh x → ∃ y, IsHitIn E config q sh' y ∧ y.datum.key = x.datum.key

end Ref

namespace Clu
open Search Agg Ref

/-- The datum without its value. -/
def keyOnly (x : ScoredDatum) : ScoredDatum := ⟨x.score, ⟨x.datum.key, none⟩⟩

theorem better_keyOnly (b : Bool) (x y : ScoredDatum) : better b (keyOnly x) (keyOnly y) = better b x y := rfl

theorem topk_keyOnly {b : Bool} {k : Nat} {c out : List ScoredDatum} (h : IsTopK (better b) k c out) :
    IsTopK (better b) k (c.map keyOnly) (out.map keyOnly) := by
  obtain ⟨rest, p, l, s, w⟩ := h
  refine ⟨rest.map keyOnly, by rw [← List.map_append]; exact p.map _, by simpa using l, ?_, ?_⟩
  · unfold SortedBy; rw [List.pairwise_map]; exact s
  · intro x hx y hy
    obtain ⟨x', hx', rfl⟩ := List.mem_map.1 hx
    obtain ⟨y', hy', rfl⟩ := List.mem_map.1 hy
    exact w x' hx' y' hy'

theorem noWorse_keyOnly {b : Bool} {out out' : List ScoredDatum} (h : NoWorse b (out.map keyOnly) (out'.map keyOnly)) : NoWorse b out out' := by
  refine ⟨by simpa using h.1, fun i x y hx hy => ?_⟩
  have := h.2 i (keyOnly x) (keyOnly y) (by simp [hx]) (by simp [hy])
  exact this

theorem hit_keyOnly {E : Env} {config : SearchConfig} {q : DatumKey} {sh sh' : List Shelf} {x y : ScoredDatum} (hx : IsHitIn E config q sh x)
    (hy : IsHitIn E config q sh' y) (h : y.datum.key = x.datum.key) : keyOnly y = keyOnly x := by
  obtain ⟨_, _, k, v, e1, _, _, e4⟩ := hx
  obtain ⟨_, _, k', v', f1, _, _, f4⟩ := hy
  rw [e1, f1] at h
  simp only [Option.some.injEq] at h
  subst h
  unfold keyOnly
  rw [e4, f4, e1, f1]

end Clu
open Clu Ref Search Agg

/-- C184, full statement: two searches for the same, over nodes that together have the same matching data, answer alike, whichever nodes are
asked and however the data are spread over them.  FALSE of the code if lower is better. -/
def C184_statement : Prop :=
  ∀ (E : Env) (config : SearchConfig) (q : DatumKey) (qv qv' : Option DatumValue) (sites sites' : List Site) (found found' out out' : List ScoredDatum),
    E.Ok → 0 < config.limit → config.groupLimit = 0 → Vec.isAnnoyName config.scoreFuncName = false → (∀ s ∈ sites, s.Ok) → (∀ s ∈ sites', s.Ok) →
    (∀ x, IsHitIn E config q (shelves sites) x → F64.isNaN x.score = false) →
    (∀ x, IsHitIn E config q (shelves sites') x → F64.isNaN x.score = false) →
    Covers E config q (shelves sites) (shelves sites') → Covers E config q (shelves sites') (shelves sites) →
    SearchOut E config none [⟨some q, qv⟩] [(sites, found)] out → SearchOut E config none [⟨some q, qv'⟩] [(sites', found')] out' →
    Alike config.higherIsBetter out out'

/-- C184, partial: if higher is better, or if no more than `limit` different data match, a search over nodes that have at least the same
matching data answers no worse. -/
theorem C184_more_partial (E : Env) (config : SearchConfig) (q : DatumKey) (qv qv' : Option DatumValue) (sites sites' : List Site)
    (found found' out out' : List ScoredDatum) (hE : E.Ok) (hl : 0 < config.limit) (hg : config.groupLimit = 0)
    (hname : Vec.isAnnoyName config.scoreFuncName = false) (hok : ∀ s ∈ sites, s.Ok) (hok' : ∀ s ∈ sites', s.Ok)
    (hn' : ∀ x, IsHitIn E config q (shelves sites') x → F64.isNaN x.score = false) (keys : List (Option DatumKey))
    (hd : config.higherIsBetter = true ∨
      keys.length ≤ config.limit.toNat ∧ ∀ x, IsHitIn E config q (shelves sites') x → x.datum.key ∈ keys)
    (hc : Covers E config q (shelves sites) (shelves sites'))
    (h : SearchOut E config none [⟨some q, qv⟩] [(sites, found)] out) (h' : SearchOut E config none [⟨some q, qv'⟩] [(sites', found')] out') :
    NoWorse config.higherIsBetter out out' := by
  have hn : ∀ x, IsHitIn E config q (shelves sites) x → F64.isNaN x.score = false := by
    intro x hx
    obtain ⟨y, hy, hk⟩ := hc x hx
    have := congrArg ScoredDatum.score (hit_keyOnly hx hy hk)
    rw [← show y.score = x.score from this]
    exact hn' y hy
  obtain ⟨c, ⟨a1, a2, a3⟩, h1⟩ := C95_cluster_search_partial E config q qv sites found out hE hl hg hname hok hn keys
    (hd.imp id fun hd => ⟨hd.1, fun x hx => by obtain ⟨y, hy, hk⟩ := hc x hx; rw [← hk]; exact hd.2 y hy⟩) h
  obtain ⟨c', ⟨b1, b2, b3⟩, h2⟩ := C95_cluster_search_partial E config q qv' sites' found' out' hE hl hg hname hok' hn' keys hd h'
  refine noWorse_keyOnly (topk_le (Nat.le_refl _) ?_ ?_ ?_ (topk_keyOnly h1) (topk_keyOnly h2))
  · intro x hx
    obtain ⟨x', hx', rfl⟩ := List.mem_map.1 hx
    exact hn' x' (b1 x' hx')
  · have : (c.map keyOnly).map (·.datum.key) = c.map (·.datum.key) := by simp [keyOnly]
    rw [← this] at a2
    exact List.Pairwise.of_map (R := (· ≠ ·)) (S := (· ≠ ·)) _ (fun a b h e => h (by rw [e])) a2
  · intro x hx
    obtain ⟨x', hx', rfl⟩ := List.mem_map.1 hx
    obtain ⟨y, hy, hk⟩ := hc x' (a1 x' hx')
    obtain ⟨z, hz, hk'⟩ := b3 y hy
    rw [← hit_keyOnly (a1 x' hx') (b1 z hz) (hk'.trans hk)]
    exact List.mem_map_of_mem hz

/-- C184, partial: if higher is better, or if no more than `limit` different data match. -/
theorem C184_partial (E : Env) (config : SearchConfig) (q : DatumKey) (qv qv' : Option DatumValue) (sites sites' : List Site)
    (found found' out out' : List ScoredDatum) (hE : E.Ok) (hl : 0 < config.limit) (hg : config.groupLimit = 0)
    (hname : Vec.isAnnoyName config.scoreFuncName = false) (hok : ∀ s ∈ sites, s.Ok) (hok' : ∀ s ∈ sites', s.Ok)
    (hn : ∀ x, IsHitIn E config q (shelves sites) x → F64.isNaN x.score = false) (keys : List (Option DatumKey))
    (hd : config.higherIsBetter = true ∨
      keys.length ≤ config.limit.toNat ∧ ∀ x, IsHitIn E config q (shelves sites) x → x.datum.key ∈ keys)
    (hc : Covers E config q (shelves sites) (shelves sites')) (hc' : Covers E config q (shelves sites') (shelves sites))
    (h : SearchOut E config none [⟨some q, qv⟩] [(sites, found)] out) (h' : SearchOut E config none [⟨some q, qv'⟩] [(sites', found')] out') :
    Alike config.higherIsBetter out out' := by
  have hn' : ∀ x, IsHitIn E config q (shelves sites') x → F64.isNaN x.score = false := by
    intro x hx
    obtain ⟨y, hy, hk⟩ := hc' x hx
    have := congrArg ScoredDatum.score (hit_keyOnly hx hy hk)
    rw [← show y.score = x.score from this]
    exact hn y hy
  refine ⟨C184_more_partial E config q qv qv' sites sites' found found' out out' hE hl hg hname hok hok' hn' keys
    (hd.imp id fun hd => ⟨hd.1, fun x hx => by obtain ⟨y, hy, hk⟩ := hc' x hx; rw [← hk]; exact hd.2 y hy⟩) hc h h',
    C184_more_partial E config q qv' qv sites' sites found' found out' out hE hl hg hname hok' hok hn keys hd hc' h' h⟩

namespace Clu

/-- A client's search for the point 0 at a node which asks nobody. -/
theorem exSearch_alone (config : SearchConfig) (xs : List F32) (a found out : List ScoredDatum) (ha : exOwn exEnv config xs = some a)
    (h2 : ∀ got : List ScoredDatum, got.Perm a → flatMerge exEnv config none got = .ok found)
    (h3 : ∀ got : List ScoredDatum, got.Perm found → multiMerge exEnv config none id got = .ok out) :
    SearchOut exEnv config none [⟨some (exPoint 0), none⟩] [([exSite xs], found)] out := by
  obtain ⟨da, ha⟩ := exOwn_some ha
  obtain ⟨g3, c3⟩ := collects_exists [a]
  have hagg : AggOut exEnv ⟨some (exPoint 0), none⟩ config [exSite xs] found :=
    .node config (exSite xs) da a [] g3 found ha (by simp) (by simp) (by simp) (by simp) c3 (h2 g3 (collects_one c3))
  obtain ⟨g4, c4⟩ := collects_exists [found]
  refine ⟨rfl, ?_, g4, id, c4, fun m => .refl m, h3 g4 (collects_one c4)⟩
  intro p hp
  simp only [List.zip_cons_cons, List.zip_nil_right, List.mem_singleton] at hp
  subst hp
  exact hagg

end Clu

/-- C184 fails: one node that has the points at distance 1 and 2 returns the first, two nodes that have one of them each return the second. -/
theorem C184_fails : ¬ C184_statement := by
  intro h
  have hnd : ∀ xs ∈ [[(0x3F800000 : F32)], [0x40000000]], xs.Nodup := by decide
  have hnd' : ∀ xs ∈ [[(0x3F800000 : F32), 0x40000000]], xs.Nodup := by decide
  have hit := exHits (config := exNearest) rfl rfl hnd
  have hit' := exHits (config := exNearest) rfl rfl hnd'
  have hsame : ∀ x, IsHitIn exEnv exNearest (exPoint 0) (shelves ([[(0x3F800000 : F32)], [0x40000000]].map exSite)) x ↔
      IsHitIn exEnv exNearest (exPoint 0) (shelves ([[(0x3F800000 : F32), 0x40000000]].map exSite)) x := by
    intro x
    rw [hit, hit']
    simp
  have hone : SearchOut exEnv exNearest none [⟨some (exPoint 0), none⟩]
      [([[(0x3F800000 : F32), 0x40000000]].map exSite, [exFound F64.one 0x3F800000])] [exFound F64.one 0x3F800000] := by
    refine exSearch_alone exNearest [0x3F800000, 0x40000000] [exFound F64.one 0x3F800000] _ _ (by decide +kernel) ?_ ?_
    · intro got hp
      rw [List.perm_singleton.1 hp]
      exact outOf_some (by decide +kernel)
    · intro got hp
      rw [List.perm_singleton.1 hp]
      exact outOf_some (by decide +kernel)
  have hnum : ∀ x, IsHitIn exEnv exNearest (exPoint 0) (shelves ([[(0x3F800000 : F32)], [0x40000000]].map exSite)) x → F64.isNaN x.score = false := by
    intro x hx
    rw [hit] at hx
    obtain ⟨xs, hxs, y, hy, rfl⟩ := hx
    revert y
    revert xs
    decide +kernel
  have := h exEnv exNearest (exPoint 0) none none ([[(0x3F800000 : F32)], [0x40000000]].map exSite)
    ([[(0x3F800000 : F32), 0x40000000]].map exSite) _ _ _ _ exEnv_ok (by decide) rfl (by decide)
    (fun s hs => by obtain ⟨xs, hxs, rfl⟩ := List.mem_map.1 hs; exact exSite_ok xs (hnd xs hxs))
    (fun s hs => by obtain ⟨xs, hxs, rfl⟩ := List.mem_map.1 hs; exact exSite_ok xs (hnd' xs hxs))
    hnum (fun x hx => hnum x ((hsame x).2 hx)) (fun x hx => ⟨x, (hsame x).1 hx, rfl⟩) (fun x hx => ⟨x, (hsame x).2 hx, rfl⟩)
    exNearest_out hone
  have hb := this.2.2 0 _ _ rfl rfl
  revert hb
  decide +kernel

/-- Larger distances first: two nodes with one point each, and one node with both, answer alike. -/
theorem C184_example : ∃ out out', SearchOut exEnv { exNearest with higherIsBetter := true } none [⟨some (exPoint 0), none⟩]
      [([[(0x3F800000 : F32)], [0x40000000]].map exSite, [exFound two 0x40000000])] out ∧
    SearchOut exEnv { exNearest with higherIsBetter := true } none [⟨some (exPoint 0), none⟩]
      [([[(0x3F800000 : F32), 0x40000000]].map exSite, [exFound two 0x40000000])] out' ∧ out ≠ [] ∧ Alike true out out' := by
  have hnd : ∀ xs ∈ [[(0x3F800000 : F32)], [0x40000000]], xs.Nodup := by decide
  have hnd' : ∀ xs ∈ [[(0x3F800000 : F32), 0x40000000]], xs.Nodup := by decide
  have hit := exHits (config := { exNearest with higherIsBetter := true }) rfl rfl hnd
  have hit' := exHits (config := { exNearest with higherIsBetter := true }) rfl rfl hnd'
  have hsame : ∀ x, IsHitIn exEnv { exNearest with higherIsBetter := true } (exPoint 0) (shelves ([[(0x3F800000 : F32)], [0x40000000]].map exSite)) x ↔
      IsHitIn exEnv { exNearest with higherIsBetter := true } (exPoint 0) (shelves ([[(0x3F800000 : F32), 0x40000000]].map exSite)) x := by
    intro x
    rw [hit, hit']
    simp
  have hone : SearchOut exEnv { exNearest with higherIsBetter := true } none [⟨some (exPoint 0), none⟩]
      [([[(0x3F800000 : F32), 0x40000000]].map exSite, [exFound two 0x40000000])] [exFound two 0x40000000] := by
    refine exSearch_alone _ [0x3F800000, 0x40000000] [exFound two 0x40000000] _ _ (by decide +kernel) ?_ ?_
    · intro got hp
      rw [List.perm_singleton.1 hp]
      exact outOf_some (by decide +kernel)
    · intro got hp
      rw [List.perm_singleton.1 hp]
      exact outOf_some (by decide +kernel)
  refine ⟨_, _, C95_example, hone, by simp, ?_⟩
  exact C184_partial exEnv { exNearest with higherIsBetter := true } (exPoint 0) none none ([[(0x3F800000 : F32)], [0x40000000]].map exSite)
    ([[(0x3F800000 : F32), 0x40000000]].map exSite) _ _ _ _ exEnv_ok (by decide) rfl (by decide)
    (fun s hs => by obtain ⟨xs, hxs, rfl⟩ := List.mem_map.1 hs; exact exSite_ok xs (hnd xs hxs))
    (fun s hs => by obtain ⟨xs, hxs, rfl⟩ := List.mem_map.1 hs; exact exSite_ok xs (hnd' xs hxs))
    (by
      intro x hx
      rw [hit] at hx
      obtain ⟨xs, hxs, y, hy, rfl⟩ := hx
      revert y
      revert xs
      decide +kernel)
    [] (.inl rfl) (fun x hx => ⟨x, (hsame x).1 hx, rfl⟩) (fun x hx => ⟨x, (hsame x).2 hx, rfl⟩) C95_example hone

end Veri
