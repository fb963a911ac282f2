import Verif.Cluster.Search
import Verif.Node.Props
/-
C98: search requests that crash the node.
-/
set_option autoImplicit false
namespace Veri
namespace Clu
open Gencoder Store Search Agg Net

/-- The positions an index of a data set may answer (C25): positions of data with key and value; nothing for limit 0. -/
def AnswerOk (dt : Data) (config : SearchConfig) (answer : List Nat) : Prop :=
  ∀ a, dt.annoyer = some a → a.dataIndex ≠ [] →
    (∀ d, some d ∈ a.dataIndex → ∃ k v, d = ⟨some k, some v⟩) ∧ (∀ r ∈ answer, r < a.dataIndex.length) ∧
      (config.limit = 0 → answer = [])

/-- node/nodeservice.go:118-154, data/search.go:130-298: nothing the node does for a search request crashes it.  These are: the
entry, the search of its own data for each datum of the request, the merge of the results for one datum and the merge of those
for all data.  The data sets have been filled by well-formed inserts, the results of other nodes carry keys. -/
def SearchSafe (E : Env) (now : Int) (fresh : String) (n : Node) (config : Option SearchConfig) (context : Option SearchContext)
    (data : List Datum) : Prop :=
  searchEntry now fresh n config ≠ .panic ∧
  ∀ n' dt c, searchEntry now fresh n config = .ok (n', some (dt, c)) →
    (∀ d ∈ data, ∀ vs answer clock, (Site.mk dt vs answer clock).Ok → AnswerOk dt c answer →
      streamSearch E vs answer dt d (some c) ≠ .panic) ∧
    (∀ got, Ref.Keyed got → flatMerge E c none got ≠ .panic) ∧
    (∀ order got, (∀ m, (order m).Perm m) → Ref.Keyed got → multiMerge E c context order got ≠ .panic)

/-- The context data have keys. -/
def CtxKeyed (context : Option SearchContext) : Prop := ∀ ctx, context = some ctx → ∀ d ∈ ctx.datum, ∃ k, d.key = some k

theorem bestLoop_ok (o : FOps F32 F64) (config : SearchConfig) (f : List F32) : ∀ (ds : List Datum) (cur : Option F64),
    (∀ d ∈ ds, ∃ k, d.key = some k) → ∃ r, bestLoop o config f cur ds = .ok r
  | [], cur, _ => ⟨cur, rfl⟩
  | d :: ds, cur, h => by
    obtain ⟨k, hk⟩ := h d List.mem_cons_self
    have ih := fun cur => bestLoop_ok o config f ds cur fun d hd => h d (List.mem_cons_of_mem _ hd)
    simp only [bestLoop, hk, Res.ofOption_some, Res.bind_ok]
    cases cur with
    | none => exact ih _
    | some c =>
      simp only
      split
      · exact ih _
      · exact ih _

theorem bestScore_ok (o : FOps F32 F64) (config : SearchConfig) {context : Option SearchContext} (hc : CtxKeyed context)
    (sd : ScoredDatum) (hk : ∃ k v, sd.datum = ⟨some k, v⟩) : ∃ s, bestScore o config context sd = .ok s := by
  unfold bestScore
  cases context with
  | none => exact ⟨_, rfl⟩
  | some ctx =>
    simp only
    split
    · exact ⟨_, rfl⟩
    · obtain ⟨k, v, h⟩ := hk
      obtain ⟨r, hr⟩ := bestLoop_ok o config k.feature ctx.datum (if ctx.prioritize then none else some sd.score) (hc ctx rfl)
      rw [h]
      simp only [Res.ofOption_some, Res.bind_ok, hr]
      exact ⟨_, rfl⟩

/-- The score the merge gives an arrival. -/
def rescore (o : FOps F32 F64) (config : SearchConfig) (context : Option SearchContext) (x : ScoredDatum) : F64 :=
  match bestScore o config context x with
  | .ok s => s
  | _ => 0

theorem rescore_eq (o : FOps F32 F64) (config : SearchConfig) {context : Option SearchContext} (hc : CtxKeyed context)
    (sd : ScoredDatum) (hk : ∃ k v, sd.datum = ⟨some k, v⟩) :
    bestScore o config context sd = .ok (rescore o config context sd) := by
  obtain ⟨s, hs⟩ := bestScore_ok o config hc sd hk
  rw [rescore, hs]

theorem keyed_rescored {arr : List ScoredDatum} (hk : Ref.Keyed arr) (s : ScoredDatum → F64) :
    Ref.Keyed (arr.map fun x => { x with score := s x }) := by
  intro y hy
  obtain ⟨x, hx, rfl⟩ := List.mem_map.1 hy
  exact hk x hx

/-- Merging with a context returns. -/
theorem flat_ok {E : Env} (hE : E.Ok) (config : SearchConfig) {context : Option SearchContext} (hc : CtxKeyed context)
    (hl : 0 < config.limit) (got : List ScoredDatum) (hk : Ref.Keyed got) :
    ∃ a, (newFlat config context).insertAll E got = .ok a ∧ a.config = config := by
  have h := C32_merge_rescored E config context (rescore E.o config context) got (newFlat config context)
    (fun x hx => rescore_eq E.o config hc x (hk x hx)) rfl rfl
  obtain ⟨a, h1, h2, _⟩ := insertAll_ok hE.sort (got.map fun x => { x with score := rescore E.o config context x })
    (newFlat config none) hl rfl (keyed_rescored hk _) (by simp [newFlat]) (by simp [newFlat])
  rw [show (newFlat config context).plain = newFlat config none from rfl, h1] at h
  cases h3 : (newFlat config context).insertAll E got with
  | panic => rw [h3] at h; cases h
  | err e => rw [h3] at h; cases h
  | ok a' =>
    rw [h3] at h
    injection h with h
    exact ⟨a', rfl, by rw [show a'.config = a'.plain.config from rfl, h]; exact h2.1⟩

theorem result_ok (a : Flat) (h : a.config.resultLimit.toNat < 2^63) : a.result ≠ .panic := by
  rw [result_eq]
  split
  · simp
  · rw [if_neg (by omega)]; simp

theorem flatMerge_returns {E : Env} (hE : E.Ok) (config : SearchConfig) {context : Option SearchContext} (hc : CtxKeyed context)
    (hl : 0 < config.limit) (hr : config.resultLimit.toNat < 2^63) (got : List ScoredDatum) (hk : Ref.Keyed got) :
    flatMerge E config context got ≠ .panic := by
  obtain ⟨a, h1, h2⟩ := flat_ok hE config hc hl got hk
  rw [flatMerge, h1, Res.bind_ok]
  exact result_ok a (by rw [h2]; exact hr)

/-- Collecting groups with a context is collecting the rescored arrivals without one. -/
theorem grouped_rescored (E : Env) (config : SearchConfig) (context : Option SearchContext) (s : ScoredDatum → F64) :
    ∀ (arr : List ScoredDatum) (a : Grouped), (∀ x ∈ arr, bestScore E.o config context x = .ok (s x)) →
    a.config = config → a.context = context →
    a.insertAll E arr = ((Grouped.mk a.config none a.groups).insertAll E (arr.map fun x => { x with score := s x })).bind
      fun b => .ok ⟨b.config, context, b.groups⟩
  | [], a, _, _, hx => by cases a; subst hx; rfl
  | x :: arr, a, hs, hc, hx => by
    rw [List.map_cons, Grouped.insertAll, Grouped.insertAll]
    unfold Grouped.insert
    rw [hc, hx, hs x List.mem_cons_self]
    rw [show bestScore E.o config none { x with score := s x } = .ok (s x) from rfl]
    simp only [Res.bind_ok]
    cases x.datum.key with
    | none => rfl
    | some k =>
      simp only [Res.ofOption_some, Res.bind_ok]
      rw [show Grouped.group ⟨config, none, a.groups⟩ (encodeToString k.groupLabel) = a.group (encodeToString k.groupLabel) by
        unfold Grouped.group; rw [hc]]
      cases hi : (a.group (encodeToString k.groupLabel)).insert E { x with score := s x } with
      | panic => rfl
      | err e => rfl
      | ok g =>
        simp only [Res.bind_ok]
        have := grouped_rescored E config context s arr { a with groups := a.groups.set (encodeToString k.groupLabel) g }
          (fun y hy => hs y (List.mem_cons_of_mem _ hy)) hc hx
        rw [hc] at this
        rw [← this]
        cases a
        subst hc hx
        rfl

theorem multiMerge_returns {E : Env} (hE : E.Ok) (config : SearchConfig) {context : Option SearchContext} (hc : CtxKeyed context)
    (hl : 0 < config.limit) (hr : config.resultLimit.toNat < 2^63) (order : AMap Bytes Flat → AMap Bytes Flat)
    (ho : ∀ m, (order m).Perm m) (got : List ScoredDatum) (hk : Ref.Keyed got) :
    multiMerge E config context order got ≠ .panic := by
  unfold multiMerge
  by_cases hg : 0 < config.groupLimit
  · rw [if_pos hg]
    have h := grouped_rescored E config context (rescore E.o config context) got (newGrouped config context)
      (fun x hx => rescore_eq E.o config hc x (hk x hx)) rfl rfl
    have hk' := keyed_rescored hk (rescore E.o config context)
    obtain ⟨a, h1, _, hi⟩ := grouped_insertAll hE.sort config hg _ (newGrouped config none) [] rfl
      (by rw [List.nil_append]; exact hk') ⟨rfl, AMap.nodup_nil, by simp [newGrouped], by simp [Ref.inGroup]⟩
    rw [List.nil_append] at hi
    rw [show Grouped.mk (newGrouped config context).config none (newGrouped config context).groups = newGrouped config none from rfl,
      h1, Res.bind_ok] at h
    rw [h, Res.bind_ok]
    have hord : ∀ p ∈ order a.groups, Ref.inGroup p.1 _ ≠ [] ∧ groupMerge E config p.1 _ = .ok p.2 := fun p hp' =>
      hi.some_ p.1 p.2 (AMap.get?_of_mem hi.nodup ((ho _).mem_iff.1 hp'))
    obtain ⟨ones, o1, _, o3⟩ := ones_exist hE.sort config hg _ hk' (order a.groups) hord
    obtain ⟨f, f1, f2⟩ := flat_ok hE config hc hl ones fun x hx => (o3 x hx).1
    unfold Grouped.result
    rw [insertOnes_eq E _ _ _ o1]
    simp only
    rw [hi.cfg, f1, Res.bind_ok]
    exact result_ok f (by rw [f2]; exact hr)
  · rw [if_neg hg]
    exact flatMerge_returns hE config hc hl hr got hk

theorem entry_config {now : Int} {fresh : String} {n n' : Node} {c c' : SearchConfig} {dt : Data}
    (h : searchEntry now fresh n (some c) = .ok (n', some (dt, c'))) : ∃ u, c' = { c with uuid := u } := by
  unfold searchEntry at h
  simp only at h
  split at h
  · cases h
  · split at h
    · injection h with h; injection h with _ h; injection h with h; injection h with _ h; exact ⟨_, h.symm⟩
    · cases h
    · cases h

theorem entry_returns (now : Int) (fresh : String) (n : Node) (c : SearchConfig) : searchEntry now fresh n (some c) ≠ .panic := by
  unfold searchEntry
  simp only
  split
  · simp
  · unfold DS.getNoCreate
    split
    · simp
    · simp
    · rename_i h
      split at h <;> cases h

end Clu

open Gencoder Store Search Agg Net Clu

/-- C98, full statement: no search request crashes the node.  FALSE of the code. -/
def C98_search_request_statement : Prop :=
  ∀ (E : Env) (now : Int) (fresh : String) (n : Node) (config : Option SearchConfig) (context : Option SearchContext)
    (data : List Datum), E.Ok → SearchSafe E now fresh n config context data

/-- C98, partial: a request with a configuration whose limit is positive and whose result limit is below 2^63, all data of which,
including those of the context, have keys. -/
theorem C98_search_request_partial (E : Env) (hE : E.Ok) (now : Int) (fresh : String) (n : Node) (config : SearchConfig)
    (context : Option SearchContext) (data : List Datum) (hl : 0 < config.limit) (hr : config.resultLimit.toNat < 2^63)
    (hd : ∀ d ∈ data, ∃ k, d.key = some k) (hc : ∀ ctx, context = some ctx → ∀ d ∈ ctx.datum, ∃ k, d.key = some k) :
    SearchSafe E now fresh n (some config) context data := by
  refine ⟨entry_returns now fresh n config, fun n' dt c h => ?_⟩
  obtain ⟨u, rfl⟩ := entry_config h
  have hnone : CtxKeyed none := fun ctx h => by cases h
  refine ⟨fun d hd' vs answer clock hok hans => ?_, fun got hk => flatMerge_returns hE { config with uuid := u } hnone hl hr got hk,
    fun order got ho hk => multiMerge_returns hE { config with uuid := u } hc hl hr order ho got hk⟩
  obtain ⟨q, hq⟩ := hd d hd'
  obtain ⟨dk, qv⟩ := d
  simp only at hq
  subst hq
  have hs := C24_search_returns_partial E hE dt vs clock q qv { config with uuid := u } hok.wf hok.range hok.clock
    (by intro h; rw [show config.limit = 0 from h] at hl; exact absurd hl (by decide))
  have bindNe : ∀ r : Res (Data × Collector), r ≠ .panic →
      (r.bind fun (dt, c) => Res.ok (dt, c.list)) ≠ .panic := by
    intro r h
    cases r with
    | panic => exact absurd rfl h
    | err e => simp [Res.bind]
    | ok x => simp [Res.bind]
  unfold streamSearch
  apply bindNe
  simp only [Option.getD_some]
  split
  · cases ha : dt.annoyer with
    | none => rw [C25_no_index E vs answer dt _ _ (Or.inl ha)]; exact hs
    | some a =>
      by_cases hne : a.dataIndex = []
      · rw [C25_no_index E vs answer dt _ _ (Or.inr ⟨a, ha, hne⟩)]; exact hs
      · obtain ⟨h1, h2, h3⟩ := hans a ha hne
        obtain ⟨c, hc, _⟩ := C25_index_search E vs answer dt q qv { config with uuid := u } a ha hne h1 h2 h3
        rw [hc]; simp
  · exact hs

/-- C98, counterexample: a request without a configuration. -/
theorem C98_search_request_fails : ¬ C98_search_request_statement := fun h =>
  (h exEnv 0 "" exNode none none [] exEnv_ok).1 rfl

namespace Clu

/-- A node with a data set of the given points. -/
def exHolder (xs : List F32) : Node := { exNode with dataset := [("", ⟨exData xs, none⟩)] }

theorem exHolder_entry (xs : List F32) (c : SearchConfig) (hu : c.uuid = "") (hd : c.dataName = "") :
    searchEntry 0 "" (exHolder xs) (some c) = .ok (exHolder xs, some (exData xs, { c with uuid := "" })) := by
  have h : DS.getNoCreate 0 (exHolder xs).dataset "" = .ok (exData xs) := rfl
  unfold searchEntry queryEntry
  simp only [hu, hd, if_true, h]

/-- A test for crashes. -/
def crashes {α : Type} : Res α → Bool
  | .panic => true
  | _ => false

theorem crashes_eq {α : Type} {r : Res α} (h : crashes r = true) : r = .panic := by
  cases r with
  | panic => rfl
  | ok x => cases h
  | err e => cases h

end Clu

/-- C98: each assumption of the partial theorem is needed.  With limit 0, with the result limit 2^63, with a datum without a key
and with a context datum without a key there is a request that crashes the node, though the others hold. -/
theorem C98_needed :
    ¬ SearchSafe exEnv 0 "" (exHolder [0x3F800000]) (some { defaultSearchConfig with limit := 0 }) none [⟨some (exPoint 0), none⟩] ∧
    ¬ SearchSafe exEnv 0 "" (exHolder [0x3F800000]) (some { defaultSearchConfig with resultLimit := 0x8000000000000000 }) none
      [⟨some (exPoint 0), none⟩] ∧
    ¬ SearchSafe exEnv 0 "" (exHolder [0x3F800000]) (some defaultSearchConfig) none [⟨none, none⟩] ∧
    ¬ SearchSafe exEnv 0 "" (exHolder [0x3F800000]) (some defaultSearchConfig) (some ⟨[⟨none, none⟩], false⟩)
      [⟨some (exPoint 0), none⟩] := by
  have hok : (exSite [0x3F800000]).Ok := exSite_ok _ (by decide)
  have hkey : Ref.Keyed [exFound F64.one 0x3F800000] := by
    intro x hx; rw [List.mem_singleton.1 hx]; exact ⟨_, _, rfl⟩
  refine ⟨fun h => ?_, fun h => ?_, fun h => ?_, fun h => ?_⟩
  · exact (h.2 _ _ _ (exHolder_entry _ _ rfl rfl)).2.1 [exFound F64.one 0x3F800000] hkey (crashes_eq (by decide +kernel))
  · exact (h.2 _ _ _ (exHolder_entry _ _ rfl rfl)).2.1 [] (by intro x hx; cases hx) (crashes_eq (by decide +kernel))
  · refine (h.2 _ _ _ (exHolder_entry _ _ rfl rfl)).1 _ List.mem_cons_self _ [] (exSite [0x3F800000]).clock hok ?_ (crashes_eq (by decide +kernel))
    intro a ha; cases ha
  · exact (h.2 _ _ _ (exHolder_entry _ _ rfl rfl)).2.2 id [exFound F64.one 0x3F800000] (fun m => .refl m) hkey (crashes_eq (by decide +kernel))

end Veri
