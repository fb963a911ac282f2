import Verif.Cluster.Search
/-
C145: the unary search.  And a search in which six other nodes are asked (C95).
-/
set_option autoImplicit false
namespace Veri
open Clu Search Agg

namespace Clu

/-- node/nodeservice.go:31-33 `Search`, veriservice.proto:8: the answer is a list of scored data; `none` is the nil pointer that is
returned, without looking at the request. -/
def unarySearch (_config : Option SearchConfig) (_context : Option SearchContext) (_data : List Datum) :
    Res (Option (List ScoredDatum)) := .ok none

end Clu

/-- C145, full statement: the unary search answers what the streaming search answers.  FALSE of the code. -/
def C145_unary_search_statement : Prop :=
  ∀ (E : Env) (config : SearchConfig) (context : Option SearchContext) (data : List Datum)
    (parts : List (List Site × List ScoredDatum)) (out : List ScoredDatum),
    E.Ok → SearchOut E config context data parts out → unarySearch (some config) context data = .ok (some out)

/-- C145, exactly: it has no answer for any request, and reports no error. -/
theorem C145_unary_search_exact (config : Option SearchConfig) (context : Option SearchContext) (data : List Datum) :
    unarySearch config context data = .ok none := rfl

/-- C145, counterexample: two nodes with one datum each. -/
theorem C145_unary_search_fails : ¬ C145_unary_search_statement := by
  intro h
  have := h _ _ _ _ _ _ exEnv_ok exNearest_out
  rw [C145_unary_search_exact] at this
  injection this with this
  cases this

/-- C95: a search in which a node asks six others, none of which has the data set. -/
theorem C95_six_example : AggOut exEnv ⟨some (exPoint 0), none⟩ exNearest [exSite [0x3F800000]] [exFound F64.one 0x3F800000] := by
  obtain ⟨da, ha⟩ := exOwn_some (E := exEnv) (config := exNearest) (xs := [0x3F800000]) (l := [exFound F64.one 0x3F800000])
    (by decide +kernel)
  obtain ⟨g, c⟩ := collects_exists ([exFound F64.one 0x3F800000] :: (List.replicate 6 (⟨exNearest, [], [], []⟩ : Peer)).map (·.sent))
  have hg := collects_perm c
  have : ([exFound F64.one 0x3F800000] :: (List.replicate 6 (⟨exNearest, [], [], []⟩ : Peer)).map (·.sent)).flatten =
    [exFound F64.one 0x3F800000] := rfl
  rw [this] at hg
  have hg := List.singleton_perm.1 hg
  obtain ⟨g2, c2⟩ := collects_exists [[]]
  have hg2 := collects_one c2
  have hg2 : g2 = [] := List.perm_nil.1 hg2
  refine .node exNearest (exSite [0x3F800000]) da _ (List.replicate 6 ⟨exNearest, [], [], []⟩) g _ ha ?_ ?_ ?_ (by simp) c ?_
  · intro p hp
    rw [(List.mem_replicate.1 hp).2]
    exact ⟨_, rfl⟩
  · intro p hp
    rw [(List.mem_replicate.1 hp).2]
    exact .silent _
  · intro p hp
    rw [(List.mem_replicate.1 hp).2]
    refine ⟨g2, id, c2, fun m => .refl m, ?_⟩
    rw [hg2]
    exact outOf_some (by decide +kernel)
  · rw [← hg]
    exact outOf_some (by decide +kernel)

end Veri
