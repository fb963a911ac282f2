import Verif.Annoy.Self
import Verif.Annoy.Use
/-
C196: an index search for the vector of a datum of the index (data/search.go:283-333 on annoyindex/annoylib.h).
-/
set_option autoImplicit false
namespace Veri
open Gencoder Proc Store Annoy Idx

/-- What C196 asks of a result: the datum, or as many data as the limit allows, none of them farther from the query than the query from
itself. -/
def Idx.HasOrNear (A : Lib) (q : DatumKey) (config : SearchConfig) (d : Datum) (out : List ScoredDatum) : Prop :=
  (∃ x ∈ out, x.datum = d) ∨ (out.length = config.limit.toNat ∧
    ∀ x ∈ out, ∃ k, x.datum.key = some k ∧ F32.lt (angular A q.feature q.feature) (angular A q.feature k.feature) = false)

/-- C196, full statement: if all inserts carry values and vectors of one length, then after any history an index search for the key of
a datum of the index, which passes the filters, returns it, or as many as the limit that are as near.  FALSE of the code. -/
def C196_statement : Prop :=
  ∀ (n : Nat) (P : PEnv) (c : DataConfig) (now : Int64) (ls : List Proc.Label), (∀ l ∈ ls, GoodLabel n l) →
    ∀ s, Proc.exec P true (initial (Data.newData c) now) ls = some s → ∀ a, s.dt.annoyer = some a → a.dataIndex.length < 2^31 →
    ∀ (A : Lib), A.Ok → ZeroDot A → ∀ (fuel : Nat) (ix : Index), Idx.native A fuel a.items = .ok ix →
    ∀ (E : Env) (vs : List Visit) (q : DatumKey) (qv : Option DatumValue) (config : SearchConfig) (j : Nat) (d : Datum),
      datumAt a j = some d → d.key = some q → Ref.Passes E.jsonHas config d → 0 < config.limit.toNat → config.limit.toNat < 2^31 →
      (∀ j d, datumAt a j = some d → F32.isNaN (distAt A a q.feature j) = false) →
      ∀ (fuel' : Nat) (answer : List Nat), 2 * ix.nItems * ix.roots.length ≤ fuel' →
        Idx.nativeAnswer A fuel' ix a.dataIndex.length q.feature config.limit = .ok answer →
        ∃ out, Search.searchAnnoy E vs answer s.dt ⟨some q, qv⟩ (some config) = .ok (s.dt, out) ∧ HasOrNear A q config d out.list

open Classical in
/-- C196: it does if on its way through the trees the vector never comes to a plane that it lies in. -/
theorem C196_partial (n : Nat) (P : PEnv) (c : DataConfig) (now : Int64) (ls : List Proc.Label) (hl : ∀ l ∈ ls, GoodLabel n l)
    (s : PS) (he : Proc.exec P true (initial (Data.newData c) now) ls = some s) (a : Annoyer) (ha : s.dt.annoyer = some a)
    (hsz : a.dataIndex.length < 2^31) (A : Lib) (hA : A.Ok) (hz : ZeroDot A) (fuel : Nat) (ix : Index)
    (hix : Idx.native A fuel a.items = .ok ix) (E : Env) (vs : List Visit) (q : DatumKey) (qv : Option DatumValue) (config : SearchConfig)
    (j : Nat) (d : Datum) (hd : datumAt a j = some d) (hk : d.key = some q) (hp : Ref.Passes E.jsonHas config d)
    (hpos : 0 < config.limit.toNat) (hbig : config.limit.toNat < 2^31)
    (hnan : ∀ j d, datumAt a j = some d → F32.isNaN (distAt A a q.feature j) = false) (hc : Clear A ix q.feature)
    (fuel' : Nat) (answer : List Nat) (hfuel : 2 * ix.nItems * ix.roots.length ≤ fuel')
    (hans : Idx.nativeAnswer A fuel' ix a.dataIndex.length q.feature config.limit = .ok answer) :
    ∃ out, Search.searchAnnoy E vs answer s.dt ⟨some q, qv⟩ (some config) = .ok (s.dt, out) ∧ HasOrNear A q config d out.list := by
  have hu := Idx.uinv_exec (n := n) ls (s := initial (Data.newData c) now)
    ⟨rfl, (by intro p hp; cases hp), (by intro i hi; cases hi), (by intro a ha; cases ha)⟩ hl he
  obtain ⟨i, m, hf, hm, rfl⟩ := hu.index a ha
  obtain ⟨ys, hvec, hlen, hdl, hgood, hlt, hat⟩ := Idx.vectors_filled hf hm
  have hmax : ys.length < 2^31 := by
    have := hf.1
    simp only at hsz
    rw [hdl] at hsz; omega
  have hnat : Idx.native A fuel (indexItems i) = build A n fuel ys := by
    unfold Idx.native; rw [hvec]; rfl
  have hb : build A n fuel ys = .ok ix := by rw [← hnat]; exact hix
  obtain ⟨hixf, hixn, _⟩ := (build_spec hA (f := n) (fuel := fuel) hmax).2 ix hb
  -- the datum is at a position of the index
  have hdj : (dataIndex i)[j]? = some (some d) := by
    simp only [Idx.datumAt] at hd
    cases hg : (dataIndex i)[j]? with
    | none => rw [hg] at hd; cases hd
    | some o => rw [hg] at hd; rw [Option.join_some] at hd; rw [hd]
  have hjm := hlt j d hdj
  obtain ⟨y, hy⟩ : ∃ y, ys[j]? = some y := ⟨ys[j]'(by omega), List.getElem?_eq_getElem (by omega)⟩
  have hyq : y = q.feature ∧ y.length = n := by
    obtain ⟨hyl, k, v, h1, h2⟩ := hat j y hy
    rw [hdj] at h1
    simp only [Option.some.injEq] at h1
    subst h1
    simp only [Option.some.injEq] at hk
    subst hk
    exact ⟨h2.symm, hyl⟩
  obtain ⟨rfl, hq⟩ := hyq
  -- the answer
  obtain ⟨-, hres⟩ := C116_index_search_partial n P c now ls hl s he _ ha hsz A hA fuel
  obtain ⟨answer', hn', out, js, ho, hr, hjs, -⟩ := hres ix hix E vs q qv config hq
  have : answer' = answer := by
    have h := hn' fuel' hfuel
    rw [hans] at h
    injection h with h
    exact h.symm
  subst this
  refine ⟨out, ho, ?_⟩
  unfold Idx.nativeAnswer at hans
  rw [hixf, ← hq, Idx.readVector_self] at hans
  simp only [Out.ofOption, Out.ok_bind] at hans
  obtain ⟨ans, hg, hx⟩ := Out.bind_ok hans
  injection hx with hx
  rw [hixn] at hfuel
  have hja := found_itself hA hz hmax hb hy hc (by have := hf.1; rw [hdl]; omega) hfuel (by rw [budget_small hbig]; exact hpos) hg
  rw [hx] at hja
  -- its order
  obtain ⟨ans', h1, h2, -⟩ := answer hA hmax hb q.feature (dataIndex i).length config.limit
  have : ans' = ans := by
    have h := h1 fuel' hfuel
    rw [hg] at h
    injection h with h
    exact h.symm
  subst this
  have hdat : ∀ x ∈ ans', x.1 = Idx.distAt A ⟨dataIndex i, indexItems i⟩ q.feature x.2 := by
    intro x hx
    obtain ⟨y, hy, hd⟩ := h2.dist x hx
    obtain ⟨_, k, v, hkv, hky⟩ := hat x.2 y hy
    simp only [Idx.distAt, Idx.datumAt, hkv, Option.join_some, Option.bind_some, Option.map_some, Option.getD_some]
    rw [hky]; exact hd
  have hn : NoNaN A ys q.feature := by
    intro y hy
    obtain ⟨j, hj⟩ := List.getElem?_of_mem hy
    obtain ⟨_, k, v, h, hk⟩ := hat j y hj
    have := hnan j ⟨some k, some v⟩ (by simp only [Idx.datumAt, h, Option.join_some])
    simp only [Idx.distAt, Idx.datumAt, h, Option.join_some, Option.bind_some, Option.map_some, Option.getD_some, hk] at this
    exact this
  have hord : answer'.Pairwise fun b b' => F32.lt (Idx.distAt A ⟨dataIndex i, indexItems i⟩ q.feature b')
      (Idx.distAt A ⟨dataIndex i, indexItems i⟩ q.feature b) = false := by
    rw [← hx, List.pairwise_map]
    refine List.Pairwise.imp_of_mem ?_ (h2.sorted hn)
    intro x y hx hy h
    rw [← hdat x hx, ← hdat y hy]
    rcases h with h | h
    · simp only [F32.lt, Bool.and_eq_true, decide_eq_true_eq] at h
      simp only [F32.lt, Bool.and_eq_false_iff, decide_eq_false_iff_not]
      omega
    · exact h.1
  have hout : ∀ p ∈ js, ∃ x ∈ out.list, ∃ d, datumAt ⟨dataIndex i, indexItems i⟩ p = some d ∧ x.datum = d := by
    intro p hp
    obtain ⟨d, hd, -⟩ := hr.pass p hp
    have : some (⟨(Vec.getVectorComparisonFunction config.scoreFuncName).eval E.o q.feature ((d.key.map (·.feature)).getD []), d⟩ : ScoredDatum) ∈
        out.list.map some := by
      rw [hr.data]
      exact List.mem_map.2 ⟨p, hp, by rw [hd]; rfl⟩
    obtain ⟨x, hx, h⟩ := List.mem_map.1 this
    injection h with h
    exact ⟨x, hx, d, hd, by rw [h]⟩
  have hlenout : out.list.length = js.length := by
    have := congrArg List.length hr.data
    rwa [List.length_map, List.length_map] at this
  have hmem : j ∈ answer'.filter fun j => decide (∃ d, datumAt ⟨dataIndex i, indexItems i⟩ j = some d ∧ Ref.Passes E.jsonHas config d) :=
    List.mem_filter.2 ⟨hja, decide_eq_true ⟨d, hd, hp⟩⟩
  rw [← List.take_append_drop config.limit.toNat (List.filter _ answer')] at hmem
  rcases List.mem_append.1 hmem with h | h
  · left
    obtain ⟨x, hx, d', hd', hxd⟩ := hout j (by rw [hjs]; exact h)
    rw [hd] at hd'
    injection hd' with hd'
    exact ⟨x, hx, by rw [hxd, hd']⟩
  · right
    constructor
    · rw [hlenout, hjs, List.length_take]
      have : config.limit.toNat < (answer'.filter fun j => decide (∃ d, datumAt ⟨dataIndex i, indexItems i⟩ j = some d ∧
          Ref.Passes E.jsonHas config d)).length := by
        apply Nat.lt_of_not_le
        intro hle
        rw [List.drop_eq_nil_of_le hle] at h
        cases h
      omega
    · intro x hxo
      have hxm : some x ∈ out.list.map some := List.mem_map.2 ⟨x, hxo, rfl⟩
      rw [hr.data] at hxm
      obtain ⟨p, hp, hpx⟩ := List.mem_map.1 hxm
      obtain ⟨d', hd', hpass⟩ := hr.pass p hp
      rw [hd'] at hpx
      simp only [Option.map_some, Option.some.injEq] at hpx
      have hg' : Good n d' := hgood d' (by
        simp only [Idx.datumAt] at hd'
        cases hg : (dataIndex i)[p]? with
        | none => rw [hg] at hd'; cases hd'
        | some o =>
          rw [hg, Option.join_some] at hd'
          rw [← hd']
          exact List.mem_of_getElem? hg)
      obtain ⟨k, v, rfl, -⟩ := hg'
      refine ⟨k, by rw [← hpx], ?_⟩
      have hs := hord.sublist (List.filter_sublist (p := fun j => decide (∃ d, datumAt ⟨dataIndex i, indexItems i⟩ j = some d ∧
          Ref.Passes E.jsonHas config d)))
      rw [← List.take_append_drop config.limit.toNat (List.filter _ answer'), List.pairwise_append] at hs
      have := hs.2.2 p (by rw [hjs] at hp; exact hp) j h
      simp only [Idx.distAt, hd, hd', hk, Option.bind_some, Option.map_some, Option.getD_some] at this
      exact this

namespace Idx

/-- The key of a datum with a one-dimensional vector. -/
def exAt (v : UInt32 → F32) (i : UInt32) : DatumKey := ⟨[v i], [65], i, 0, 1, 1⟩

/-- Five data are inserted, and a run finds them in this order. -/
def exFive (v : UInt32 → F32) : List Proc.Label :=
  [.write ⟨some (exAt v 0), some (exVal 1)⟩ none, .write ⟨some (exAt v 1), some (exVal 1)⟩ none, .write ⟨some (exAt v 2), some (exVal 1)⟩ none,
   .write ⟨some (exAt v 3), some (exVal 1)⟩ none, .write ⟨some (exAt v 4), some (exVal 1)⟩ none,
   .setSources (exSources ["a"]), .run (fun _ => some exInfo) ["a"],
   .act 0 (.meet (encKey (exAt v 0))), .act 0 (.offer 0), .act 0 (.meet (encKey (exAt v 1))), .act 0 (.offer 0),
   .act 0 (.meet (encKey (exAt v 2))), .act 0 (.offer 0), .act 0 (.meet (encKey (exAt v 3))), .act 0 (.offer 0),
   .act 0 (.meet (encKey (exAt v 4))), .act 0 (.offer 0), .act 0 .endScan]

theorem exFive_good (v : UInt32 → F32) : ∀ l ∈ exFive v, GoodLabel 1 l := by
  intro l hl
  simp only [exFive, List.mem_cons, List.not_mem_nil, or_false] at hl
  rcases hl with rfl | rfl | rfl | rfl | rfl | rfl | rfl | rfl | rfl | rfl | rfl | rfl | rfl | rfl | rfl | rfl | rfl | rfl <;> try exact trivial
  all_goals exact ⟨_, _, rfl, rfl⟩

/-- That no distance is NaN, to be computed. -/
def clean (A : Lib) (a : Annoyer) (q : List F32) : Bool :=
  a.dataIndex.all fun o => match o with
    | none => true
    | some d => !F32.isNaN (angular A q ((d.key.map (·.feature)).getD []))

theorem clean_of {A : Lib} {a : Annoyer} {q : List F32} (h : clean A a q = true) :
    ∀ j d, datumAt a j = some d → F32.isNaN (distAt A a q j) = false := by
  intro j d hd
  unfold distAt
  rw [hd]
  unfold datumAt at hd
  cases hg : a.dataIndex[j]? with
  | none => rw [hg] at hd; cases hd
  | some o =>
    rw [hg, Option.join_some] at hd
    subst hd
    have := List.all_eq_true.1 h _ (List.mem_of_getElem? hg)
    simpa using this

/-- What the index of an example is: the length of the slice, the datum at a position, that no distance is NaN. -/
structure ExIndex where
  length : Nat
  datum : Option Datum
  clean : Bool
  deriving DecidableEq

/-- What a search of it comes to: the number of items and trees, whether the vector is clear of the planes, the answer of the index, and
what the search returns. -/
structure ExSearch where
  items : Nat
  trees : Nat
  clear : Bool
  answer : List Nat
  hits : Option (List Datum)
  deriving DecidableEq

/-- All of an example. -/
def exAll (A : Lib) (v : UInt32 → F32) (j : Nat) (k : DatumKey) (limit : UInt32) : Option (Option (ExIndex × Out ExSearch)) :=
  (Proc.exec softP true (exStart 0) (exFive v)).map fun s => s.dt.annoyer.map fun a =>
    (⟨a.dataIndex.length, datumAt a j, clean A a k.feature⟩, (Idx.native A 12 a.items).bind fun ix =>
      (Idx.nativeAnswer A 20 ix a.dataIndex.length k.feature limit).bind fun answer =>
        .ok ⟨ix.nItems, ix.roots.length, clearOf A ix k.feature, answer,
          hitsOf (Search.searchAnnoy Search.exEnv [] answer s.dt ⟨some k, none⟩ (some { Search.defaultSearchConfig with limit := limit }))⟩)

def exOnly (i : UInt32) : F32 := if i = 2 then 0x3F800000 else 0
def exTurn (i : UInt32) : F32 := if i = 1 ∨ i = 3 then 0xBF800000 else 0x3F800000

end Idx

set_option maxRecDepth 100000 in
/-- C196, counterexample: of five numbers one is 1; a search for its key, for three results, returns three others, farther away. -/
theorem C196_fails : ¬ C196_statement := by
  intro h
  have ht : exAll soft exOnly 2 (exAt exOnly 2) 3 = some (some (⟨1000, some ⟨some (exAt exOnly 2), some (exVal 1)⟩, true⟩,
      .ok ⟨5, 2, false, [0, 3, 4], some [⟨some (exAt exOnly 0), some (exVal 1)⟩, ⟨some (exAt exOnly 3), some (exVal 1)⟩,
        ⟨some (exAt exOnly 4), some (exVal 1)⟩]⟩)) := by decide +kernel
  unfold exAll at ht
  rw [Option.map_eq_some_iff] at ht
  obtain ⟨s, hs, ht⟩ := ht
  rw [Option.map_eq_some_iff] at ht
  obtain ⟨a, ha, ht⟩ := ht
  simp only [Prod.mk.injEq, ExIndex.mk.injEq] at ht
  obtain ⟨⟨h1, h2, h3⟩, ht⟩ := ht
  obtain ⟨ix, hix, ht⟩ := Out.bind_ok ht
  obtain ⟨answer, hans, ht⟩ := Out.bind_ok ht
  simp only [Out.ok.injEq, ExSearch.mk.injEq] at ht
  obtain ⟨h4, h5, -, h6, h7⟩ := ht
  obtain ⟨out, ho, hn⟩ := h 1 softP (exCfg 0) 1000 (exFive exOnly) (exFive_good _) s hs a ha (by rw [h1]; decide) soft soft_ok soft_zeroDot 12 ix hix
    Search.exEnv [] (exAt exOnly 2) none { Search.defaultSearchConfig with limit := 3 } 2 _ h2 rfl
    ⟨(by intro f hf; cases hf), (by intro f hf; cases hf)⟩ (by decide) (by decide) (clean_of h3) 20 answer (by rw [h4, h5]; decide) hans
  rw [ho] at h7
  simp only [hitsOf, Option.some.injEq] at h7
  rcases hn with ⟨x, hx, hxd⟩ | ⟨-, hn⟩
  · have : x.datum ∈ out.list.map (·.datum) := List.mem_map.2 ⟨x, hx, rfl⟩
    rw [h7, hxd] at this
    revert this
    decide +kernel
  · have : (⟨some (exAt exOnly 0), some (exVal 1)⟩ : Datum) ∈ out.list.map (·.datum) := by rw [h7]; exact List.mem_cons_self
    obtain ⟨x, hx, hxd⟩ := List.mem_map.1 this
    obtain ⟨k, hk, hlt⟩ := hn x hx
    rw [hxd] at hk
    injection hk with hk
    subst hk
    revert hlt
    decide +kernel

set_option maxRecDepth 100000 in
/-- C196: five data with the numbers 1, -1, 1, -1, 1.  The planes of the two trees do not contain -1, and an index search for the second
of them, for two results, returns it and the other one with that number. -/
theorem C196_example : soft.Ok ∧ ZeroDot soft ∧ (∀ l ∈ exFive exTurn, GoodLabel 1 l) ∧
    exAll soft exTurn 3 (exAt exTurn 3) 2 = some (some (⟨1000, some ⟨some (exAt exTurn 3), some (exVal 1)⟩, true⟩,
      .ok ⟨5, 2, true, [1, 3], some [⟨some (exAt exTurn 1), some (exVal 1)⟩, ⟨some (exAt exTurn 3), some (exVal 1)⟩]⟩)) :=
  ⟨soft_ok, soft_zeroDot, exFive_good _, by rw [← softSteps_eq]; decide +kernel⟩

end Veri
