import Verif.Cluster.Search
/-
C142: a search that has more time does not answer worse.
-/
set_option autoImplicit false
namespace Veri
open Gencoder Store Search Agg

namespace Ref

/-- Place by place `out'` is at least as good as `out`: it has no fewer results, and none of them is worse than the one `out`
has in this place. -/
def NoWorse (higherIsBetter : Bool) (out out' : List ScoredDatum) : Prop :=
  out.length ≤ out'.length ∧
    ∀ (i : Nat) (x y : ScoredDatum), out[i]? = some x → out'[i]? = some y → better higherIsBetter x y = false

end Ref

namespace Agg
open Ref

/-- What is best among more is no worse. -/
theorem topk_mono {b : Bool} {k : Nat} {arr arr' c c' out out' : List ScoredDatum} (hc : Consistent arr') (hn : NoNaN arr')
    (hsub : ∀ x ∈ arr, x ∈ arr') (hd : Distinct arr c) (hd' : Distinct arr' c') (h : IsTopK (better b) k c out)
    (h' : IsTopK (better b) k c' out') : NoWorse b out out' := by
  have hin : ∀ x ∈ c, x ∈ arr' := fun x hx => hsub x (hd.1 x hx)
  have hkeys : ∀ z ∈ c.map (·.datum.key), z ∈ c'.map (·.datum.key) := by
    intro z hz
    obtain ⟨x, hx, rfl⟩ := List.mem_map.1 hz
    obtain ⟨y, hy, hk⟩ := hd'.2.2 x (hin x hx)
    exact List.mem_map.2 ⟨y, hy, hk⟩
  have hlen : c.length ≤ c'.length := by
    simpa using List.Nodup.length_le_of_subset hd.2.1 hkeys
  obtain ⟨rest, p, l, s, w⟩ := h
  obtain ⟨rest', p', l', s', w'⟩ := h'
  refine ⟨by omega, fun i x y hx hy => ?_⟩
  rw [Bool.eq_false_iff]
  intro hb
  have hmem : ∀ z ∈ out, z ∈ c := fun z hz => p.mem_iff.1 (List.mem_append_left _ hz)
  have hmem' : ∀ z ∈ out' ++ rest', z ∈ c' := fun z hz => p'.mem_iff.1 hz
  have num : ∀ z ∈ c, F64.isNaN z.score = false := fun z hz => hn z (hin z hz)
  have num' : ∀ z ∈ c', F64.isNaN z.score = false := fun z hz => hn z (hd'.1 z hz)
  have hxo : x ∈ out := List.mem_of_getElem? hx
  have hyo : y ∈ out' := List.mem_of_getElem? hy
  have hyc := hmem' y (List.mem_append_left _ hyo)
  have hi : i < out.length := (List.getElem?_eq_some_iff.1 hx).1
  have hi' : i < out'.length := (List.getElem?_eq_some_iff.1 hy).1
  have rk : rank b x < rank b y := by
    rw [better_rank b x y (num x (hmem x hxo)) (num' y hyc)] at hb
    simpa using hb
  -- at least `i + 1` of the candidates are as good as `x`
  let good := c'.filter fun z => decide (rank b z ≤ rank b x)
  have hgood : i + 1 ≤ good.length := by
    have hnd : ((out.take (i + 1)).map (·.datum.key)).Nodup := by
      have : ((out ++ rest).map (·.datum.key)).Nodup := (p.map _).nodup_iff.2 hd.2.1
      rw [List.map_append] at this
      have := (List.nodup_append.1 this).1
      rw [List.map_take]
      exact this.sublist (List.take_sublist _ _)
    have hs : ∀ z ∈ (out.take (i + 1)).map (·.datum.key), z ∈ good.map (·.datum.key) := by
      intro z hz
      obtain ⟨u, hu, rfl⟩ := List.mem_map.1 hz
      have huo := List.mem_of_mem_take hu
      have huc := hmem u huo
      obtain ⟨v, hv, hk⟩ := hd'.2.2 u (hin u huc)
      refine List.mem_map.2 ⟨v, List.mem_filter.2 ⟨hv, ?_⟩, hk⟩
      have hux : rank b u ≤ rank b x := by
        obtain ⟨j, hj, rfl⟩ := List.getElem_of_mem hu
        rw [List.length_take] at hj
        rw [List.getElem_take]
        by_cases hji : j = i
        · subst hji
          rw [(List.getElem?_eq_some_iff.1 hx).2]
          exact Int.le_refl _
        · have := List.pairwise_iff_getElem.1 s j i (by omega) hi (by omega)
          rw [(List.getElem?_eq_some_iff.1 hx).2] at this
          rw [better_rank b _ _ (num x (hmem x hxo)) (num _ (hmem _ (List.getElem_mem _)))] at this
          simpa using this
      have e1 := hc u (hin u huc) v (hd'.1 v hv) hk.symm
      have e2 := hc v (hd'.1 v hv) u (hin u huc) hk
      rw [F64.not_lt_iff (num u huc) (num' v hv)] at e1
      rw [F64.not_lt_iff (num' v hv) (num u huc)] at e2
      have : rank b v = rank b u := by simp only [rank]; split <;> omega
      rw [this]
      exact decide_eq_true hux
    have := List.Nodup.length_le_of_subset hnd hs
    simp only [List.length_map, List.length_take] at this
    omega
  -- but they all come before place `i`
  have hbad : good.length ≤ i := by
    have e : good.length = ((out' ++ rest').filter fun z => decide (rank b z ≤ rank b x)).length :=
      (p'.symm.filter _).length_eq
    rw [e, ← List.take_append_drop i out', List.append_assoc, List.filter_append, List.length_append]
    have z1 : ((out'.drop i ++ rest').filter fun z => decide (rank b z ≤ rank b x)) = [] := by
      rw [List.filter_eq_nil_iff]
      intro z hz
      have hzc : z ∈ c' := by
        refine hmem' z ?_
        rcases List.mem_append.1 hz with hz | hz
        · exact List.mem_append_left _ (List.mem_of_mem_drop hz)
        · exact List.mem_append_right _ hz
      have hyz : rank b y ≤ rank b z := by
        rcases List.mem_append.1 hz with hz | hz
        · obtain ⟨j, hj, rfl⟩ := List.getElem_of_mem hz
          rw [List.length_drop] at hj
          rw [List.getElem_drop]
          by_cases hji : j = 0
          · subst hji
            have : out'[i + 0] = y := by simpa using (List.getElem?_eq_some_iff.1 hy).2
            rw [this]
            exact Int.le_refl _
          · have := List.pairwise_iff_getElem.1 s' i (i + j) hi' (by omega) (by omega)
            rw [(List.getElem?_eq_some_iff.1 hy).2] at this
            rw [better_rank b _ _ (num' _ (hmem' _ (List.mem_append_left _ (List.getElem_mem _)))) (num' y hyc)] at this
            simpa using this
        · have := w' z hz y hyo
          rw [better_rank b _ _ (num' z hzc) (num' y hyc)] at this
          simpa using this
      simp only [decide_eq_true_eq]
      omega
    rw [z1]
    have := (List.filter_sublist (p := fun z => decide (rank b z ≤ rank b x)) (l := out'.take i)).length_le
    rw [List.length_take] at this
    simp only [List.length_nil]
    omega
  omega

theorem NoWorse.take {b : Bool} {out out' : List ScoredDatum} (h : NoWorse b out out') (n : Nat) :
    NoWorse b (out.take n) (out'.take n) := by
  refine ⟨by simp only [List.length_take]; have := h.1; omega, fun i x y hx hy => h.2 i x y ?_ ?_⟩
  · rw [List.getElem?_take] at hx; split at hx <;> first | exact hx | cases hx
  · rw [List.getElem?_take] at hy; split at hy <;> first | exact hy | cases hy

/-- The result limit cuts both alike. -/
theorem result_mono {b : Bool} {a a' : Flat} (hcfg : a.config.resultLimit = a'.config.resultLimit) (h : NoWorse b a.list a'.list)
    {out out' : List ScoredDatum} (hr : a.result = .ok out) (hr' : a'.result = .ok out') : NoWorse b out out' := by
  rw [result_eq] at hr hr'
  rw [← hcfg] at hr'
  by_cases h0 : a.config.resultLimit = 0
  · rw [if_pos h0] at hr hr'
    injection hr with hr
    injection hr' with hr'
    rw [← hr, ← hr']
    exact h
  · rw [if_neg h0] at hr hr'
    split at hr
    · cases hr
    · split at hr'
      · cases hr'
      · injection hr with hr
        injection hr' with hr'
        rw [← hr, ← hr']
        exact NoWorse.take h _

theorem bindOk {α β : Type} {x : Res α} {f : α → Res β} {b : β} (h : x.bind f = .ok b) : ∃ a, x = .ok a ∧ f a = .ok b := by
  cases x with
  | ok a => exact ⟨a, rfl, h⟩
  | err e => cases h
  | panic => cases h

end Agg

open Veri.Stream in
/-- C142, full statement: of two collecting loops over the same sources, one of which was cut short by its time limit, that one does
not have the better answer in any place.  FALSE of the code if lower is better (C28). -/
def C142_more_time_statement : Prop :=
  ∀ (E : Env) (config : SearchConfig) (inputs : List (List ScoredDatum)) (s s' : State ScoredDatum)
    (out out' : List ScoredDatum), E.Ok → 0 < config.limit → Ref.Keyed inputs.flatten → Ref.Consistent inputs.flatten →
    Ref.NoNaN inputs.flatten → Reach 100 inputs s → s.main = .finished true → Reach 100 inputs s' → s'.main = .finished false →
    Clu.flatMerge E config none s.got = .ok out → Clu.flatMerge E config none s'.got = .ok out' → Ref.NoWorse config.higherIsBetter out out'

/-- C142: more arrivals never mean a worse answer, if higher is better or if no more data arrive than fit. -/
theorem C142_more_arrivals_partial (E : Env) (hE : E.Ok) (config : SearchConfig) (arr arr' : List ScoredDatum)
    (hl : 0 < config.limit) (hk : Ref.Keyed arr') (hc : Ref.Consistent arr') (hn : Ref.NoNaN arr')
    (keys : List (Option DatumKey))
    (hd : config.higherIsBetter = true ∨ keys.length ≤ config.limit.toNat ∧ ∀ x ∈ arr', x.datum.key ∈ keys)
    (hsub : ∀ x ∈ arr, x ∈ arr') (out out' : List ScoredDatum)
    (h : Clu.flatMerge E config none arr = .ok out) (h' : Clu.flatMerge E config none arr' = .ok out') :
    Ref.NoWorse config.higherIsBetter out out' := by
  have top : ∀ l : List ScoredDatum, (∀ x ∈ l, x ∈ arr') → ∀ a, (newFlat config none).insertAll E l = .ok a →
      ∃ c, Ref.Distinct l c ∧ IsTopK (Ref.better config.higherIsBetter) config.limit.toNat c a.list := by
    intro l hl' a ha
    have k1 : Ref.Keyed l := fun x hx => hk x (hl' x hx)
    have c1 : Ref.Consistent l := fun x hx y hy => hc x (hl' x hx) y (hl' y hy)
    have n1 : Ref.NoNaN l := fun x hx => hn x (hl' x hx)
    cases hb : config.higherIsBetter with
    | true =>
      obtain ⟨b, c, g1, g2, g3⟩ := C27_merge_higher_top_k E hE config l hb hl k1 c1 n1
      rw [ha] at g1; injection g1 with g1; subst g1
      exact ⟨c, g2, g3⟩
    | false =>
      rcases hd with hd | hd
      · rw [hb] at hd; cases hd
      · obtain ⟨b, c, g1, g2, g3⟩ := C28_merge_lower_partial E hE config l hb hl k1 c1 n1 keys hd.1 (fun x hx => hd.2 x (hl' x hx))
        rw [ha] at g1; injection g1 with g1; subst g1
        exact ⟨c, g2, g3⟩
  obtain ⟨a, h, hr⟩ := bindOk h
  obtain ⟨a', h', hr'⟩ := bindOk h'
  obtain ⟨c, d1, t1⟩ := top arr hsub a h
  obtain ⟨c', d2, t2⟩ := top arr' (fun _ hx => hx) a' h'
  have cfg : ∀ l : List ScoredDatum, (∀ x ∈ l, x ∈ arr') → ∀ a, (newFlat config none).insertAll E l = .ok a →
      a.config = config := by
    intro l hl' a ha
    obtain ⟨b, g1, g2, -⟩ := insertAll_ok hE.sort l (newFlat config none) hl rfl (fun x hx => hk x (hl' x hx)) (by simp [newFlat])
      (by simp [newFlat])
    rw [ha] at g1; injection g1 with g1; subst g1
    exact g2.1
  exact result_mono (by rw [cfg arr hsub a h, cfg arr' (fun _ hx => hx) a' h']) (topk_mono hc hn hsub d1 d2 t1 t2) hr hr'

open Veri.Stream in
/-- C142: a search cut short by its time limit, whenever that happens, does not have the better answer. -/
theorem C142_more_time_partial (E : Env) (hE : E.Ok) (config : SearchConfig) (inputs : List (List ScoredDatum))
    (hl : 0 < config.limit) (hk : Ref.Keyed inputs.flatten) (hc : Ref.Consistent inputs.flatten)
    (hn : Ref.NoNaN inputs.flatten) (keys : List (Option DatumKey))
    (hd : config.higherIsBetter = true ∨ keys.length ≤ config.limit.toNat ∧ ∀ x ∈ inputs.flatten, x.datum.key ∈ keys)
    (s s' : State ScoredDatum) (hs : Reach 100 inputs s) (hs' : Reach 100 inputs s') (hm' : s'.main = .finished false)
    (out out' : List ScoredDatum) (h : Clu.flatMerge E config none s.got = .ok out)
    (h' : Clu.flatMerge E config none s'.got = .ok out') :
    Ref.NoWorse config.higherIsBetter out out' := by
  have hp := (C33_nothing_lost 100 inputs s' hs').2 hm'
  obtain ⟨rest, hq⟩ := (C34_timeout_partial 100 inputs s hs).2
  have mem : ∀ x, x ∈ s'.got ↔ x ∈ inputs.flatten := fun x => hp.mem_iff
  exact C142_more_arrivals_partial E hE config s.got s'.got hl (fun x hx => hk x ((mem x).1 hx))
    (fun x hx y hy => hc x ((mem x).1 hx) y ((mem y).1 hy)) (fun x hx => hn x ((mem x).1 hx)) keys
    (hd.imp id fun hd => ⟨hd.1, fun x hx => hd.2 x ((mem x).1 hx)⟩)
    (fun x hx => (mem x).2 (hq.mem_iff.1 (List.mem_append_left _ hx))) out out' h h'

namespace Stream

/-- Two results, of which only the first has been taken when the time limit comes. -/
theorem exCut (x y : ScoredDatum) : ∃ s, Reach 100 [[x, y]] s ∧ s.main = .finished true ∧ s.got = [x] := by
  have h1 : Reach 100 [[x, y]] _ := .step .init (.spawn (cap := 100) (Stream.init [[x, y]]) [x, y] [] rfl)
  have h2 := Reach.step h1 (.enter _ rfl)
  have h3 := Reach.step h2 (.send _ [] [] x [y] rfl rfl (by simp [Stream.init]))
  have h4 := Reach.step h3 (.recv _ x [] rfl rfl)
  exact ⟨_, .step h4 (.timeout _ rfl), rfl, rfl⟩

end Stream

/-- C142 is not vacuous: two results, the second one better; the search cut short answers with the first. -/
theorem C142_example : ∃ (c : SearchConfig) (s s' : Stream.State ScoredDatum), c.higherIsBetter = true ∧ 0 < c.limit ∧
    Stream.Reach 100 [[exHit F64.one 0, exHit two 1]] s ∧ s.main = .finished true ∧
    Stream.Reach 100 [[exHit F64.one 0, exHit two 1]] s' ∧ s'.main = .finished false ∧
    Clu.flatMerge exEnv c none s.got = .ok [exHit F64.one 0] ∧ Clu.flatMerge exEnv c none s'.got = .ok [exHit two 1] := by
  obtain ⟨s, h1, h2, h3⟩ := Stream.exCut (exHit F64.one 0) (exHit two 1)
  obtain ⟨s', g1, g2, g3⟩ := C33_completes 100 (by decide) [[exHit F64.one 0, exHit two 1]] _ .init (by simp [Stream.init])
  refine ⟨{ defaultSearchConfig with limit := 1, higherIsBetter := true }, s, s', rfl, by decide, h1, h2,
    Stream.Reach.steps .init g1, g2, ?_, ?_⟩
  · rw [h3]
    exact Clu.outOf_some (by decide +kernel)
  · rcases Clu.perm_pair (by simpa using g3) with e | e <;> (rw [e]; exact Clu.outOf_some (by decide +kernel))

/-- C142 is false if lower is better: the search cut short answers with the better of two, the other one with the worse. -/
theorem C142_more_time_fails : ¬ C142_more_time_statement := by
  intro h
  obtain ⟨s, h1, h2, h3⟩ := Stream.exCut (exHit F64.one 0) (exHit two 1)
  obtain ⟨s', g1, g2, g3⟩ := C33_completes 100 (by decide) [[exHit F64.one 0, exHit two 1]] _ .init (by simp [Stream.init])
  have := h exEnv { defaultSearchConfig with limit := 1 } [[exHit F64.one 0, exHit two 1]] s s' [exHit F64.one 0] [exHit two 1]
    exEnv_ok (by decide)
    (by
      intro x hx
      simp only [List.flatten_cons, List.flatten_nil, List.append_nil, List.mem_cons, List.not_mem_nil, or_false] at hx
      rcases hx with rfl | rfl <;> exact ⟨_, _, rfl⟩)
    (by unfold Ref.Consistent; decide +kernel) (by unfold Ref.NoNaN; decide +kernel) h1 h2 (Stream.Reach.steps .init g1) g2
    (by rw [h3]; exact Clu.outOf_some (by decide +kernel))
    (by rcases Clu.perm_pair (by simpa using g3) with e | e <;> (rw [e]; exact Clu.outOf_some (by decide +kernel)))
  exact absurd (this.2 0 _ _ rfl rfl) (by decide +kernel)

end Veri
