import Verif.Search.More
/-
C163: what an exact search of a data set answers depends on the data only, and more data, a larger limit or fewer filters do not
make the answer worse.
-/
set_option autoImplicit false
namespace Veri
open Gencoder Store Search

namespace Ref

/-- An exact search of a data set at rest, as a client sees it: `out` is what is sent for the query `q`; the data are visited in
the order of `vs`, at the times `clock`. -/
structure Asked (E : Env) (dt : Data) (clock : DatumKey → Int64) (q : DatumKey) (config : SearchConfig) (out : List ScoredDatum) : Prop where
  wf : WF dt.dbMap
  limit : 0 < config.limit
  name : ¬ "Annoy".toList <+: config.scoreFuncName.toList
  run : ∃ (vs : List Visit) (answer : List Nat) (qv : Option DatumValue) (dt' : Data), IsRange dt.dbMap vs ∧
    (∀ v ∈ vs, ∀ k, v.entry.datum.key = some k → v.now = clock k) ∧
    streamSearch E vs answer dt ⟨some q, qv⟩ (some config) = .ok (dt', out)

/-- What the data set has to show. -/
def Shown (dt : Data) (clock : DatumKey → Int64) (k : DatumKey) (v : DatumValue) : Prop := shows (abs dt.dbMap) clock k v

/-- The same question up to the limit and the filters, of which `config'` has no others than `config`. -/
structure Wider (config config' : SearchConfig) : Prop where
  name : config'.scoreFuncName = config.scoreFuncName
  order : config'.higherIsBetter = config.higherIsBetter
  limit : config.limit ≤ config'.limit
  groupFilters : ∀ f ∈ config'.groupFilters, f ∈ config.groupFilters
  filters : ∀ f ∈ config'.filters, f ∈ config.filters

/-- Place by place the results are equally good. -/
def Alike (higherIsBetter : Bool) (out out' : List ScoredDatum) : Prop :=
  NoWorse higherIsBetter out out' ∧ NoWorse higherIsBetter out' out

/-- No score of a datum is not a number. -/
def Numbers (E : Env) (dt : Data) (clock : DatumKey → Int64) (q : DatumKey) (config : SearchConfig) : Prop :=
  ∀ k v, Shown dt clock k v →
    F64.isNaN ((Vec.getVectorComparisonFunction config.scoreFuncName).eval E.o k.feature q.feature) = false

end Ref

namespace Search
open Ref Agg

/-- The best of more, or more of the best, are no worse. -/
theorem topk_le {b : Bool} {k k' : Nat} {c c' out out' : List ScoredDatum} (hk : k ≤ k') (hn : ∀ x ∈ c', F64.isNaN x.score = false)
    (hd : c.Nodup) (hsub : ∀ x ∈ c, x ∈ c') (h : IsTopK (better b) k c out) (h' : IsTopK (better b) k' c' out') : NoWorse b out out' := by
  have hlen : c.length ≤ c'.length := List.Nodup.length_le_of_subset hd hsub
  obtain ⟨rest, p, l, s, w⟩ := h
  obtain ⟨rest', p', l', s', w'⟩ := h'
  refine ⟨by omega, fun i x y hx hy => ?_⟩
  rw [Bool.eq_false_iff]
  intro hb
  have hmem : ∀ z ∈ out, z ∈ c' := fun z hz => hsub z (p.mem_iff.1 (List.mem_append_left _ hz))
  have hmem' : ∀ z ∈ out' ++ rest', z ∈ c' := fun z hz => p'.mem_iff.1 hz
  have hxo : x ∈ out := List.mem_of_getElem? hx
  have hyo : y ∈ out' := List.mem_of_getElem? hy
  have hyc := hmem' y (List.mem_append_left _ hyo)
  have hi : i < out.length := (List.getElem?_eq_some_iff.1 hx).1
  have hi' : i < out'.length := (List.getElem?_eq_some_iff.1 hy).1
  have rk : rank b x < rank b y := by
    rw [better_rank b x y (hn x (hmem x hxo)) (hn y hyc)] at hb
    simpa using hb
  -- at least `i + 1` of the candidates are as good as `x`
  let good := c'.filter fun z => decide (rank b z ≤ rank b x)
  have hgood : i + 1 ≤ good.length := by
    have hnd : (out.take (i + 1)).Nodup := by
      have : (out ++ rest).Nodup := p.nodup_iff.2 hd
      exact (List.nodup_append.1 this).1.sublist (List.take_sublist _ _)
    have hs : ∀ z ∈ out.take (i + 1), z ∈ good := by
      intro u hu
      refine List.mem_filter.2 ⟨hmem u (List.mem_of_mem_take hu), decide_eq_true ?_⟩
      obtain ⟨j, hj, rfl⟩ := List.getElem_of_mem hu
      rw [List.length_take] at hj
      rw [List.getElem_take]
      by_cases hji : j = i
      · subst hji
        rw [(List.getElem?_eq_some_iff.1 hx).2]
        exact Int.le_refl _
      · have := List.pairwise_iff_getElem.1 s j i (by omega) hi (by omega)
        rw [(List.getElem?_eq_some_iff.1 hx).2] at this
        rw [better_rank b _ _ (hn x (hmem x hxo)) (hn _ (hmem _ (List.getElem_mem _)))] at this
        simpa using this
    have := List.Nodup.length_le_of_subset hnd hs
    simp only [List.length_take] at this
    omega
  -- but they all come before place `i`
  have hbad : good.length ≤ i := by
    have e : good.length = ((out' ++ rest').filter fun z => decide (rank b z ≤ rank b x)).length :=
      (p'.symm.filter _).length_eq
    rw [e, ← List.take_append_drop i out', List.append_assoc, List.filter_append, List.length_append]
    have z1 : ((out'.drop i ++ rest').filter fun z => decide (rank b z ≤ rank b x)) = [] := by
      rw [List.filter_eq_nil_iff]
      intro z hz
      have hzc : z ∈ c' := by
        refine hmem' z ?_
        rcases List.mem_append.1 hz with hz | hz
        · exact List.mem_append_left _ (List.mem_of_mem_drop hz)
        · exact List.mem_append_right _ hz
      have hyz : rank b y ≤ rank b z := by
        rcases List.mem_append.1 hz with hz | hz
        · obtain ⟨j, hj, rfl⟩ := List.getElem_of_mem hz
          rw [List.length_drop] at hj
          rw [List.getElem_drop]
          by_cases hji : j = 0
          · subst hji
            have : out'[i + 0] = y := by simpa using (List.getElem?_eq_some_iff.1 hy).2
            rw [this]
            exact Int.le_refl _
          · have := List.pairwise_iff_getElem.1 s' i (i + j) hi' (by omega) (by omega)
            rw [(List.getElem?_eq_some_iff.1 hy).2] at this
            rw [better_rank b _ _ (hn _ (hmem' _ (List.mem_append_left _ (List.getElem_mem _)))) (hn y hyc)] at this
            simpa using this
        · have := w' z hz y hyo
          rw [better_rank b _ _ (hn z hzc) (hn y hyc)] at this
          simpa using this
      simp only [decide_eq_true_eq]
      omega
    rw [z1]
    have := (List.filter_sublist (p := fun z => decide (rank b z ≤ rank b x)) (l := out'.take i)).length_le
    rw [List.length_take] at this
    simp only [List.length_nil]
    omega
  omega

/-- What is asked for is the best of the hits. -/
theorem _root_.Veri.Ref.Asked.topk {E : Env} (hE : E.Ok) {dt : Data} {clock : DatumKey → Int64} {q : DatumKey} {config : SearchConfig}
    {out : List ScoredDatum} (h : Asked E dt clock q config out) (hn : Numbers E dt clock q config) :
    ∃ c, c.Nodup ∧ (∀ sd, sd ∈ c ↔ IsHit E config q (Shown dt clock) sd) ∧
      IsTopK (better config.higherIsBetter) config.limit.toNat c out := by
  obtain ⟨vs, answer, qv, dt', hr, hc, hs⟩ := h.run
  obtain ⟨dt1, out1, c, h1, h2, h3, h4⟩ := C22_streamed_top_k E hE dt vs answer clock q qv config h.wf hr hc h.limit h.name
    (by rintro sd ⟨k, v, _, hsh, _, he⟩; rw [he]; exact hn k v hsh)
  rw [hs] at h1
  simp only [Res.ok.injEq, Prod.mk.injEq] at h1
  rw [h1.2]
  exact ⟨c, h2, h3, h4⟩

theorem numbers_hit {E : Env} {dt : Data} {clock : DatumKey → Int64} {q : DatumKey} {config : SearchConfig} (hn : Numbers E dt clock q config)
    {sd : ScoredDatum} (h : IsHit E config q (Shown dt clock) sd) : F64.isNaN sd.score = false := by
  obtain ⟨k, v, _, hs, _, he⟩ := h
  rw [he]
  exact hn k v hs

end Search

open Ref

/-- C163: a search of at least the same data, with at least the same limit and no further filters, answers no worse: it has no fewer
results, and none of them is worse than the one in the same place of the other answer. -/
theorem C163_no_worse (E : Env) (hE : E.Ok) (dt dt' : Data) (clock clock' : DatumKey → Int64) (q : DatumKey)
    (config config' : SearchConfig) (out out' : List ScoredDatum) (hdata : ∀ k v, Shown dt clock k v → Shown dt' clock' k v)
    (hw : Wider config config') (hn : Numbers E dt' clock' q config')
    (h : Asked E dt clock q config out) (h' : Asked E dt' clock' q config' out') : NoWorse config.higherIsBetter out out' := by
  have hn0 : Numbers E dt clock q config := fun k v hs => by rw [← hw.name]; exact hn k v (hdata k v hs)
  obtain ⟨c, h1, h2, h3⟩ := h.topk hE hn0
  obtain ⟨c', _, h2', h3'⟩ := h'.topk hE hn
  rw [hw.order] at h3'
  refine Search.topk_le (UInt32.le_iff_toNat_le.1 hw.limit) (fun x hx => Search.numbers_hit hn ((h2' x).1 hx)) h1 ?_ h3 h3'
  intro sd hsd
  obtain ⟨k, v, e1, e2, e3, e4⟩ := (h2 sd).1 hsd
  refine (h2' sd).2 ⟨k, v, e1, hdata k v e2, ⟨fun f hf => e3.1 f (hw.groupFilters f hf), fun f hf => e3.2 f (hw.filters f hf)⟩, ?_⟩
  rw [hw.name]
  exact e4

theorem Ref.Wider.refl (config : SearchConfig) : Wider config config :=
  ⟨rfl, rfl, by simp, fun _ h => h, fun _ h => h⟩

/-- C163: two searches of data sets with the same content, with the same configuration, answer alike, whatever the order in which the
data are visited and stored. -/
theorem C163_same (E : Env) (hE : E.Ok) (dt dt' : Data) (clock clock' : DatumKey → Int64) (q : DatumKey) (config : SearchConfig)
    (out out' : List ScoredDatum) (hdata : ∀ k v, Shown dt clock k v ↔ Shown dt' clock' k v) (hn : Numbers E dt clock q config)
    (h : Asked E dt clock q config out) (h' : Asked E dt' clock' q config out') : Alike config.higherIsBetter out out' :=
  ⟨C163_no_worse E hE dt dt' clock clock' q config config out out' (fun k v => (hdata k v).1) (.refl _)
      (fun k v hs => hn k v ((hdata k v).2 hs)) h h',
    C163_no_worse E hE dt' dt clock' clock q config config out' out (fun k v => (hdata k v).2) (.refl _) hn h' h⟩

/-- C163: with a smaller limit the answer is like the beginning of the answer with the larger one. -/
theorem C163_prefix (E : Env) (hE : E.Ok) (dt : Data) (clock : DatumKey → Int64) (q : DatumKey) (config config' : SearchConfig)
    (out out' : List ScoredDatum) (hl : config.limit ≤ config'.limit) (hc : config' = { config with limit := config'.limit })
    (hn : Numbers E dt clock q config) (h : Asked E dt clock q config out) (h' : Asked E dt clock q config' out') :
    Alike config.higherIsBetter out (out'.take config.limit.toNat) := by
  have hn' : Numbers E dt clock q config' := by
    intro k v hs; rw [hc]; exact hn k v hs
  obtain ⟨c, h1, h2, h3⟩ := h.topk hE hn
  obtain ⟨c', h1', h2', h3'⟩ := h'.topk hE hn'
  have hm : ∀ sd, sd ∈ c ↔ sd ∈ c' := by
    intro sd; rw [h2, h2', hc]; exact Iff.rfl
  have ho : config'.higherIsBetter = config.higherIsBetter := by rw [hc]
  rw [ho] at h3'
  have hL : config.limit.toNat ≤ config'.limit.toNat := UInt32.le_iff_toNat_le.1 hl
  have h3'' : IsTopK (better config.higherIsBetter) config.limit.toNat c' (out'.take config.limit.toNat) := by
    obtain ⟨rest, p, l, s, w⟩ := h3'
    refine ⟨out'.drop config.limit.toNat ++ rest, ?_, ?_, s.sublist (List.take_sublist _ _), ?_⟩
    · rw [← List.append_assoc, List.take_append_drop]; exact p
    · rw [List.length_take, l]; omega
    · intro r hr x hx
      rcases List.mem_append.1 hr with hr | hr
      · rw [← List.take_append_drop config.limit.toNat out'] at s
        exact (List.pairwise_append.1 s).2.2 x hx r hr
      · exact w r hr x (List.mem_of_mem_take hx)
  exact ⟨Search.topk_le (Nat.le_refl _) (fun x hx => Search.numbers_hit hn' ((h2' x).1 hx)) h1 (fun x hx => (hm x).1 hx) h3 h3'',
    Search.topk_le (Nat.le_refl _) (fun x hx => Search.numbers_hit hn ((h2 x).1 hx)) h1' (fun x hx => (hm x).2 hx) h3'' h3⟩

/-- C163: data that are not in the answer can be removed: a search without them answers alike. -/
theorem C163_unreturned (E : Env) (hE : E.Ok) (dt dt' : Data) (clock clock' : DatumKey → Int64) (q : DatumKey) (config : SearchConfig)
    (out out' : List ScoredDatum) (hsub : ∀ k v, Shown dt' clock' k v → Shown dt clock k v)
    (hkept : ∀ sd ∈ out, ∀ k v, sd.datum = ⟨some k, some v⟩ → Shown dt' clock' k v) (hn : Numbers E dt clock q config)
    (h : Asked E dt clock q config out) (h' : Asked E dt' clock' q config out') : Alike config.higherIsBetter out out' := by
  refine ⟨?_, C163_no_worse E hE dt' dt clock' clock q config config out' out hsub (.refl _) hn h' h⟩
  have hn' : Numbers E dt' clock' q config := fun k v hs => hn k v (hsub k v hs)
  obtain ⟨c, h1, h2, h3⟩ := h.topk hE hn
  obtain ⟨c', h1', h2', h3'⟩ := h'.topk hE hn'
  have hmem := fun x hx => h3.mem (x := x) hx
  -- the answer is the best of itself
  have hself : IsTopK (better config.higherIsBetter) config.limit.toNat out out := by
    have hl := h3.length_le
    obtain ⟨rest, p, l, s, w⟩ := h3
    exact ⟨[], by simp, by omega, s, by simp⟩
  have hnd : out.Nodup := by
    obtain ⟨rest, p, _⟩ := h3
    exact (List.nodup_append.1 (p.nodup_iff.2 h1)).1
  refine Search.topk_le (Nat.le_refl _) (fun x hx => Search.numbers_hit hn' ((h2' x).1 hx)) hnd ?_ hself h3'
  intro sd hsd
  obtain ⟨k, v, e1, e2, e3, e4⟩ := (h2 sd).1 (hmem sd hsd)
  exact (h2' sd).2 ⟨k, v, e1, hkept sd hsd k v e1, e3, e4⟩

namespace Search

/-- What points show. -/
theorem shown_points {xs : List F32} (h : xs.Nodup) {k : DatumKey} {v : DatumValue} (hs : Shown (exData xs) (fun _ => 1000) k v) :
    ∃ x ∈ xs, k = exPoint x ∧ v = ⟨1, [7]⟩ := by
  have := (scan_out (wf_points xs h) (range_points xs) (clock_points xs) k v).2 hs
  obtain ⟨e, he, hd⟩ := List.mem_map.1 this
  obtain ⟨w, hw, rfl⟩ := List.mem_map.1 he
  obtain ⟨x, hx, rfl⟩ := List.mem_map.1 (List.mem_filter.1 hw).1
  simp only [exStored, Datum.mk.injEq, Option.some.injEq] at hd
  exact ⟨x, hx, hd.1.symm, hd.2.symm⟩

theorem points_shown {xs : List F32} (h : xs.Nodup) {x : F32} (hx : x ∈ xs) :
    Shown (exData xs) (fun _ => 1000) (exPoint x) ⟨1, [7]⟩ := by
  refine (scan_out (wf_points xs h) (range_points xs) (clock_points xs) _ _).1 (List.mem_map.2 ⟨(exStored x).2, ?_, rfl⟩)
  refine List.mem_map.2 ⟨⟨(exStored x).1, (exStored x).2, 1000⟩, List.mem_filter.2 ⟨List.mem_map.2 ⟨x, hx, rfl⟩, ?_⟩, rfl⟩
  rfl

theorem asked_points {xs : List F32} (h : xs.Nodup) (config : SearchConfig) (hl : 0 < config.limit)
    (hn : config.scoreFuncName = "VectorDistance") {q : F32} {l : List ScoredDatum}
    (hs : listOf (search exEnv (exVisits xs) (exData xs) ⟨some (exPoint q), none⟩ (some config)) = some l) :
    Asked exEnv (exData xs) (fun _ => 1000) (exPoint q) config l := by
  refine ⟨wf_points xs h, hl, by rw [hn]; decide, exVisits xs, [], none, ?_⟩
  obtain ⟨dt', c, h1, rfl⟩ := listOf_some hs
  refine ⟨dt', range_points xs, clock_points xs, ?_⟩
  have hname : Vec.isAnnoyName "VectorDistance" = false := by decide
  unfold streamSearch
  simp only [Option.getD_some, hn, hname]
  rw [if_neg (by decide), h1]
  rfl

/-- Two results are asked for. -/
def exPair : SearchConfig := { defaultSearchConfig with limit := 2 }

end Search

/-- C163: the hypotheses can be met, and the answers are not empty: 1, 3 and 7 stored in one order and 7, 3 and 1 in another, and 1 and
3 alone; 2 is searched for, which 1 and 3 are equally near to.  The answers have the two in different orders, with equal scores. -/
theorem C163_example : ∃ l l' l'' : List ScoredDatum,
    Asked exEnv (exData [0x3F800000, 0x40400000, 0x40E00000]) (fun _ => 1000) (exPoint 0x40000000) exPair l ∧
    Asked exEnv (exData [0x40E00000, 0x40400000, 0x3F800000]) (fun _ => 1000) (exPoint 0x40000000) exPair l' ∧
    Asked exEnv (exData [0x3F800000, 0x40400000]) (fun _ => 1000) (exPoint 0x40000000) exPair l'' ∧
    Numbers exEnv (exData [0x3F800000, 0x40400000, 0x40E00000]) (fun _ => 1000) (exPoint 0x40000000) exPair ∧
    l.map (·.datum.key) = [some (exPoint 0x3F800000), some (exPoint 0x40400000)] ∧
    l'.map (·.datum.key) = [some (exPoint 0x40400000), some (exPoint 0x3F800000)] ∧
    Alike false l l' ∧ Alike false l l'' := by
  have hn : Numbers exEnv (exData [0x3F800000, 0x40400000, 0x40E00000]) (fun _ => 1000) (exPoint 0x40000000) exPair := by
    intro k v hs
    obtain ⟨x, hx, rfl, rfl⟩ := shown_points (by decide) hs
    simp only [List.mem_cons, List.not_mem_nil, or_false] at hx
    rcases hx with rfl | rfl | rfl <;> decide +kernel
  have e1 : (listOf (search exEnv (exVisits [0x3F800000, 0x40400000, 0x40E00000]) (exData [0x3F800000, 0x40400000, 0x40E00000])
      ⟨some (exPoint 0x40000000), none⟩ (some exPair))).map (·.map (·.datum.key)) =
      some [some (exPoint 0x3F800000), some (exPoint 0x40400000)] := by decide +kernel
  have e2 : (listOf (search exEnv (exVisits [0x40E00000, 0x40400000, 0x3F800000]) (exData [0x40E00000, 0x40400000, 0x3F800000])
      ⟨some (exPoint 0x40000000), none⟩ (some exPair))).map (·.map (·.datum.key)) =
      some [some (exPoint 0x40400000), some (exPoint 0x3F800000)] := by decide +kernel
  have e3 : (listOf (search exEnv (exVisits [0x3F800000, 0x40400000]) (exData [0x3F800000, 0x40400000])
      ⟨some (exPoint 0x40000000), none⟩ (some exPair))).isSome = true := by decide +kernel
  obtain ⟨l, h1, k1⟩ := Option.map_eq_some_iff.1 e1
  obtain ⟨l', h2, k2⟩ := Option.map_eq_some_iff.1 e2
  obtain ⟨l'', h3⟩ := Option.isSome_iff_exists.1 e3
  have a1 := asked_points (by decide) exPair (by decide) rfl h1
  have a2 := asked_points (by decide) exPair (by decide) rfl h2
  have a3 := asked_points (by decide) exPair (by decide) rfl h3
  refine ⟨l, l', l'', a1, a2, a3, hn, k1, k2, ?_, ?_⟩
  · refine C163_same exEnv exEnv_ok _ _ _ _ _ exPair l l' ?_ hn a1 a2
    intro k v
    constructor
    · intro hs
      obtain ⟨x, hx, rfl, rfl⟩ := shown_points (by decide) hs
      exact points_shown (by decide) (by simp only [List.mem_cons, List.not_mem_nil, or_false] at hx ⊢; rcases hx with h | h | h <;> simp [h])
    · intro hs
      obtain ⟨x, hx, rfl, rfl⟩ := shown_points (by decide) hs
      exact points_shown (by decide) (by simp only [List.mem_cons, List.not_mem_nil, or_false] at hx ⊢; rcases hx with h | h | h <;> simp [h])
  · refine C163_unreturned exEnv exEnv_ok _ _ _ _ _ exPair l l'' ?_ ?_ hn a1 a3
    · intro k v hs
      obtain ⟨x, hx, rfl, rfl⟩ := shown_points (by decide) hs
      exact points_shown (by decide) (by simp only [List.mem_cons, List.not_mem_nil, or_false] at hx ⊢; rcases hx with h | h <;> simp [h])
    · intro sd hsd k v he
      have hk : some k ∈ l.map (·.datum.key) := List.mem_map.2 ⟨sd, hsd, by rw [he]⟩
      obtain ⟨c, _, hc, ht⟩ := a1.topk exEnv_ok hn
      obtain ⟨k', v', e1, e2, _⟩ := (hc sd).1 (ht.mem hsd)
      rw [he] at e1
      simp only [Datum.mk.injEq, Option.some.injEq] at e1
      obtain ⟨rfl, rfl⟩ := e1
      obtain ⟨x, hx, rfl, rfl⟩ := shown_points (by decide) e2
      rw [k1] at hk
      refine points_shown (by decide) ?_
      simp only [List.mem_cons, List.not_mem_nil, or_false, Option.some.injEq, exPoint, DatumKey.mk.injEq, and_true, List.cons.injEq] at hk ⊢
      exact hk

end Veri
