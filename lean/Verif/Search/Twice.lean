import Verif.Search.AggProps

/-!
# When a merge returns a datum twice (C29)

`C29_no_duplicates_partial` needs data that always arrive with the same score.  Here is exactly when a merge with room
for all arrivals returns a datum twice.
-/

set_option autoImplicit false

namespace Veri

open Gencoder Store Data Search Agg Ref

namespace Agg

/-- No arrival has a greater score than the first one of the same datum. -/
def FirstBest (arr : List ScoredDatum) : Prop :=
  ∀ y ∈ arr, ∀ x, arr.find? (fun z => decide (z.datum.key = y.datum.key)) = some x → F64.lt x.score y.score = false

/-- What a merge with room for all has after the arrivals `arr`. -/
structure Merged (config : SearchConfig) (arr : List ScoredDatum) (a : Flat) : Prop where
  config : a.config = config
  context : a.context = none
  len : a.list.length ≤ arr.length
  keys : ∀ k, (∃ x ∈ a.list, x.datum.key = k) ↔ ∃ x ∈ arr, x.datum.key = k
  seen : ∀ k : DatumKey, a.seen.get? (encKey k) = none ↔ ¬ ∃ x ∈ arr, x.datum.key = some k
  nodup : (a.list.map (·.datum.key)).Nodup ↔ FirstBest arr
  first : FirstBest arr → ∀ (k : DatumKey) (x : ScoredDatum),
    arr.find? (fun z => decide (z.datum.key = some k)) = some x → a.seen.get? (encKey k) = some x.score

theorem firstBest_new {arr : List ScoredDatum} {x : ScoredDatum} (hn : ¬ ∃ y ∈ arr, y.datum.key = x.datum.key) :
    FirstBest (arr ++ [x]) ↔ FirstBest arr := by
  constructor
  · intro h y hy z hz
    exact h y (List.mem_append_left _ hy) z (by rw [List.find?_append, hz]; rfl)
  · intro h y hy z hz
    rw [List.find?_append] at hz
    rcases List.mem_append.1 hy with hy | hy
    · cases hf : arr.find? (fun z => decide (z.datum.key = y.datum.key)) with
      | none =>
        have := List.find?_eq_none.1 hf y hy
        simp at this
      | some w =>
        rw [hf] at hz
        simp only [Option.some_or, Option.some.injEq] at hz
        subst hz
        exact h y hy _ hf
    · rw [List.mem_singleton] at hy
      subst hy
      have hf : arr.find? (fun z => decide (z.datum.key = y.datum.key)) = none := by
        rw [List.find?_eq_none]
        intro w hw
        simp only [decide_eq_true_eq]
        exact fun hc => hn ⟨w, hw, hc⟩
      rw [hf] at hz
      simp at hz
      subst hz
      exact F64.lt_irrefl _

theorem firstBest_old {arr : List ScoredDatum} {x f : ScoredDatum}
    (hf : arr.find? (fun z => decide (z.datum.key = x.datum.key)) = some f) :
    FirstBest (arr ++ [x]) ↔ FirstBest arr ∧ F64.lt f.score x.score = false := by
  constructor
  · intro h
    exact ⟨fun y hy z hz => h y (List.mem_append_left _ hy) z (by rw [List.find?_append, hz]; rfl),
      h x (by simp) f (by rw [List.find?_append, hf]; rfl)⟩
  · rintro ⟨h, hx⟩ y hy z hz
    rw [List.find?_append] at hz
    rcases List.mem_append.1 hy with hy | hy
    · cases hg : arr.find? (fun z => decide (z.datum.key = y.datum.key)) with
      | none =>
        have := List.find?_eq_none.1 hg y hy
        simp at this
      | some w =>
        rw [hg] at hz
        simp only [Option.some_or, Option.some.injEq] at hz
        subst hz
        exact h y hy _ hg
    · rw [List.mem_singleton] at hy
      subst hy
      rw [hf] at hz
      simp only [Option.some_or, Option.some.injEq] at hz
      subst hz
      exact hx

theorem insertToList_room {E : Env} {a a' : Flat} {x : ScoredDatum} (hr : a.list.length < a.config.limit.toNat)
    (h : a.insertToList E x = .ok a') :
    a' = { a with list := E.sort (lessFor E.o a.config.higherIsBetter) (a.list ++ [x]) } := by
  unfold Flat.insertToList at h
  rw [if_pos ((toNat_lt_limit (Nat.le_of_lt hr)).2 hr)] at h
  injection h with h
  exact h.symm

theorem merged_step {E : Env} (hE : E.Ok) {config : SearchConfig} {arr : List ScoredDatum} {a a' : Flat}
    {x : ScoredDatum} {k : DatumKey} {v : Option DatumValue} (hx : x.datum = ⟨some k, v⟩) (hr : arr.length < config.limit.toNat)
    (m : Merged config arr a) (h : a.insert E x = .ok a') : Merged config (arr ++ [x]) a' := by
  have hkx : x.datum.key = some k := by rw [hx]
  have hroom : a.list.length < a.config.limit.toNat := by
    have := m.len
    rw [m.config]
    omega
  rw [insert_noContext E a m.context] at h
  unfold Flat.insertScored at h
  have hkb : getKeyAsBytes x.datum = some (encKey k) := by rw [hx]; exact getKeyAsBytes_some _ _
  rw [hkb] at h
  simp only [Res.ofOption_some, Res.bind_ok, encodeToString] at h
  have hlt : ∀ s, isNewScoredBetter E.o a.config s x.score = F64.lt s x.score := by
    intro s
    unfold isNewScoredBetter
    rw [hE.bits.ltD]
    split <;> rfl
  have hadd : ∀ a2 : Flat, a2 = ⟨a.config, a.context, E.sort (lessFor E.o a.config.higherIsBetter) (a.list ++ [x]),
        a.seen.set (encKey k) x.score⟩ →
      (∀ y, y ∈ a2.list ↔ y ∈ a.list ∨ y = x) ∧ a2.list.Perm (a.list ++ [x]) := by
    rintro _ rfl
    exact ⟨fun y => by simpa using (hE.sort.perm (lessFor E.o a.config.higherIsBetter) (a.list ++ [x])).mem_iff (a := y),
      hE.sort.perm _ _⟩
  have hkeys : ∀ a2 : Flat, (∀ y, y ∈ a2.list ↔ y ∈ a.list ∨ y = x) →
      ∀ q, (∃ y ∈ a2.list, y.datum.key = q) ↔ ∃ y ∈ arr ++ [x], y.datum.key = q := by
    intro a2 h2 q
    constructor
    · rintro ⟨y, hy, hq⟩
      rcases (h2 y).1 hy with hy | rfl
      · obtain ⟨z, hz, hzq⟩ := (m.keys q).1 ⟨y, hy, hq⟩
        exact ⟨z, List.mem_append_left _ hz, hzq⟩
      · exact ⟨y, by simp, hq⟩
    · rintro ⟨y, hy, hq⟩
      rcases List.mem_append.1 hy with hy | hy
      · obtain ⟨z, hz, hzq⟩ := (m.keys q).2 ⟨y, hy, hq⟩
        exact ⟨z, (h2 z).2 (Or.inl hz), hzq⟩
      · rw [List.mem_singleton] at hy
        subst hy
        exact ⟨y, (h2 y).2 (Or.inr rfl), hq⟩
  have hseen : ∀ q : DatumKey, (a.seen.set (encKey k) x.score).get? (encKey q) = none ↔
      ¬ ∃ y ∈ arr ++ [x], y.datum.key = some q := by
    intro q
    rw [AMap.get?_set]
    split
    · rename_i hq
      have := encKey_inj hq
      subst this
      simp only [reduceCtorEq, false_iff, Classical.not_not]
      exact ⟨x, by simp, hkx⟩
    · rename_i hq
      rw [m.seen q]
      simp only [List.mem_append, List.mem_singleton]
      constructor
      · rintro hn ⟨y, hy | rfl, hyq⟩
        · exact hn ⟨y, hy, hyq⟩
        · rw [hkx] at hyq
          injection hyq with hyq
          exact hq (by rw [hyq])
      · rintro hn ⟨y, hy, hyq⟩
        exact hn ⟨y, Or.inl hy, hyq⟩
  cases hs : a.seen.get? (encKey k) with
  | none =>
    rw [hs] at h
    simp only at h
    have ha := insertToList_room (by exact hroom) h
    obtain ⟨h2, hp⟩ := hadd a' ha
    have hnew : ¬ ∃ y ∈ arr, y.datum.key = x.datum.key := by rw [hkx]; exact (m.seen k).1 hs
    have hnl : x.datum.key ∉ a.list.map (·.datum.key) := by
      intro hc
      obtain ⟨y, hy, hyq⟩ := List.mem_map.1 hc
      exact hnew ((m.keys _).1 ⟨y, hy, hyq⟩)
    refine ⟨by rw [ha]; exact m.config, by rw [ha]; exact m.context, ?_, hkeys a' h2, by rw [ha]; exact hseen, ?_, ?_⟩
    · rw [hp.length_eq]
      have := m.len
      simp
      omega
    · rw [firstBest_new hnew, ← m.nodup, (hp.map _).nodup_iff, List.map_append, List.nodup_append]
      constructor
      · exact fun h => h.1
      · intro h
        refine ⟨h, by simp, ?_⟩
        intro q hq r hr heq
        simp only [List.map_cons, List.map_nil, List.mem_singleton] at hr
        subst hr
        subst heq
        exact hnl hq
    · intro hb q y hy
      rw [firstBest_new hnew] at hb
      rw [ha]
      simp only
      rw [AMap.get?_set]
      rw [List.find?_append] at hy
      split
      · rename_i hq
        have := encKey_inj hq
        subst this
        have hf : arr.find? (fun z => decide (z.datum.key = some k)) = none := by
          rw [List.find?_eq_none]
          intro w hw
          simp only [decide_eq_true_eq]
          exact fun hc => hnew ⟨w, hw, hc.trans hkx.symm⟩
        rw [hf] at hy
        simp [hkx] at hy
        rw [hy]
      · rename_i hq
        cases hf : arr.find? (fun z => decide (z.datum.key = some q)) with
        | none =>
          rw [hf] at hy
          simp only [Option.none_or, List.find?_cons, List.find?_nil] at hy
          rw [hkx] at hy
          have hkq : k ≠ q := fun hc => hq (by rw [hc])
          simp [hkq] at hy
        | some w =>
          rw [hf] at hy
          simp only [Option.some_or, Option.some.injEq] at hy
          subst hy
          exact m.first hb q _ hf
  | some p =>
    rw [hs] at h
    simp only [hlt] at h
    have hold : ∃ y ∈ arr, y.datum.key = some k := by
      apply Classical.byContradiction
      intro hc
      rw [(m.seen k).2 hc] at hs
      cases hs
    obtain ⟨f, hf⟩ : ∃ f, arr.find? (fun z => decide (z.datum.key = some k)) = some f := by
      cases hf : arr.find? (fun z => decide (z.datum.key = some k)) with
      | none =>
        obtain ⟨y, hy, hyq⟩ := hold
        have := List.find?_eq_none.1 hf y hy
        simp [hyq] at this
      | some f => exact ⟨f, rfl⟩
    have hf' : arr.find? (fun z => decide (z.datum.key = x.datum.key)) = some f := by rw [hkx]; exact hf
    by_cases hlt' : F64.lt p x.score = true
    · rw [if_pos hlt'] at h
      have ha := insertToList_room (by exact hroom) h
      obtain ⟨h2, hp⟩ := hadd a' ha
      have hfb : ¬ FirstBest (arr ++ [x]) := by
        rw [firstBest_old hf']
        rintro ⟨hb, hx⟩
        have := m.first hb k f hf
        rw [hs] at this
        injection this with this
        rw [this, hx] at hlt'
        cases hlt'
      refine ⟨by rw [ha]; exact m.config, by rw [ha]; exact m.context, ?_, hkeys a' h2, by rw [ha]; exact hseen, ?_,
        fun hb => absurd hb hfb⟩
      · rw [hp.length_eq]
        have := m.len
        simp
        omega
      · refine ⟨fun hn => ?_, fun hb => absurd hb hfb⟩
        rw [(hp.map _).nodup_iff, List.map_append, List.nodup_append] at hn
        obtain ⟨y, hy, hyq⟩ := (m.keys (some k)).2 hold
        exact absurd rfl (hn.2.2 (some k) (List.mem_map.2 ⟨y, hy, hyq⟩) (some k) (by simp [hkx]))
    · rw [if_neg hlt'] at h
      injection h with h
      subst h
      have hb' : FirstBest (arr ++ [x]) ↔ FirstBest arr := by
        rw [firstBest_old hf']
        refine ⟨fun h => h.1, fun hb => ⟨hb, ?_⟩⟩
        have := m.first hb k f hf
        rw [hs] at this
        injection this with this
        rw [← this]
        simpa using hlt'
      have hsame : ∀ q, (∃ y ∈ arr ++ [x], y.datum.key = q) ↔ ∃ y ∈ arr, y.datum.key = q := by
        intro q
        constructor
        · rintro ⟨y, hy, hyq⟩
          rcases List.mem_append.1 hy with hy | hy
          · exact ⟨y, hy, hyq⟩
          · rw [List.mem_singleton] at hy
            subst hy
            obtain ⟨z, hz, hzq⟩ := hold
            exact ⟨z, hz, by rw [hzq, ← hkx, hyq]⟩
        · rintro ⟨y, hy, hyq⟩
          exact ⟨y, List.mem_append_left _ hy, hyq⟩
      refine ⟨m.config, m.context, ?_, fun q => by rw [m.keys, hsame], fun q => by rw [m.seen, hsame], by rw [m.nodup, hb'], ?_⟩
      · have := m.len
        simp
        omega
      · intro hb q y hy
        rw [hb'] at hb
        rw [List.find?_append] at hy
        cases hg : arr.find? (fun z => decide (z.datum.key = some q)) with
        | none =>
          rw [hg] at hy
          simp only [Option.none_or, List.find?_cons, List.find?_nil, hkx] at hy
          have hkq : k ≠ q := by
            rintro rfl
            rw [hf] at hg
            cases hg
          simp [hkq] at hy
        | some w =>
          rw [hg] at hy
          simp only [Option.some_or, Option.some.injEq] at hy
          subst hy
          exact m.first hb q _ hg

theorem merged_all {E : Env} (hE : E.Ok) {config : SearchConfig} : ∀ (new arr : List ScoredDatum) (a a' : Flat),
    Ref.Keyed new → arr.length + new.length ≤ config.limit.toNat → Merged config arr a → a.insertAll E new = .ok a' →
    Merged config (arr ++ new) a'
  | [], arr, a, a', _, _, m, h => by
    simp only [Flat.insertAll, Res.ok.injEq] at h
    subst h
    simpa using m
  | x :: new, arr, a, a', hk, hl, m, h => by
    rw [Flat.insertAll] at h
    cases hi : a.insert E x with
    | panic => rw [hi] at h; cases h
    | err e => rw [hi] at h; cases h
    | ok a1 =>
      rw [hi] at h
      obtain ⟨k, v, hx⟩ := hk x List.mem_cons_self
      simp only [List.length_cons] at hl
      have := merged_all hE new (arr ++ [x]) a1 a' (fun y hy => hk y (List.mem_cons_of_mem _ hy))
        (by simp; omega) (merged_step hE hx (by omega) m hi) h
      simpa using this

end Agg

/-- C29, exactly, for a merge with room for all arrivals: no datum is returned twice just if no arrival has a greater score
than the first arrival of the same datum - in both directions, and whatever the scores are. -/
theorem C29_no_duplicates_exact (E : Env) (hE : E.Ok) (config : SearchConfig) (arr : List ScoredDatum) (a : Flat)
    (hk : Ref.Keyed arr) (hfit : arr.length ≤ config.limit.toNat)
    (h : (newFlat config none).insertAll E arr = .ok a) :
    (a.list.map (·.datum.key)).Nodup ↔
      ∀ y ∈ arr, ∀ x, arr.find? (fun z => decide (z.datum.key = y.datum.key)) = some x → F64.lt x.score y.score = false := by
  have m0 : Merged config [] (newFlat config none) :=
    ⟨rfl, rfl, Nat.le_refl _, fun k => by simp [newFlat], fun k => by simp [newFlat], by simp [newFlat, FirstBest],
      fun _ k x hx => by simp at hx⟩
  have m := merged_all hE arr [] (newFlat config none) a hk (by simpa using hfit) m0 h
  exact m.nodup

/-- Non-vacuity of `C29_no_duplicates_exact`: a datum that comes with score 1 and then 2 is returned twice, with score 2 and
then 1 once. -/
theorem C29_exact_example :
    flatList ((newFlat { defaultSearchConfig with higherIsBetter := true } none).insertAll exEnv [exHit F64.one 0, exHit two 0]) =
      some [exHit two 0, exHit F64.one 0] ∧
    flatList ((newFlat { defaultSearchConfig with higherIsBetter := true } none).insertAll exEnv [exHit two 0, exHit F64.one 0]) = some [exHit two 0] ∧
    Ref.Keyed [exHit two 0, exHit F64.one 0] ∧ 2 ≤ defaultSearchConfig.limit.toNat := by
  refine ⟨by decide +kernel, by decide +kernel, ?_, by decide⟩
  intro x hx
  simp only [List.mem_cons, List.not_mem_nil, or_false] at hx
  rcases hx with rfl | rfl <;> exact ⟨_, _, rfl⟩

end Veri
