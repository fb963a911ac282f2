import Verif.Search.AggProps

/-!
# Scores of groups in a search with a context (C74)

`C74_group_score_kept_partial` is for searches without context data.  Here is the score that a group gets in every
search with context data.
-/

set_option autoImplicit false

namespace Veri

open Gencoder Store Data Search Agg Ref

namespace Agg

theorem insertScored_mem {E : Env} (hE : IsSort E.sort) {a a' : Flat} {sd : ScoredDatum}
    (h : a.insertScored E sd = .ok a') : a.Same a' ∧ ∀ x ∈ a'.list, x ∈ a.list ∨ x = sd := by
  have hlist : ∀ b b' : Flat, b.insertToList E sd = .ok b' → ∀ x ∈ b'.list, x ∈ b.list ∨ x = sd := by
    intro b b' hb
    unfold Flat.insertToList at hb
    split at hb
    · injection hb with hb; subst hb
      exact fun x hx => by simpa using (hE.perm _ _).mem_iff.1 hx
    · cases hg : b.list.getLast? with
      | none => rw [hg] at hb; simp at hb
      | some last =>
        rw [hg] at hb
        simp only [Res.ofOption_some, Res.bind_ok] at hb
        split at hb
        · injection hb with hb; subst hb
          intro x hx
          rcases List.mem_append.1 ((hE.perm _ _).mem_iff.1 hx) with h1 | h1
          · exact Or.inl (List.dropLast_subset _ h1)
          · exact Or.inr (by simpa using h1)
        · injection hb with hb; subst hb; exact fun x hx => Or.inl hx
  refine ⟨insertScored_same h, ?_⟩
  unfold Flat.insertScored at h
  cases hk : getKeyAsBytes sd.datum with
  | none => rw [hk] at h; simp at h
  | some kb =>
    rw [hk] at h
    simp only [Res.ofOption_some, Res.bind_ok] at h
    split at h
    · split at h
      · have := hlist _ _ h; exact this
      · injection h with h; subst h; exact fun x hx => Or.inl hx
    · have := hlist _ _ h; exact this

theorem insertOnes_rescored {E : Env} (hE : IsSort E.sort) : ∀ (gs : List Flat) (a a' : Flat),
    insertOnes E a gs = .ok a' →
    ∀ x ∈ a'.list, x ∈ a.list ∨ ∃ g ∈ gs, ∃ r s, g.one E.o = some r ∧ bestScore E.o a.config a.context r = .ok s ∧
      x = { r with score := s }
  | [], a, a', h => by
    simp only [insertOnes, Res.ok.injEq] at h
    subst h; exact fun x hx => Or.inl hx
  | g :: gs, a, a', h => by
    rw [insertOnes] at h
    cases ho : g.one E.o with
    | none => rw [ho] at h; cases h
    | some sd =>
      rw [ho] at h
      simp only [Res.ofOption_some, Res.bind_ok] at h
      cases hi : a.insert E sd with
      | panic => rw [hi] at h; cases h
      | err e => rw [hi] at h; cases h
      | ok a1 =>
        rw [hi] at h
        unfold Flat.insert at hi
        cases hs : bestScore E.o a.config a.context sd with
        | panic => rw [hs] at hi; cases hi
        | err e => rw [hs] at hi; cases hi
        | ok s =>
          rw [hs] at hi
          obtain ⟨h1, h2⟩ := insertScored_mem hE (sd := { sd with score := s }) hi
          intro x hx
          rcases insertOnes_rescored hE gs a1 a' h x hx with h3 | ⟨g', h3, r, s', h4, h5, h6⟩
          · rcases h2 x h3 with h4 | h4
            · exact Or.inl h4
            · exact Or.inr ⟨g, List.mem_cons_self, sd, s, ho, hs, h4⟩
          · rw [h1.1, h1.2] at h5
            exact Or.inr ⟨g', List.mem_cons_of_mem _ h3, r, s', h4, h5, h6⟩

end Agg

/-- C74, exactly: in a grouped search with context data every result stands for a group, and its score is the largest of
the scores of its datum against the context data and, unless the context is prioritised, the score of the group.  (As in
C32, in both directions.) -/
theorem C74_group_score_exact (E : Env) (hE : E.Ok) (a : Grouped) (order : List (Bytes × Flat))
    (out : List ScoredDatum) (ctx : SearchContext) (keys : List DatumKey) (hctx : a.context = some ctx)
    (hkeys : ctx.datum.map (·.key) = keys.map some) (hne : keys ≠ [])
    (hcfg : ∀ p ∈ order, p.2.config.higherIsBetter = a.config.higherIsBetter)
    (hn : ∀ p ∈ order, ∀ r k, Ref.Represents E.o a.config.higherIsBetter p.2.list r → r.datum.key = some k →
      ∀ s ∈ r.score :: contextScores E.o a.config k keys, F64.isNaN s = false)
    (h : a.result E order = .ok out) :
    ∀ sd ∈ out, ∃ p ∈ order, ∃ r k, Ref.Represents E.o a.config.higherIsBetter p.2.list r ∧ r.datum.key = some k ∧
      sd.datum = r.datum ∧
      Ref.IsBest true ((if ctx.prioritize then [] else [r.score]) ++ contextScores E.o a.config k keys) sd.score := by
  unfold Grouped.result at h
  cases hi : insertOnes E (newFlat a.config a.context) (order.map (·.2)) with
  | panic => rw [hi] at h; cases h
  | err e => rw [hi] at h; cases h
  | ok f =>
    rw [hi] at h
    simp only [Res.bind_ok] at h
    have hsub : ∀ sd ∈ out, sd ∈ f.list := by
      rw [result_eq] at h
      split at h
      · injection h with h; subst h; exact fun _ h => h
      · split at h
        · cases h
        · injection h with h; subst h; exact fun _ h => List.mem_of_mem_take h
    intro sd hsd
    obtain ⟨g, hg, r, s, ho, hs, hx⟩ := (insertOnes_rescored hE.sort _ _ _ hi sd (hsub sd hsd)).resolve_left (by simp [newFlat])
    obtain ⟨p, hp, rfl⟩ := List.mem_map.1 hg
    have hl : p.2.list ≠ [] := by
      intro hn; unfold Flat.one at ho; rw [hn] at ho; cases ho
    obtain ⟨r', h1, h2⟩ := one_represents E.o p.2 hl
    rw [ho] at h1; injection h1 with h1; subst h1
    rw [hcfg p hp] at h2
    have hs' : bestScore E.o a.config (some ctx) r = .ok s := by rw [← hctx]; exact hs
    have hd : ctx.datum.isEmpty = false := by
      cases h : ctx.datum with
      | nil => rw [h] at hkeys; exact absurd (List.map_eq_nil_iff.1 hkeys.symm) hne
      | cons _ _ => rfl
    cases hk : r.datum.key with
    | none =>
      unfold bestScore at hs'
      simp only [hd, Bool.false_eq_true, if_false, hk] at hs'
      cases hs'
    | some k =>
      obtain ⟨s', g1, g2⟩ := C32_context_largest E hE a.config ctx r k keys hk hkeys hne (hn p hp r k h2 hk)
      rw [hs'] at g1
      injection g1 with g1
      subst g1
      subst hx
      exact ⟨p, hp, r, k, h2, hk, rfl, g2⟩

/-- The arrivals of `C74_group_score_kept_fails`, merged. -/
def exMerged : Option Grouped :=
  match (newGrouped exGroupConfig (some ⟨[⟨some (exPoint 0), none⟩], true⟩)).insertAll exEnv
      [exGrouped two 0 [1], exGrouped two 0x3F800000 [1]] with
  | .ok a => some a
  | _ => none

/-- Non-vacuity of `C74_group_score_exact`: the search of `C74_group_score_kept_fails`; the group's score is 1/4, that of
the answer 0. -/
theorem C74_exact_example :
    ∃ (a : Grouped), exMerged = some a ∧ a.result exEnv a.groups = .ok [exGrouped 0 0 [1]] ∧
      a.context = some ⟨[⟨some (exPoint 0), none⟩], true⟩ ∧
      (∀ p ∈ a.groups, p.2.config.higherIsBetter = a.config.higherIsBetter) ∧
      ∀ p ∈ a.groups, ∀ r k, Ref.Represents exEnv.o a.config.higherIsBetter p.2.list r → r.datum.key = some k →
        ∀ s ∈ r.score :: contextScores exEnv.o a.config k [exPoint 0], F64.isNaN s = false := by
  have hs : exMerged.isSome = true := by decide +kernel
  obtain ⟨a, ha⟩ := Option.isSome_iff_exists.1 hs
  have h1 : (exMerged.bind fun a => match a.result exEnv a.groups with
      | .ok out => some out
      | _ => none) = some [exGrouped 0 0 [1]] := by decide +kernel
  have h2 : (exMerged.map fun a => decide (a.context = some ⟨[⟨some (exPoint 0), none⟩], true⟩)) = some true := by decide +kernel
  have h3 : (exMerged.map fun a => decide (a.groups.map (fun p => (p.2.config.higherIsBetter, p.2.list)) =
      [(a.config.higherIsBetter, [exGrouped 0 0 [1], exGrouped F64.one 0x3F800000 [1]])])) = some true := by decide +kernel
  have h4 : (exMerged.map fun a => (exGrouped 0 0 [1]).datum.key.map fun k =>
      (Ref.groupScore exEnv.o a.config.higherIsBetter [0, F64.one] :: contextScores exEnv.o a.config k [exPoint 0]).all
        fun s => !F64.isNaN s) = some (some true) := by unfold contextScores; decide +kernel
  rw [ha] at h1 h2 h3 h4
  simp only [Option.map_some, Option.some.injEq, decide_eq_true_eq] at h2 h3 h4
  have h1 : a.result exEnv a.groups = .ok [exGrouped 0 0 [1]] := by
    simp only [Option.bind_some] at h1
    cases hr : a.result exEnv a.groups with
    | panic => rw [hr] at h1; cases h1
    | err e => rw [hr] at h1; cases h1
    | ok out => rw [hr] at h1; injection h1 with h1; rw [h1]
  have hg : ∀ p ∈ a.groups, p.2.config.higherIsBetter = a.config.higherIsBetter ∧
      p.2.list = [exGrouped 0 0 [1], exGrouped F64.one 0x3F800000 [1]] := by
    intro p hp
    have := List.mem_map_of_mem (f := fun p : Bytes × Flat => (p.2.config.higherIsBetter, p.2.list)) hp
    rw [h3, List.mem_singleton] at this
    exact ⟨congrArg Prod.fst this, congrArg Prod.snd this⟩
  refine ⟨a, ha, h1, h2, fun p hp => (hg p hp).1, ?_⟩
  intro p hp r k hr hk s hsm
  obtain ⟨⟨first, rest, hfr, hd⟩, hsc⟩ := hr
  rw [(hg p hp).2] at hfr hsc
  cases hfr
  rw [hd] at hk
  rw [hk] at h4
  simp only [Option.map_some, Option.some.injEq, List.all_eq_true, Bool.not_eq_true'] at h4
  rw [hsc] at hsm
  exact h4 s hsm

end Veri
