import Verif.Dataset.Load

/-!
# Which of several concurrent upgrades wins (C78)

`C78_version_partial` says that the version does not fall below the first one.  Here is exactly which configuration a
data set can have after a number of requests, served at the same time, have all been answered.
-/

set_option autoImplicit false

namespace Veri

open DS

namespace DS

/-- The runs of `UpStep` in which the requests `rs` have been checked, in this order. -/
inductive UpRuns (u0 : Up) : List DataConfig → Up → Prop
  | refl : UpRuns u0 [] u0
  /-- data/dataset.go:120, the version is higher -/
  | higher {rs : List DataConfig} {u : Up} (c : DataConfig) : UpRuns u0 rs u → c.version > u.cur.version →
      UpRuns u0 (rs ++ [c]) ⟨u.cur, u.pending ++ [c]⟩
  /-- line 120, it is not -/
  | notHigher {rs : List DataConfig} {u : Up} (c : DataConfig) : UpRuns u0 rs u → ¬ c.version > u.cur.version →
      UpRuns u0 (rs ++ [c]) u
  /-- line 122 -/
  | set {rs : List DataConfig} {u : Up} (i : Nat) (c : DataConfig) : UpRuns u0 rs u → u.pending[i]? = some c →
      UpRuns u0 rs ⟨c, u.pending.eraseIdx i⟩

/-- They are runs of the machine of C78. -/
theorem UpRuns.reach {u0 u : Up} {rs : List DataConfig} (h : UpRuns u0 rs u) : UpReach u0 u := by
  induction h with
  | refl => exact .refl
  | higher c _ hv ih => exact .step ih (.higher _ c hv)
  | notHigher c _ hv ih => exact .step ih (.notHigher _ c hv)
  | set i c _ hc ih => exact .step ih (.set _ i c hc)

theorem upRuns_inv {c0 : DataConfig} {rs : List DataConfig} {u : Up} (h : UpRuns ⟨c0, []⟩ rs u) :
    (∀ p ∈ u.pending, p ∈ rs ∧ p.version > c0.version) ∧
    ((u.cur = c0 ∧ ∀ r ∈ rs, r ∈ u.pending ∨ ¬ r.version > c0.version) ∨ (u.cur ∈ rs ∧ u.cur.version > c0.version)) := by
  induction h with
  | refl => exact ⟨by simp, Or.inl ⟨rfl, by simp⟩⟩
  | @higher rs u c _ hv ih =>
    obtain ⟨h1, h2⟩ := ih
    have hc : c.version > c0.version := by
      rcases h2 with ⟨h, _⟩ | ⟨_, h⟩
      · rw [← h]; exact hv
      · exact UInt64.lt_trans h hv
    refine ⟨?_, ?_⟩
    · intro p hp
      rcases List.mem_append.1 hp with hp | hp
      · exact ⟨List.mem_append_left _ (h1 p hp).1, (h1 p hp).2⟩
      · rw [List.mem_singleton] at hp
        subst hp
        exact ⟨by simp, hc⟩
    · rcases h2 with ⟨h, h3⟩ | ⟨h, h3⟩
      · refine Or.inl ⟨h, fun r hr => ?_⟩
        rcases List.mem_append.1 hr with hr | hr
        · exact (h3 r hr).imp_left (List.mem_append_left _)
        · exact Or.inl (List.mem_append_right _ hr)
      · exact Or.inr ⟨List.mem_append_left _ h, h3⟩
  | @notHigher rs u c _ hv ih =>
    obtain ⟨h1, h2⟩ := ih
    refine ⟨fun p hp => ⟨List.mem_append_left _ (h1 p hp).1, (h1 p hp).2⟩, ?_⟩
    rcases h2 with ⟨h, h3⟩ | ⟨h, h3⟩
    · refine Or.inl ⟨h, fun r hr => ?_⟩
      rcases List.mem_append.1 hr with hr | hr
      · exact h3 r hr
      · rw [List.mem_singleton] at hr
        subst hr
        rw [h] at hv
        exact Or.inr hv
    · exact Or.inr ⟨List.mem_append_left _ h, h3⟩
  | @set rs u i c _ hc ih =>
    obtain ⟨h1, _⟩ := ih
    exact ⟨fun p hp => h1 p (List.mem_of_mem_eraseIdx hp), Or.inr (h1 c (List.mem_of_getElem? hc))⟩

/-- All requests can be checked before the first assignment. -/
theorem upRuns_check (c0 : DataConfig) : ∀ new rs p, UpRuns ⟨c0, []⟩ rs ⟨c0, p⟩ →
    UpRuns ⟨c0, []⟩ (rs ++ new) ⟨c0, p ++ new.filter fun r => decide (r.version > c0.version)⟩
  | [], rs, p, h => by simpa using h
  | c :: new, rs, p, h => by
    by_cases hc : c.version > c0.version
    · have := upRuns_check c0 new (rs ++ [c]) (p ++ [c]) (.higher c h hc)
      simpa [hc] using this
    · have := upRuns_check c0 new (rs ++ [c]) p (.notHigher c h hc)
      rw [List.append_assoc, List.singleton_append] at this
      rw [List.filter_cons_of_neg (by simpa using hc)]
      exact this

/-- Any of the requests waiting can be the last to assign. -/
theorem upRuns_last {u0 : Up} {rs : List DataConfig} {c : DataConfig} : ∀ (n : Nat) (p : List DataConfig) (x : DataConfig),
    p.length = n → c ∈ p → UpRuns u0 rs ⟨x, p⟩ → UpRuns u0 rs ⟨c, []⟩
  | 0, p, x, hn, hc, _ => by
    rw [List.length_eq_zero_iff] at hn
    subst hn
    simp at hc
  | n + 1, [], x, hn, hc, _ => by simp at hc
  | n + 1, a :: q, x, hn, hc, h => by
    by_cases hq : c ∈ q
    · exact upRuns_last n q a (by simpa using hn) hq (.set 0 a h rfl)
    · have ha : c = a := by
        rcases List.mem_cons.1 hc with h | h
        · exact h
        · exact absurd h hq
      cases q with
      | nil => exact ha ▸ .set 0 a h rfl
      | cons b r => exact upRuns_last n (a :: r) b (by simpa using hn) (by simp [ha]) (.set 1 b h rfl)

end DS

/-- C78: `UpRuns` are all the runs of the machine of C78, with the requests written down. -/
theorem C78_runs (u0 u : Up) : UpReach u0 u ↔ ∃ rs : List DataConfig, UpRuns u0 rs u := by
  constructor
  · intro h
    induction h with
    | refl => exact ⟨[], .refl⟩
    | step _ hs ih =>
      obtain ⟨rs, ih⟩ := ih
      cases hs with
      | higher c hv => exact ⟨_, .higher c ih hv⟩
      | notHigher c hv => exact ⟨_, .notHigher c ih hv⟩
      | set i c hc => exact ⟨_, .set i c ih hc⟩
  · rintro ⟨rs, h⟩
    exact h.reach

/-- C78, exactly: after the requests `reqs` have all been served, at the same time and in any order, the data set can have a
configuration just if it is one of those with a higher version than the first one, whichever of them, or if there is none and
it is the first one. -/
theorem C78_version_exact (c0 c : DataConfig) (reqs : List DataConfig) :
    (∃ rs : List DataConfig, rs.Perm reqs ∧ UpRuns ⟨c0, []⟩ rs ⟨c, []⟩) ↔
      (c = c0 ∧ ∀ r ∈ reqs, ¬ r.version > c0.version) ∨ (c ∈ reqs ∧ c.version > c0.version) := by
  constructor
  · rintro ⟨rs, hp, h⟩
    rcases (upRuns_inv h).2 with ⟨h1, h2⟩ | ⟨h1, h2⟩
    · exact Or.inl ⟨h1, fun r hr => (h2 r (hp.mem_iff.2 hr)).resolve_left (by simp)⟩
    · exact Or.inr ⟨hp.mem_iff.1 h1, h2⟩
  · intro h
    have hr := upRuns_check c0 reqs [] [] .refl
    simp only [List.nil_append] at hr
    refine ⟨reqs, .refl _, ?_⟩
    rcases h with ⟨rfl, h⟩ | ⟨h1, h2⟩
    · rwa [List.filter_eq_nil_iff.2 (fun r hr => by simpa using h r hr)] at hr
    · exact upRuns_last _ _ c0 rfl (List.mem_filter.2 ⟨h1, by simpa using h2⟩) hr

/-- Non-vacuity of `C78_version_exact`: of the versions 2, 3 and 1, requested at the same time of a data set of version 1,
version 2 may be what remains. -/
theorem C78_exact_example : ∃ rs : List DataConfig, rs.Perm [exA 2, exA 3, exA 1] ∧ UpRuns ⟨exA 1, []⟩ rs ⟨exA 2, []⟩ :=
  (C78_version_exact _ _ _).2 (Or.inr ⟨by simp, by decide⟩)

end Veri
