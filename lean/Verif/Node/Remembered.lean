import Verif.Node.Contents
/-
C174: how long a node remembers the ids of queries, and how many it remembers.
-/
set_option autoImplicit false
namespace Veri
open Net

namespace Ref
open Iso

/-- The times do not go back. -/
def InTime {σ α : Type} (rs : List (Int × Req σ α)) : Prop := rs.Pairwise fun a b => a.1 ≤ b.1

/-- When a query with this id was asked. -/
def AskedAt {σ α : Type} (rs : List (Int × Req σ α)) (u : String) (t : Int) : Prop :=
  ∃ fresh c f, (t, Req.search fresh c f) ∈ rs ∧ c.uuid = u

/-- The ids of the queries asked from `t` on, with repetitions. -/
def idsSince {σ α : Type} (t : Int) (rs : List (Int × Req σ α)) : List String :=
  rs.filterMap fun r =>
    match r.2 with
    | .search _ c _ => if t ≤ r.1 then some c.uuid else none
    | _ => none

end Ref
open Iso Ref

namespace Iso
variable {σ α : Type}

theorem give_queries {n n' : Node} {x : Res (DS.DL × Ans σ α)} {a : Ans σ α} (h : give n x = .ok (n', a)) : n'.queries = n.queries := by
  cases x with
  | ok p =>
    simp only [give, Res.ok.injEq, Prod.mk.injEq] at h
    rw [← h.1]
  | err e =>
    simp only [give, Res.ok.injEq, Prod.mk.injEq] at h
    rw [← h.1]
  | panic => cases h

/-- What one request does to the ids. -/
theorem serve_queries {X : DS.XEnv} {now : Int} {n n' : Node} {r : Req σ α} {a : Ans σ α} (h : serve X now n r = .ok (n', a)) :
    (n'.queries = n.queries ∧ ¬ r = .forget) ∨
    (r = .forget ∧ n'.queries = n.queries.filter fun p => alive now p.2) ∨
    ∃ fresh c f, r = .search fresh c f ∧ n'.queries = n.queries.set c.uuid (some (now + 5 * minute)) := by
  cases r with
  | search fresh c f =>
    simp only [serve] at h
    split at h
    · simp only [Res.ok.injEq, Prod.mk.injEq] at h
      exact Or.inl ⟨by rw [← h.1], by simp⟩
    · rename_i n1 u hq
      have hg := give_queries h
      unfold queryEntry at hq
      split at hq
      · simp only [Option.some.injEq, Prod.mk.injEq] at hq
        exact Or.inl ⟨by rw [hg, ← hq.1], by simp⟩
      · split at hq
        · split at hq
          · cases hq
          · simp only [Option.some.injEq, Prod.mk.injEq] at hq
            exact Or.inr (Or.inr ⟨fresh, c, f, rfl, by rw [hg, ← hq.1]⟩)
        · simp only [Option.some.injEq, Prod.mk.injEq] at hq
          exact Or.inr (Or.inr ⟨fresh, c, f, rfl, by rw [hg, ← hq.1]⟩)
  | forget =>
    simp only [serve, Res.ok.injEq, Prod.mk.injEq] at h
    exact Or.inr (Or.inl ⟨rfl, by rw [← h.1]⟩)
  | janitor => exact Or.inl ⟨give_queries (by simpa only [serve] using h), by simp⟩
  | reload info so ks => exact Or.inl ⟨give_queries (by simpa only [serve] using h), by simp⟩
  | walk order => exact Or.inl ⟨give_queries (by simpa only [serve] using h), by simp⟩
  | insert nowS order call w name datum config => exact Or.inl ⟨give_queries (by simpa only [serve] using h), by simp⟩
  | info name => exact Or.inl ⟨give_queries (by simpa only [serve] using h), by simp⟩
  | create c => exact Or.inl ⟨give_queries (by simpa only [serve] using h), by simp⟩
  | delete name => exact Or.inl ⟨give_queries (by simpa only [serve] using h), by simp⟩
  | stream name f => exact Or.inl ⟨give_queries (by simpa only [serve] using h), by simp⟩
  | source id c => exact Or.inl ⟨give_queries (by simpa only [serve] using h), by simp⟩

/-- Each id is that of a query, its time to live has begun with it, and no clean-up has come after its end. -/
def Fresh (done : List (Int × Req σ α)) (n : Node) : Prop :=
  n.queries.Nodup ∧ ∀ u e, n.queries.get? u = some e → ∃ t, AskedAt done u t ∧ e = some (t + 5 * minute) ∧
    ∀ tf, (tf, (Req.forget : Req σ α)) ∈ done → tf ≤ t + 5 * minute

theorem fresh_serve {X : DS.XEnv} {now : Int} {n n' : Node} {r : Req σ α} {a : Ans σ α} {done : List (Int × Req σ α)}
    (hf : Fresh done n) (ht : ∀ p ∈ done, p.1 ≤ now) (h : serve X now n r = .ok (n', a)) : Fresh (done ++ [(now, r)]) n' := by
  obtain ⟨h1, h2⟩ := hf
  have up : ∀ {u t}, AskedAt done u t → AskedAt (done ++ [(now, r)]) u t := by
    rintro u t ⟨fresh, c, f, hm, hc⟩
    exact ⟨fresh, c, f, List.mem_append_left _ hm, hc⟩
  rcases serve_queries h with ⟨e1, e2⟩ | ⟨rfl, e1⟩ | ⟨fresh, c, f, rfl, e1⟩
  · refine ⟨e1 ▸ h1, ?_⟩
    intro u e hu
    rw [e1] at hu
    obtain ⟨t, x1, x2, x3⟩ := h2 u e hu
    refine ⟨t, up x1, x2, ?_⟩
    intro tf htf
    rcases List.mem_append.mp htf with htf | htf
    · exact x3 tf htf
    · simp only [List.mem_singleton, Prod.mk.injEq] at htf
      exact absurd htf.2.symm e2
  · refine ⟨e1 ▸ h1.sublist (List.filter_sublist.map _), ?_⟩
    intro u e hu
    rw [e1, get?_forget h1, Option.filter_eq_some_iff] at hu
    obtain ⟨t, x1, x2, x3⟩ := h2 u e hu.1
    refine ⟨t, up x1, x2, ?_⟩
    intro tf htf
    rcases List.mem_append.mp htf with htf | htf
    · exact x3 tf htf
    · simp only [List.mem_singleton, Prod.mk.injEq] at htf
      rw [htf.1]
      have := hu.2
      rw [x2] at this
      simpa [alive] using this
  · refine ⟨e1 ▸ AMap.nodup_set h1 _ _, ?_⟩
    intro u e hu
    rw [e1] at hu
    by_cases hc : c.uuid = u
    · subst hc
      rw [AMap.get?_set_self] at hu
      cases hu
      refine ⟨now, ⟨fresh, c, f, List.mem_append_right _ List.mem_cons_self, rfl⟩, rfl, ?_⟩
      intro tf htf
      have : tf ≤ now := by
        rcases List.mem_append.mp htf with htf | htf
        · exact ht _ htf
        · simp only [List.mem_singleton, Prod.mk.injEq] at htf
          rw [htf.1]
          exact Int.le_refl _
      simp only [minute]
      omega
    · rw [AMap.get?_set_ne _ _ hc] at hu
      obtain ⟨t, x1, x2, x3⟩ := h2 u e hu
      refine ⟨t, up x1, x2, ?_⟩
      intro tf htf
      rcases List.mem_append.mp htf with htf | htf
      · exact x3 tf htf
      · simp at htf

theorem fresh_run {X : DS.XEnv} : ∀ {rs done : List (Int × Req σ α)} {n n' : Node} {as : List (Ans σ α)}, Fresh done n →
    InTime (done ++ rs) → run X rs n = .ok (n', as) → Fresh (done ++ rs) n'
  | [], done, n, n', as, hf, _, h => by
    simp only [run, Res.ok.injEq, Prod.mk.injEq] at h
    rw [List.append_nil, ← h.1]
    exact hf
  | (t, r) :: rs, done, n, n', as, hf, ht, h => by
    simp only [run] at h
    obtain ⟨⟨n1, a⟩, h1, h⟩ := ok_of_bind h
    obtain ⟨⟨n2, as2⟩, h2, h⟩ := ok_of_bind h
    simp only [Res.ok.injEq, Prod.mk.injEq] at h
    obtain ⟨rfl, rfl⟩ := h
    have hd : ∀ p ∈ done, p.1 ≤ t := by
      intro p hp
      exact (List.pairwise_append.mp ht).2.2 p hp (t, r) List.mem_cons_self
    have he : done ++ (t, r) :: rs = (done ++ [(t, r)]) ++ rs := by simp
    rw [he] at ht ⊢
    exact fresh_run (fresh_serve hf hd h1) ht h2

theorem mem_idsSince {rs : List (Int × Req σ α)} {u : String} {t t0 : Int} (h : AskedAt rs u t) (ht : t0 ≤ t) : u ∈ idsSince t0 rs := by
  obtain ⟨fresh, c, f, hm, rfl⟩ := h
  refine List.mem_filterMap.mpr ⟨_, hm, ?_⟩
  simp [ht]

end Iso

/-- C174.  Of the queries with an id of their own that a node has been asked, it remembers the ids of those of the last five
minutes before its last clean-up, and of those since: with a clean-up each minute, of the last six minutes. -/
theorem C174_remembered {σ α : Type} (X : DS.XEnv) (rs : List (Int × Req σ α)) (n n' : Node) (as : List (Ans σ α))
    (hn : n.queries = []) (ht : InTime rs) (h : run X rs n = .ok (n', as)) (u : String) (hu : u ∈ n'.queries.keys) :
    ∃ t, AskedAt rs u t ∧ ∀ tf, (tf, (Req.forget : Req σ α)) ∈ rs → tf - 5 * minute ≤ t := by
  have hf : Fresh ([] : List (Int × Req σ α)) n := by
    refine ⟨hn ▸ AMap.nodup_nil, ?_⟩
    intro u e he
    rw [hn] at he
    cases he
  have := fresh_run hf (by simpa using ht) h
  rw [List.nil_append] at this
  obtain ⟨h1, h2⟩ := this
  obtain ⟨p, hp, rfl⟩ := List.mem_map.mp hu
  obtain ⟨t, x1, -, x3⟩ := h2 p.1 p.2 ((AMap.mem_iff_get? h1).mp hp)
  exact ⟨t, x1, fun tf htf => by have := x3 tf htf; omega⟩

/-- C174, the number: at most as many as there were queries in that time. -/
theorem C174_bounded {σ α : Type} (X : DS.XEnv) (rs : List (Int × Req σ α)) (n n' : Node) (as : List (Ans σ α))
    (hn : n.queries = []) (ht : InTime rs) (h : run X rs n = .ok (n', as)) (tf : Int) (hf : (tf, (Req.forget : Req σ α)) ∈ rs) :
    n'.queries.length ≤ (idsSince (tf - 5 * minute) rs).length := by
  have hf0 : Fresh ([] : List (Int × Req σ α)) n := by
    refine ⟨hn ▸ AMap.nodup_nil, ?_⟩
    intro u e he
    rw [hn] at he
    cases he
  have := fresh_run hf0 (by simpa using ht) h
  rw [List.nil_append] at this
  have hl : n'.queries.length = n'.queries.keys.length := by unfold AMap.keys; rw [List.length_map]
  rw [hl]
  refine List.Nodup.length_le_of_subset this.1 ?_
  intro u hu
  obtain ⟨t, x1, x2⟩ := C174_remembered X rs n n' as hn ht h u hu
  exact mem_idsSince x1 (x2 tf hf)

namespace Iso

/-- Two queries, seven minutes between them, and a clean-up after each. -/
def exQuiet : List (Int × Req Unit Nat) :=
  [(0, exSearch "a" "p"), (minute, .forget), (7 * minute, exSearch "a" "q"), (8 * minute, .forget)]

end Iso

/-- C174: one id is left of two. -/
theorem C174_example : exNode.queries = [] ∧ InTime exQuiet ∧ idsSince (3 * minute) exQuiet = ["q"] ∧
    ∃ n' as, run (DS.toy 0) exQuiet exNode = .ok (n', as) ∧ n'.queries.keys = ["q"] := by
  refine ⟨rfl, by unfold InTime; decide, by decide, ?_⟩
  have h : (match run (DS.toy 0) exQuiet exNode with
      | .ok (n', _) => decide (n'.queries.keys = ["q"])
      | _ => false) = true := by decide +kernel
  cases hr : run (DS.toy 0) exQuiet exNode with
  | err _ => rw [hr] at h; cases h
  | panic => rw [hr] at h; cases h
  | ok p =>
    rw [hr] at h
    exact ⟨p.1, p.2, rfl, of_decide_eq_true h⟩

end Veri
