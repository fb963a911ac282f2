import Verif.Annoy.Self
import Verif.Annoy.Use
/-
C154: a search of the native index that may look at more does not answer worse.
-/
set_option autoImplicit false
namespace Veri
namespace Annoy

section
variable {A : Lib}

/-- The loop with a larger budget goes on where the other one ends. -/
theorem collect_more {ix : Index} {v : List F32} {k k' : Nat} (hk : k ≤ k') {fuel : Nat} : ∀ {fuel' : Nat} {q : List (F32 × Nat)}
    {nns r r' : List Nat}, collect A ix v k fuel q nns = .ok r → collect A ix v k' fuel' q nns = .ok r' → ∀ j ∈ r, j ∈ r' := by
  induction fuel with
  | zero =>
    intro fuel' q nns r r' h h'
    unfold collect at h
    split at h
    · cases h
    · injection h with h
      subst h
      exact collect_grows h'
  | succ fuel ih =>
    intro fuel' q nns r r' h h'
    cases fuel' with
    | zero =>
      unfold collect at h'
      split at h'
      · cases h'
      · rename_i hq
        injection h' with h'
        subst h'
        unfold collect at h
        split at h
        · rename_i hlt
          have : q = [] := Classical.byContradiction fun hne => hq ⟨by omega, hne⟩
          subst this
          simp only [popMax] at h
          injection h with h
          subst h
          exact fun _ h => h
        · injection h with h
          subst h
          exact fun _ h => h
    | succ fuel' =>
      have h0 := h'
      unfold collect at h h'
      split at h
      · rename_i hlt
        rw [if_pos (by omega)] at h'
        split at h
        · rename_i hp
          injection h with h
          subst h
          exact collect_grows h0
        · rename_i d i q1 hp
          simp only [hp] at h'
          obtain ⟨nd, hnd, h⟩ := Out.bind_ok h
          rw [hnd, Out.ok_bind] at h'
          split at h
          · rename_i hc
            rw [if_pos hc] at h'
            exact ih h h'
          · rename_i hc
            rw [if_neg hc] at h'
            split at h
            · rename_i hd
              rw [if_pos hd] at h'
              split at h
              · rename_i hl
                rw [if_pos hl] at h'
                exact ih h h'
              · cases h
            · rename_i hd
              rw [if_neg hd] at h'
              split at h
              · rename_i a b tl hch
                rw [hch] at h'
                exact ih h h'
              · cases h
      · injection h with h
        subst h
        exact collect_grows h0

/-- What a search has before it sorts, from what the loop collects. -/
theorem found_from {f : Nat} {vs : List (List F32)} {ix : Index} (hf : ix.f = f) (hn : ix.nItems = vs.length)
    (hb : Built A f vs ix.nodes ix.roots) (v : List F32) (n : Nat) (limit : UInt32) :
    ∃ (r : List Nat) (dist : List (F32 × Nat)),
      (∀ fuel ≥ 2 * vs.length * ix.roots.length,
        collect A ix v (budget limit n ix.roots.length) fuel (ix.roots.map fun r => (0x7F800000, r)) [] = .ok r ∧
        getAllNns A fuel ix v n limit = .ok ((A.sort dist).take n)) ∧
      (dist.map Prod.snd).Nodup ∧ (∀ j, j ∈ dist.map Prod.snd ↔ j ∈ r) ∧
      (∀ x ∈ dist, ∃ y, vs[x.2]? = some y ∧ x.1 = angular A v y) := by
  subst hf
  let q : List (F32 × Nat) := ix.roots.map fun r => (0x7F800000, r)
  have hqlen : q.length = ix.roots.length := List.length_map _
  obtain ⟨xs, m, hc, hm, hcount⟩ := cover_of (f := ix.f) (nItems := ix.nItems) (nodes := ix.nodes) (L := List.range vs.length) q fun p hp => by
    obtain ⟨r, hr, rfl⟩ := List.mem_map.1 hp
    obtain ⟨ys, s, h1, h2, h3, h4⟩ := hb.trees r hr
    exact ⟨ys, s, by rw [hn]; exact h1, h2, by rw [← h2.length_eq]; omega⟩
  rw [List.length_range, hqlen] at hm
  have hxs : ∀ j ∈ xs, j < vs.length := by
    intro j hj
    have := List.count_pos_iff.2 hj
    rw [hcount] at this
    rcases Nat.lt_or_ge j vs.length with h | h
    · exact h
    · rw [List.count_eq_zero.2 (by simpa using h)] at this; omega
  obtain ⟨r, rest, hr, hperm, -⟩ := collect_spec (v := v) (searchK := budget limit n ix.roots.length) (nns := []) hc (Nat.le_refl m)
  simp only [List.nil_append] at hr
  have hrin : ∀ j ∈ r, j < vs.length := fun j hj => hxs j (hperm.subset (by simp [hj]))
  obtain ⟨dist, h1, h2, h3, h4⟩ := measure_spec hb v (sortNat r) (sortNat_sorted r)
    (fun j hj => hrin j ((sortNat_perm r).subset hj)) none (by simp)
  have h3' : ∀ j, j ∈ dist.map Prod.snd ↔ j ∈ r := fun j => by rw [h3]; simp [(sortNat_perm r).mem_iff]
  refine ⟨r, dist, fun fuel hfuel => ⟨hr fuel (by omega), ?_⟩, h2.imp fun h => Nat.ne_of_lt h, h3', h4⟩
  unfold getAllNns
  rw [hr fuel (by omega), Out.ok_bind, h1, Out.ok_bind]

theorem nodup_of_map {α β : Type} (g : α → β) {l : List α} (h : (l.map g).Nodup) : l.Nodup :=
  (List.pairwise_map.1 h).imp fun hab he => hab (congrArg g he)

/-- Of two sorted lists, one with all that is in the other: position by position it is not behind. -/
theorem sorted_more {α : Type} {lt : α → α → Prop} (htrans : ∀ a b c, ¬ lt b a → lt b c → lt a c) {l l' : List α}
    (hs : l.Pairwise fun a b => ¬ lt b a) (hs' : l'.Pairwise fun a b => ¬ lt b a) (hn : l.Nodup) (hsub : ∀ x ∈ l, x ∈ l')
    (hirr : ∀ a, ¬ lt a a) (i : Nat) (x : α) (hx : l[i]? = some x) : ∃ x', l'[i]? = some x' ∧ ¬ lt x x' := by
  have hlen : ∀ (m : List α), (∀ y ∈ l.take (i + 1), y ∈ m) → i + 1 ≤ m.length := by
    intro m hm
    have h1 : (l.take (i + 1)).Nodup := hn.sublist (List.take_sublist _ _)
    have h2 := List.Nodup.length_le_of_subset (l₂ := m) h1 hm
    have h3 := (List.getElem?_eq_some_iff.1 hx).1
    rw [List.length_take] at h2
    omega
  have hi' : i < l'.length := hlen l' fun y hy => hsub y (List.mem_of_mem_take hy)
  refine ⟨l'[i], List.getElem?_eq_getElem hi', fun hlt => ?_⟩
  have := hlen (l'.take i) fun y hy => by
    obtain ⟨k, hk, rfl⟩ := List.getElem_of_mem hy
    rw [List.length_take] at hk
    rw [List.getElem_take]
    have hkl : k < l.length := by omega
    obtain ⟨hil, rfl⟩ := List.getElem?_eq_some_iff.1 hx
    have h1 : lt l[k] l'[i] := by
      rcases Nat.lt_or_ge k i with h | h
      · exact htrans _ _ _ (List.pairwise_iff_getElem.1 hs k i hkl hil h) hlt
      · have : k = i := by omega
        subst this; exact hlt
    obtain ⟨p, hp, hpe⟩ := List.getElem_of_mem (hsub l[k] (List.getElem_mem hkl))
    rcases Nat.lt_or_ge p i with h | h
    · rw [← hpe]
      exact List.mem_take_iff_getElem.2 ⟨p, by omega, rfl⟩
    · rcases Nat.eq_or_lt_of_le h with h | h
      · subst h; rw [← hpe] at h1; exact absurd h1 (hirr _)
      · rw [← hpe] at h1
        exact absurd h1 (List.pairwise_iff_getElem.1 hs' i p hi' hp h)
  rw [List.length_take] at this
  omega

end

theorem budget_mono {limit limit' : UInt32} (n n' roots : Nat) (h : limit ≤ limit') (h' : limit' ≠ 0xFFFFFFFF) :
    budget limit n roots ≤ budget limit' n' roots := by
  have hl := UInt32.le_iff_toNat_le.1 h
  have h0 : limit ≠ 0xFFFFFFFF := by
    intro e
    subst e
    have := limit'.toNat_lt
    exact h' (UInt32.toNat_inj.1 (by show limit'.toNat = 4294967295; have : (0xFFFFFFFF : UInt32).toNat = 4294967295 := rfl; omega))
  have := limit'.toNat_lt
  unfold budget
  simp only
  rw [if_neg h0, if_neg h']
  split <;> split <;> omega

end Annoy

open Annoy

/-- C154.  Of two searches of the native index for the same vector, one with a larger limit: each position it answers is answered by
that one too, if as many are asked for as there are; and if the distances are numbers, its answers are, one by one, not farther. -/
theorem C154_more (A : Lib) (hA : A.Ok) (f fuel : Nat) (vs : List (List F32)) (hmax : vs.length < 2^31) (ix : Index)
    (hb : build A f fuel vs = .ok ix) (q : List F32) (n n' fuel' : Nat) (limit limit' : UInt32) (hn : n ≤ n') (hl : limit ≤ limit')
    (hl' : limit' ≠ 0xFFFFFFFF) (hfuel : 2 * vs.length * ix.roots.length ≤ fuel') :
    ∃ ans ans', getAllNns A fuel' ix q n limit = .ok ans ∧ getAllNns A fuel' ix q n' limit' = .ok ans' ∧
      (vs.length ≤ n' → ∀ x ∈ ans, x ∈ ans') ∧
      (NoNaN A vs q → ∀ (i : Nat) (x : F32 × Nat), ans[i]? = some x →
        ∃ x', ans'[i]? = some x' ∧ F32.lt x.1 x'.1 = false ∧ (F32.lt x'.1 x.1 = true ∨ x'.2 ≤ x.2)) := by
  obtain ⟨hf, hni, hB, -⟩ := (build_spec hA (f := f) (fuel := fuel) hmax).2 ix hb
  obtain ⟨r, dist, h1, h2, h3, h4⟩ := found_from hf hni hB q n limit
  obtain ⟨r', dist', h1', h2', h3', h4'⟩ := found_from hf hni hB q n' limit'
  have hsub : ∀ x ∈ dist, x ∈ dist' := by
    intro x hx
    have hj := collect_more (budget_mono n n' ix.roots.length hl hl') (h1 fuel' hfuel).1 (h1' fuel' hfuel).1 x.2
      ((h3 x.2).1 (List.mem_map_of_mem hx))
    obtain ⟨x', hx', he⟩ := List.mem_map.1 ((h3' x.2).2 hj)
    obtain ⟨y, e1, e2⟩ := h4 x hx
    obtain ⟨y', e1', e2'⟩ := h4' x' hx'
    rw [he, e1] at e1'
    injection e1' with e1'
    subst e1'
    have : x = x' := Prod.ext (e2.trans e2'.symm) he.symm
    rw [this]; exact hx'
  have hsub' : ∀ x ∈ A.sort dist, x ∈ A.sort dist' := fun x hx => (hA.perm _).mem_iff.2 (hsub x ((hA.perm _).mem_iff.1 hx))
  refine ⟨_, _, (h1 fuel' hfuel).2, (h1' fuel' hfuel).2, fun hle x hx => ?_, fun hnan i x hx => ?_⟩
  · have hg := genuine_sort hA h2' h4'
    rw [List.take_of_length_le (Nat.le_trans (complete_of_length hg) hle)]
    exact hsub' x (List.mem_of_mem_take hx)
  · have hnum : ∀ x ∈ dist, F32.isNaN x.1 = false := fun x hx => by
      obtain ⟨y, hy, he⟩ := h4 x hx
      rw [he]; exact hnan y (List.mem_of_getElem? hy)
    have hnum' : ∀ x ∈ dist', F32.isNaN x.1 = false := fun x hx => by
      obtain ⟨y, hy, he⟩ := h4' x hx
      rw [he]; exact hnan y (List.mem_of_getElem? hy)
    have hin : i < n ∧ (A.sort dist)[i]? = some x := by
      rw [List.getElem?_take] at hx
      split at hx
      · exact ⟨by assumption, hx⟩
      · cases hx
    -- the order of the pairs, by key and position
    let lt : F32 × Nat → F32 × Nat → Prop := fun a b => F32.key a.1 < F32.key b.1 ∨ (F32.key a.1 = F32.key b.1 ∧ a.2 < b.2)
    have hlt : ∀ a b : F32 × Nat, F32.isNaN a.1 = false → F32.isNaN b.1 = false → (pairLt a b = true ↔ lt a b) := by
      intro a b ha hb
      simp only [lt, pairLt, F32.lt, ha, hb, Bool.not_false, Bool.true_and, Bool.or_eq_true, decide_eq_true_eq, Bool.and_eq_true,
        Bool.not_eq_true', decide_eq_false_iff_not]
      omega
    have hs : ∀ l : List (F32 × Nat), (∀ x ∈ l, F32.isNaN x.1 = false) → (A.sort l).Pairwise fun a b => ¬ lt b a := by
      intro l hl
      refine List.Pairwise.imp_of_mem ?_ (hA.sorted l hl)
      intro a b ha hb hab hba
      rw [(hlt b a (hl b ((hA.perm l).mem_iff.1 hb)) (hl a ((hA.perm l).mem_iff.1 ha))).2 hba] at hab
      cases hab
    obtain ⟨x', g1, g2⟩ := sorted_more (lt := lt) (by intro a b c; simp only [lt]; omega) (hs dist hnum) (hs dist' hnum')
      ((hA.perm _).nodup_iff.2 (nodup_of_map _ h2)) hsub' (by intro a; simp only [lt]; omega) i x hin.2
    refine ⟨x', by rw [List.getElem?_take, if_pos (by omega)]; exact g1, ?_⟩
    have hx1 := hnum x ((hA.perm _).mem_iff.1 (List.mem_of_getElem? hin.2))
    have hx2 := hnum' x' ((hA.perm _).mem_iff.1 (List.mem_of_getElem? g1))
    simp only [lt] at g2
    simp only [F32.lt, hx1, hx2, Bool.not_false, Bool.true_and, decide_eq_true_eq, decide_eq_false_iff_not]
    omega

open Gencoder Proc Store Idx in
open Classical in
/-- C154, the search of a data set through its index: with a larger limit and the same filters its results are, one by one, not farther
from the query.  Vectors of one length, as in C116. -/
theorem C154_search (n : Nat) (P : PEnv) (c : DataConfig) (now : Int64) (ls : List Proc.Label)
    (hl : ∀ l ∈ ls, Idx.GoodLabel n l) (s : PS) (he : Proc.exec P true (initial (Data.newData c) now) ls = some s)
    (a : Annoyer) (ha : s.dt.annoyer = some a) (hsz : a.dataIndex.length < 2^31) (A : Lib) (hA : A.Ok) (fuel : Nat) (ix : Index)
    (hix : Idx.native A fuel a.items = .ok ix) (E : Env) (vs vs' : List Visit) (q : DatumKey) (qv : Option DatumValue)
    (config config' : SearchConfig) (hq : q.feature.length = n) (hcfg : config' = { config with limit := config'.limit })
    (hle : config.limit ≤ config'.limit) (hmx : config'.limit ≠ 0xFFFFFFFF)
    (hnan : ∀ j d, Idx.datumAt a j = some d → F32.isNaN (Idx.distAt A a q.feature j) = false) :
    ∃ answer answer', (∀ fuel' ≥ 2 * ix.nItems * ix.roots.length,
        Idx.nativeAnswer A fuel' ix a.dataIndex.length q.feature config.limit = .ok answer ∧
        Idx.nativeAnswer A fuel' ix a.dataIndex.length q.feature config'.limit = .ok answer') ∧
      ∃ out out' js js', Search.searchAnnoy E vs answer s.dt ⟨some q, qv⟩ (some config) = .ok (s.dt, out) ∧
        Search.searchAnnoy E vs' answer' s.dt ⟨some q, qv⟩ (some config') = .ok (s.dt, out') ∧
        Idx.Result A E a q config js out.list ∧ Idx.Result A E a q config' js' out'.list ∧
        ∀ (i j : Nat), js[i]? = some j → ∃ j', js'[i]? = some j' ∧
          F32.lt (Idx.distAt A a q.feature j) (Idx.distAt A a q.feature j') = false := by
  obtain ⟨-, g⟩ := C116_index_search_partial n P c now ls hl s he a ha hsz A hA fuel
  obtain ⟨answer, g1, out, js, g2, g3, g4, -⟩ := g ix hix E vs q qv config hq
  obtain ⟨answer', g1', out', js', g2', g3', g4', -⟩ := g ix hix E vs' q qv config' hq
  refine ⟨answer, answer', fun fuel' hf => ⟨g1 fuel' hf, g1' fuel' hf⟩, out, out', js, js', g2, g2', g3, g3', ?_⟩
  have hu := Idx.uinv_exec (n := n) ls (s := initial (Data.newData c) now)
    ⟨rfl, (by intro p hp; cases hp), (by intro i hi; cases hi), (by intro a ha; cases ha)⟩ hl he
  obtain ⟨i, m, hf, hm, rfl⟩ := hu.index a ha
  obtain ⟨ys, hvec, hlen, hdl, hgood, hlt, hat⟩ := Idx.vectors_filled hf hm
  have hmax : ys.length < 2^31 := by
    have := hf.1
    simp only at hsz
    rw [hdl] at hsz; omega
  have hnat : Idx.native A fuel (indexItems i) = build A n fuel ys := by
    unfold Idx.native; rw [hvec]; rfl
  rw [hnat] at hix
  obtain ⟨hixf, hixn, -⟩ := (build_spec hA (f := n) (fuel := fuel) hmax).2 ix hix
  have hdist : ∀ (j : Nat) (y : List F32), ys[j]? = some y →
      angular A q.feature y = Idx.distAt A ⟨dataIndex i, indexItems i⟩ q.feature j ∧
      ∃ d, Idx.datumAt ⟨dataIndex i, indexItems i⟩ j = some d := by
    intro j y hy
    obtain ⟨_, k, v, h, hk⟩ := hat j y hy
    simp only [Idx.distAt, Idx.datumAt, h, Option.join_some, Option.bind_some, Option.map_some, Option.getD_some, hk]
    exact ⟨trivial, _, rfl⟩
  have hn : NoNaN A ys q.feature := by
    intro y hy
    obtain ⟨j, hj⟩ := List.getElem?_of_mem hy
    obtain ⟨e1, d, e2⟩ := hdist j y hj
    rw [e1]; exact hnan j d e2
  obtain ⟨ans, b1, b2, -⟩ := Annoy.answer hA hmax hix q.feature (dataIndex i).length config.limit
  obtain ⟨ans', b1', b2', -⟩ := Annoy.answer hA hmax hix q.feature (dataIndex i).length config'.limit
  have hans : ∀ {limit : UInt32} {as : List (F32 × Nat)} {an : List Nat},
      (∀ fuel' ≥ 2 * ys.length * ix.roots.length, getAllNns A fuel' ix q.feature (dataIndex i).length limit = .ok as) →
      (∀ fuel' ≥ 2 * ix.nItems * ix.roots.length, Idx.nativeAnswer A fuel' ix (dataIndex i).length q.feature limit = .ok an) →
      an = as.map Prod.snd := by
    intro limit as an h1 h2
    have := h2 _ (Nat.le_refl _)
    unfold Idx.nativeAnswer at this
    rw [hixf, ← hq, Idx.readVector_self] at this
    simp only [Out.ofOption, Out.ok_bind] at this
    rw [h1 _ (by rw [hixn]; exact Nat.le_refl _), Out.ok_bind] at this
    injection this with this
    exact this.symm
  have ea := hans b1 g1
  have ea' := hans b1' g1'
  have hsub : ∀ x ∈ ans, x ∈ ans' := by
    obtain ⟨a0, a0', k1, k2, k3, -⟩ := C154_more A hA n fuel ys hmax ix hix q.feature (dataIndex i).length (dataIndex i).length
      (2 * ys.length * ix.roots.length) config.limit config'.limit (Nat.le_refl _) hle hmx (Nat.le_refl _)
    rw [b1 _ (Nat.le_refl _)] at k1
    rw [b1' _ (Nat.le_refl _)] at k2
    injection k1 with k1
    injection k2 with k2
    rw [k1, k2]
    exact k3 (by have := hf.1; omega)
  have hpass : ∀ d, Ref.Passes E.jsonHas config' d ↔ Ref.Passes E.jsonHas config d := by
    intro d; rw [hcfg]; exact Iff.rfl
  simp only [hpass] at g4'
  generalize hp : (fun j => decide (∃ d, Idx.datumAt ⟨dataIndex i, indexItems i⟩ j = some d ∧ Ref.Passes E.jsonHas config d)) = pass at g4 g4'
  rw [ea, List.filter_map] at g4
  rw [ea', List.filter_map] at g4'
  let lt : F32 × Nat → F32 × Nat → Prop := fun a b => F32.key a.1 < F32.key b.1 ∨ (F32.key a.1 = F32.key b.1 ∧ a.2 < b.2)
  have hs : ∀ {l : List (F32 × Nat)}, Genuine A ys q.feature l → (l.filter (pass ∘ Prod.snd)).Pairwise fun a b => ¬ lt b a := by
    intro l hg
    have hnum : ∀ x ∈ l, F32.isNaN x.1 = false := fun x hx => by
      obtain ⟨y, hy, he⟩ := hg.dist x hx
      rw [he]; exact hn y (List.mem_of_getElem? hy)
    refine List.Pairwise.sublist List.filter_sublist (List.Pairwise.imp_of_mem ?_ (hg.sorted hn))
    intro a b ha hb hab
    simp only [F32.lt, hnum a ha, hnum b hb, Bool.not_false, Bool.true_and, decide_eq_true_eq, decide_eq_false_iff_not] at hab
    simp only [lt]
    omega
  intro k j hj
  rw [g4, List.getElem?_take] at hj
  split at hj
  · rename_i hk
    rw [List.getElem?_map, Option.map_eq_some_iff] at hj
    obtain ⟨x, hx, rfl⟩ := hj
    obtain ⟨x', e1, e2⟩ := sorted_more (lt := lt) (by intro a b c; simp only [lt]; omega) (hs b2) (hs b2')
      ((nodup_of_map _ b2.once).sublist List.filter_sublist)
      (fun y hy => by
        obtain ⟨y1, y2⟩ := List.mem_filter.1 hy
        exact List.mem_filter.2 ⟨hsub y y1, y2⟩) (by intro a; simp only [lt]; omega) k x hx
    have hll := UInt32.le_iff_toNat_le.1 hle
    refine ⟨x'.2, by rw [g4', List.getElem?_take, if_pos (by omega), List.getElem?_map, e1]; rfl, ?_⟩
    have hx1 := (List.mem_filter.1 (List.mem_of_getElem? hx)).1
    have hx2 := (List.mem_filter.1 (List.mem_of_getElem? e1)).1
    obtain ⟨y, f1, f2⟩ := b2.dist x hx1
    obtain ⟨y', f1', f2'⟩ := b2'.dist x' hx2
    rw [← (hdist _ _ f1).1, ← (hdist _ _ f1').1, ← f2, ← f2']
    simp only [lt] at e2
    simp only [F32.lt, Bool.and_eq_false_iff, decide_eq_false_iff_not]
    omega
  · cases hj

set_option maxRecDepth 100000 in
/-- C154: the same index, with limits 3 and 7; the second search finds the vector itself. -/
theorem C154_example : (build soft 1 6 (exVs 5 2)).bind (fun ix => (getAllNns soft 20 ix [0x3F800000] 1000 3).bind fun ans =>
      (getAllNns soft 20 ix [0x3F800000] 1000 7).bind fun ans' => .ok (ans, ans')) =
    .ok ([(0x40000000, 0), (0x40000000, 3), (0x40000000, 4)],
      [(0, 2), (0x40000000, 0), (0x40000000, 1), (0x40000000, 3), (0x40000000, 4)]) := by rw [← softSteps_eq]; decide +kernel

end Veri
