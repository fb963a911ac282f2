import Verif.Search.Aggregator
/-
C27 - C32, C73, C74: merging results.
-/
set_option autoImplicit false
namespace Veri
open Gencoder Store Search

namespace Ref

/-- Every arrival carries a datum with a key. -/
def Keyed (arr : List ScoredDatum) : Prop := ∀ x ∈ arr, ∃ k v, x.datum = ⟨some k, v⟩

/-- Every score is a number. -/
def NoNaN (arr : List ScoredDatum) : Prop := ∀ x ∈ arr, F64.isNaN x.score = false

/-- The same datum key never arrives with two different scores. -/
def Consistent (arr : List ScoredDatum) : Prop :=
  ∀ x ∈ arr, ∀ y ∈ arr, x.datum.key = y.datum.key → F64.lt x.score y.score = false

/-- `cands` picks one arrival for each datum key that arrived. -/
def Distinct (arr cands : List ScoredDatum) : Prop :=
  (∀ x ∈ cands, x ∈ arr) ∧ (cands.map (·.datum.key)).Nodup ∧ ∀ x ∈ arr, ∃ y ∈ cands, y.datum.key = x.datum.key

/-- `s` is one of the scores and none of them is better. -/
def IsBest (higherIsBetter : Bool) (scores : List F64) (s : F64) : Prop :=
  s ∈ scores ∧ ∀ t ∈ scores, (if higherIsBetter then F64.lt s t else F64.lt t s) = false

end Ref

namespace Agg
open Ref

theorem isNew_eq {o : FOps F32 F64} (h : Bits o) (config : SearchConfig) (old new : F64) :
    isNewScoredBetter o config old new = F64.lt old new := by
  simp [isNewScoredBetter, h.ltD]

theorem toNat_lt_limit {l : List ScoredDatum} {limit : UInt32} (hle : l.length ≤ limit.toNat) :
    UInt32.ofNat l.length < limit ↔ l.length < limit.toNat := by
  rw [UInt32.lt_iff_toNat_lt, UInt32.toNat_ofNat']
  have := limit.toNat_lt
  rw [Nat.mod_eq_of_lt (by omega)]

/-- What `InsertToList` leaves alone. -/
def Flat.Same (a b : Flat) : Prop := b.config = a.config ∧ b.context = a.context

theorem Flat.Same.refl (a : Flat) : a.Same a := ⟨rfl, rfl⟩
theorem Flat.Same.trans {a b c : Flat} (h : a.Same b) (g : b.Same c) : a.Same c :=
  ⟨g.1.trans h.1, g.2.trans h.2⟩

/-- `InsertToList` in general: with a positive limit it never panics and keeps only arrivals, at most `limit`. -/
theorem insertToList_ok {E : Env} (hE : IsSort E.sort) (a : Flat) (hl : 0 < a.config.limit)
    (hle : a.list.length ≤ a.config.limit.toNat) (sd : ScoredDatum) :
    ∃ a', a.insertToList E sd = .ok a' ∧ a.Same a' ∧ a'.seen = a.seen ∧
      a'.list.length = min a.config.limit.toNat (a.list.length + 1) ∧
      ∃ out, (a'.list ++ out).Perm (a.list ++ [sd]) := by
  unfold Flat.insertToList
  by_cases h : a.list.length < a.config.limit.toNat
  · rw [if_pos ((toNat_lt_limit hle).2 h)]
    refine ⟨_, rfl, ⟨rfl, rfl⟩, rfl, ?_, [], ?_⟩
    · simp only [(hE.perm _ _).length_eq, List.length_append, List.length_cons, List.length_nil]; omega
    · rw [List.append_nil]; exact hE.perm _ _
  · rw [if_neg (fun hh => h ((toNat_lt_limit hle).1 hh))]
    have hpos : 0 < a.config.limit.toNat := by simpa using UInt32.lt_iff_toNat_lt.1 hl
    have hne : a.list ≠ [] := by intro hnil; rw [hnil] at h; simp at h; omega
    have hsplit := List.dropLast_concat_getLast hne
    rw [List.getLast?_eq_some_getLast hne]
    simp only [Res.ofOption_some, Res.bind_ok]
    split
    · refine ⟨_, rfl, ⟨rfl, rfl⟩, rfl, ?_, [a.list.getLast hne], ?_⟩
      · have hd := congrArg List.length hsplit
        simp only [(hE.perm _ _).length_eq, List.length_append, List.length_cons, List.length_nil] at hd ⊢; omega
      · refine ((hE.perm _ _).append_right _).trans ?_
        rw [List.append_assoc]
        conv => rhs; rw [← hsplit, List.append_assoc]
        exact List.Perm.append_left _ (List.Perm.swap _ _ _)
    · exact ⟨a, rfl, .refl a, rfl, by omega, [sd], .refl _⟩

/-- `InsertToList` keeps the list sorted. -/
theorem insertToList_sorted {E : Env} (hE : E.Ok) (a a' : Flat) (sd : ScoredDatum)
    (hs : SortedBy (Ref.better a.config.higherIsBetter) a.list)
    (hn : ∀ x ∈ sd :: a.list, F64.isNaN x.score = false) (h : a.insertToList E sd = .ok a') :
    SortedBy (Ref.better a.config.higherIsBetter) a'.list := by
  unfold Flat.insertToList at h
  rw [lessFor_eq hE] at h
  split at h
  · injection h with h; subst h
    exact hE.sort.sorted _ _ (better_weakOrder _ _ fun x hx => hn x (by simp at hx ⊢; exact hx.symm))
  · cases hl : a.list.getLast? with
    | none => rw [hl] at h; simp at h
    | some last =>
      rw [hl] at h
      simp only [Res.ofOption_some, Res.bind_ok] at h
      split at h
      · injection h with h; subst h
        refine hE.sort.sorted _ _ (better_weakOrder _ _ fun x hx => hn x ?_)
        rcases List.mem_append.1 hx with h1 | h1
        · exact List.mem_cons_of_mem _ (List.dropLast_subset _ h1)
        · rw [List.mem_singleton.1 h1]; exact List.mem_cons_self
      · injection h with h; subst h; exact hs

/-- `InsertToList` and the k best: right if higher is better, or as long as there is room. -/
theorem insertToList_topk {E : Env} (hE : E.Ok) (a : Flat) (hl : 0 < a.config.limit) (cands : List ScoredDatum)
    (sd : ScoredDatum) (h : IsTopK (Ref.better a.config.higherIsBetter) a.config.limit.toNat cands a.list)
    (hw : WeakOrderOn (Ref.better a.config.higherIsBetter) (sd :: cands))
    (hdir : a.config.higherIsBetter = true ∨ cands.length < a.config.limit.toNat) :
    ∃ a', a.insertToList E sd = .ok a' ∧
      IsTopK (Ref.better a.config.higherIsBetter) a.config.limit.toNat (sd :: cands) a'.list := by
  have hle := h.length_le
  unfold Flat.insertToList
  rw [lessFor_eq hE]
  by_cases hlt : a.list.length < a.config.limit.toNat
  · rw [if_pos ((toNat_lt_limit hle).2 hlt)]
    exact ⟨_, rfl, h.step_room E.sort hE.sort hlt sd hw⟩
  · rw [if_neg (fun hh => hlt ((toNat_lt_limit hle).1 hh))]
    have hdir : a.config.higherIsBetter = true := by
      rcases hdir with h1 | h1
      · exact h1
      · obtain ⟨_, _, h2, _⟩ := h; omega
    have hk : a.list.length = a.config.limit.toNat := by omega
    have hpos : 0 < a.config.limit.toNat := by simpa using UInt32.lt_iff_toNat_lt.1 hl
    have hne : a.list ≠ [] := by intro hnil; rw [hnil] at hk; simp at hk; omega
    have hsplit := List.dropLast_concat_getLast hne
    rw [List.getLast?_eq_some_getLast hne]
    simp only [Res.ofOption_some, Res.bind_ok, isNew_eq hE.bits]
    have hb : F64.lt (a.list.getLast hne).score sd.score =
        Ref.better a.config.higherIsBetter sd (a.list.getLast hne) := by
      rw [hdir]; simp [Ref.better]
    rw [hb]
    rw [← hsplit] at h hk
    split
    · rename_i hbt
      exact ⟨_, rfl, h.step_replace E.sort hE.sort _ _ hk sd hbt hw⟩
    · rename_i hbt
      refine ⟨_, rfl, ?_⟩
      have := h.step_skip _ _ hk sd (by simpa using hbt) hw
      rw [hsplit] at this
      exact this

/-- The de-duplication map reflects the accepted arrivals. -/
structure Seen (a : Flat) (arr acc : List ScoredDatum) : Prop where
  some_ : ∀ k s, a.seen.get? (encKey k) = some s → ∃ x ∈ acc, x.datum.key = some k ∧ x.score = s
  none_ : ∀ k, a.seen.get? (encKey k) = none → ∀ x ∈ arr, x.datum.key ≠ some k
  distinct : Distinct arr acc

theorem seen_nil (config : SearchConfig) (context : Option SearchContext) : Seen (newFlat config context) [] [] :=
  ⟨by simp [newFlat], by simp [newFlat], by simp, by simp, by simp⟩

/-- One step of the merge, when scores are consistent: the arrival is either ignored or new. -/
theorem insertScored_cases {E : Env} (hE : E.Ok) (a : Flat) (arr acc : List ScoredDatum) (h : Seen a arr acc)
    (sd : ScoredDatum) (k : DatumKey) (v : Option DatumValue) (hk : sd.datum = ⟨some k, v⟩)
    (hc : Consistent (sd :: arr)) :
    (a.insertScored E sd = .ok a ∧ Seen a (sd :: arr) acc) ∨
    ∃ b : Flat, a.insertScored E sd = b.insertToList E sd ∧ b.list = a.list ∧ a.Same b ∧
      ∀ b', b'.seen = b.seen → Seen b' (sd :: arr) (sd :: acc) := by
  have hkey : sd.datum.key = some k := by rw [hk]
  unfold Flat.insertScored
  rw [hk, getKeyAsBytes_some]
  simp only [Res.ofOption_some, Res.bind_ok, encodeToString]
  cases hg : a.seen.get? (encKey k) with
  | some s =>
    left
    obtain ⟨x, hx, hxk, hxs⟩ := h.some_ k s hg
    have hxa := h.distinct.1 x hx
    have : F64.lt s sd.score = false := by
      rw [← hxs]; exact hc x (List.mem_cons_of_mem _ hxa) sd List.mem_cons_self (by rw [hxk, hkey])
    simp only [isNew_eq hE.bits, this, Bool.false_eq_true, if_false]
    refine ⟨trivial, h.some_, ?_, ?_, h.distinct.2.1, ?_⟩
    · intro k' hn y hy
      rcases List.mem_cons.1 hy with rfl | hy
      · rw [hkey]
        intro he
        injection he with he
        rw [he, hn] at hg
        cases hg
      · exact h.none_ k' hn y hy
    · intro y hy; exact List.mem_cons_of_mem _ (h.distinct.1 y hy)
    · intro y hy
      rcases List.mem_cons.1 hy with rfl | hy
      · exact ⟨x, hx, by rw [hxk, hkey]⟩
      · exact h.distinct.2.2 y hy
  | none =>
    right
    refine ⟨{ a with seen := a.seen.set (encKey k) sd.score }, rfl, rfl, ⟨rfl, rfl⟩, ?_⟩
    intro b' hb'
    refine ⟨?_, ?_, ?_, ?_, ?_⟩
    · intro k' s hs
      rw [hb'] at hs
      by_cases he : encKey k = encKey k'
      · rw [← he, AMap.get?_set_self] at hs
        injection hs with hs
        exact ⟨sd, List.mem_cons_self, by rw [hkey, encKey_inj he], hs⟩
      · rw [AMap.get?_set_ne _ _ he] at hs
        obtain ⟨x, hx, h2⟩ := h.some_ k' s hs
        exact ⟨x, List.mem_cons_of_mem _ hx, h2⟩
    · intro k' hn y hy
      rw [hb'] at hn
      by_cases he : encKey k = encKey k'
      · rw [← he, AMap.get?_set_self] at hn; cases hn
      · rw [AMap.get?_set_ne _ _ he] at hn
        rcases List.mem_cons.1 hy with rfl | hy
        · rw [hkey]; intro hh; injection hh with hh; exact he (by rw [hh])
        · exact h.none_ k' hn y hy
    · intro y hy
      rcases List.mem_cons.1 hy with rfl | hy
      · exact List.mem_cons_self
      · exact List.mem_cons_of_mem _ (h.distinct.1 y hy)
    · rw [List.map_cons, List.nodup_cons]
      refine ⟨?_, h.distinct.2.1⟩
      intro hm
      obtain ⟨y, hy, hyk⟩ := List.mem_map.1 hm
      exact h.none_ k hg y (h.distinct.1 y hy) (by rw [hyk, hkey])
    · intro y hy
      rcases List.mem_cons.1 hy with rfl | hy
      · exact ⟨y, List.mem_cons_self, rfl⟩
      · obtain ⟨z, hz, h2⟩ := h.distinct.2.2 y hy
        exact ⟨z, List.mem_cons_of_mem _ hz, h2⟩

/-- Without a context `Insert` does not touch the score. -/
theorem insert_noContext (E : Env) (a : Flat) (h : a.context = none) (sd : ScoredDatum) :
    a.insert E sd = a.insertScored E sd := by
  unfold Flat.insert bestScore
  rw [h]; rfl

theorem consistent_mono {l l' : List ScoredDatum} (h : Consistent l) (hs : ∀ x ∈ l', x ∈ l) : Consistent l' :=
  fun x hx y hy => h x (hs x hx) y (hs y hy)

theorem distinct_perm {a b c : List ScoredDatum} (h : Distinct a c) (hp : ∀ x, x ∈ a ↔ x ∈ b) : Distinct b c :=
  ⟨fun x hx => (hp x).1 (h.1 x hx), h.2.1, fun x hx => h.2.2 x ((hp x).2 hx)⟩

/-- The whole merge, when scores are consistent and either higher is better or the distinct keys fit. -/
theorem insertAll_topk {E : Env} (hE : E.Ok) (keys : List (Option DatumKey)) : ∀ (sds : List ScoredDatum) (a : Flat)
    (arr acc : List ScoredDatum), 0 < a.config.limit → a.context = none → Seen a arr acc →
    IsTopK (Ref.better a.config.higherIsBetter) a.config.limit.toNat acc a.list →
    Keyed sds → Consistent (arr ++ sds) → NoNaN (arr ++ sds) →
    (a.config.higherIsBetter = true ∨ keys.length ≤ a.config.limit.toNat ∧ ∀ x ∈ arr ++ sds, x.datum.key ∈ keys) →
    ∃ a' acc', a.insertAll E sds = .ok a' ∧ a.Same a' ∧ Distinct (arr ++ sds) acc' ∧
      IsTopK (Ref.better a.config.higherIsBetter) a.config.limit.toNat acc' a'.list
  | [], a, arr, acc, _, _, hs, ht, _, _, _, _ => ⟨a, acc, rfl, .refl a, by simpa using hs.distinct, ht⟩
  | sd :: sds, a, arr, acc, hl, hn, hs, ht, hk, hc, hnn, hd => by
    obtain ⟨k, v, hkv⟩ := hk sd List.mem_cons_self
    have hc1 : Consistent (sd :: arr) := consistent_mono hc (by simp; grind)
    have hmem : ∀ x, x ∈ (sd :: arr) ++ sds ↔ x ∈ arr ++ sd :: sds := by intro x; simp; grind
    have fin : ∀ (a1 : Flat) acc1, a.Same a1 → Seen a1 (sd :: arr) acc1 →
        IsTopK (Ref.better a.config.higherIsBetter) a.config.limit.toNat acc1 a1.list →
        a.insertScored E sd = .ok a1 →
        ∃ a' acc', a.insertAll E (sd :: sds) = .ok a' ∧ a.Same a' ∧ Distinct (arr ++ sd :: sds) acc' ∧
          IsTopK (Ref.better a.config.higherIsBetter) a.config.limit.toNat acc' a'.list := by
      intro a1 acc1 h1 h2 h3 h4
      obtain ⟨a2, acc2, g1, g2, g3, g4⟩ := insertAll_topk hE keys sds a1 (sd :: arr) acc1 (by rw [h1.1]; exact hl)
        (by rw [h1.2]; exact hn) h2 (by rw [h1.1]; exact h3) (fun x hx => hk x (List.mem_cons_of_mem _ hx))
        (consistent_mono hc fun x hx => (hmem x).1 hx) (fun x hx => hnn x ((hmem x).1 hx)) (by
          rw [h1.1]
          exact hd.imp id fun ⟨h5, h6⟩ => ⟨h5, fun x hx => h6 x ((hmem x).1 hx)⟩)
      refine ⟨a2, acc2, ?_, h1.trans g2, distinct_perm g3 hmem, ?_⟩
      · rw [Flat.insertAll, insert_noContext E a hn, h4]; exact g1
      · rw [h1.1] at g4; exact g4
    rcases insertScored_cases hE a arr acc hs sd k v hkv hc1 with ⟨h1, h2⟩ | ⟨b, h1, h2, h3, h4⟩
    · exact fin a acc (.refl a) h2 ht h1
    · have hseen := h4 b rfl
      obtain ⟨b', g1, g2⟩ := insertToList_topk hE b (by rw [h3.1]; exact hl) acc sd (by rw [h2, h3.1]; exact ht)
        (by
          rw [h3.1]
          exact better_weakOrder _ _ fun x hx => hnn x ((hmem x).1 (List.mem_append_left _ (hseen.distinct.1 x hx)))) (by
          rw [h3.1]
          refine hd.imp id ?_
          rintro ⟨h5, h6⟩
          have := List.Nodup.length_le_of_subset hseen.distinct.2.1 (l₂ := keys) (by
            intro y hy
            obtain ⟨z, hz, rfl⟩ := List.mem_map.1 hy
            exact h6 z ((hmem z).1 (List.mem_append_left _ (hseen.distinct.1 z hz))))
          simp only [List.map_cons, List.length_cons, List.length_map] at this
          omega)
      obtain ⟨b'', e1, e2, e3, _⟩ := insertToList_ok (E := E) hE.sort b (by rw [h3.1]; exact hl)
        (by rw [h2, h3.1]; exact ht.length_le) sd
      rw [g1] at e1
      injection e1 with e1
      subst e1
      exact fin b' (sd :: acc) (h3.trans e2) (h4 b' e3) (by rw [h3.1] at g2; exact g2) (by rw [h1, g1])

end Agg

open Agg

/-- C27.  Higher is better: merging arrivals with consistent scores, in any order and from any number of sources,
yields the `limit` best of the distinct arrivals, best first. -/
theorem C27_merge_higher_top_k (E : Env) (hE : E.Ok) (config : SearchConfig) (arr : List ScoredDatum)
    (hdir : config.higherIsBetter = true) (hl : 0 < config.limit) (hk : Ref.Keyed arr) (hc : Ref.Consistent arr)
    (hn : Ref.NoNaN arr) :
    ∃ a cands, (newFlat config none).insertAll E arr = .ok a ∧ Ref.Distinct arr cands ∧
      IsTopK (Ref.better true) config.limit.toNat cands a.list := by
  obtain ⟨a, acc, h1, _, h2, h3⟩ := insertAll_topk hE [] arr (newFlat config none) [] [] hl rfl (seen_nil _ _)
    IsTopK.nil hk hc hn (Or.inl hdir)
  refine ⟨a, acc, h1, h2, ?_⟩
  rw [show (newFlat config none).config.higherIsBetter = true from hdir] at h3
  exact h3


namespace Agg
open Ref

/-- Position of a score in the result order, as an integer. -/
def rank (b : Bool) (x : ScoredDatum) : Int := if b then -(F64.key x.score) else F64.key x.score

theorem better_rank (b : Bool) (x y : ScoredDatum) (hx : F64.isNaN x.score = false) (hy : F64.isNaN y.score = false) :
    Ref.better b x y = decide (rank b x < rank b y) := by
  cases b
  · simp [Ref.better, rank, F64.lt, hx, hy]
  · simp only [Ref.better, rank, F64.lt, hx, hy, if_true, Bool.not_false, Bool.true_and]
    rw [Bool.eq_iff_iff]; simp only [decide_eq_true_eq]; omega

/-- Two selections of distinct arrivals have the same scores. -/
theorem distinct_ranks {arr c1 c2 : List ScoredDatum} (hc : Consistent arr) (hn : NoNaN arr) (h1 : Distinct arr c1)
    (h2 : Distinct arr c2) (b : Bool) : (c1.map (rank b)).Perm (c2.map (rank b)) := by
  let g : Option DatumKey → Int := fun k =>
    match arr.find? (fun x => decide (x.datum.key = k)) with
    | some x => rank b x
    | none => 0
  have hg : ∀ c, Distinct arr c → c.map (rank b) = (c.map (·.datum.key)).map g := by
    intro c hd
    rw [List.map_map]
    refine List.map_congr_left fun x hx => ?_
    have hxa := hd.1 x hx
    show rank b x = g x.datum.key
    simp only [g]
    cases hf : arr.find? (fun y => decide (y.datum.key = x.datum.key)) with
    | none =>
      have := List.find?_eq_none.1 hf x hxa
      simp at this
    | some y =>
      have hy := List.mem_of_find?_eq_some hf
      have hk : y.datum.key = x.datum.key := by simpa using List.find?_some hf
      have l1 := hc x hxa y hy hk.symm
      have l2 := hc y hy x hxa hk
      rw [F64.not_lt_iff (hn _ hxa) (hn _ hy)] at l1
      rw [F64.not_lt_iff (hn _ hy) (hn _ hxa)] at l2
      simp only [rank]
      split <;> omega
  rw [hg c1 h1, hg c2 h2]
  refine List.Perm.map _ ((List.perm_ext_iff_of_nodup h1.2.1 h2.2.1).2 fun k => ?_)
  have key : ∀ c d, Distinct arr c → Distinct arr d → ∀ k, k ∈ c.map (·.datum.key) → k ∈ d.map (·.datum.key) := by
    intro c d hc hd k hk
    obtain ⟨x, hx, rfl⟩ := List.mem_map.1 hk
    obtain ⟨y, hy, he⟩ := hd.2.2 x (hc.1 x hx)
    exact List.mem_map.2 ⟨y, hy, he⟩
  exact ⟨key c1 c2 h1 h2 k, key c2 c1 h2 h1 k⟩

end Agg

/-- C27, order: the scores of the merged list do not depend on the order (or number of times) in which the results
arrive.  (`F64.key` identifies +0 and -0.) -/
theorem C27_merge_order_independent (E : Env) (hE : E.Ok) (config : SearchConfig) (arr arr' : List ScoredDatum)
    (hdir : config.higherIsBetter = true) (hl : 0 < config.limit) (hk : Ref.Keyed arr) (hc : Ref.Consistent arr)
    (hn : Ref.NoNaN arr) (hp : ∀ x, x ∈ arr ↔ x ∈ arr') (a a' : Flat)
    (h : (newFlat config none).insertAll E arr = .ok a) (h' : (newFlat config none).insertAll E arr' = .ok a') :
    a.list.map (fun x => F64.key x.score) = a'.list.map (fun x => F64.key x.score) := by
  obtain ⟨b, c, g1, g2, g3⟩ := C27_merge_higher_top_k E hE config arr hdir hl hk hc hn
  obtain ⟨b', c', g1', g2', g3'⟩ := C27_merge_higher_top_k E hE config arr' hdir hl
    (fun x hx => hk x ((hp x).2 hx)) (consistent_mono hc fun x hx => (hp x).2 hx) (fun x hx => hn x ((hp x).2 hx))
  rw [h] at g1; injection g1 with g1; subst g1
  rw [h'] at g1'; injection g1' with g1'; subst g1'
  have g2' := distinct_perm g2' fun x => (hp x).symm
  have hr := g3.ranks_unique g3' (rank true)
    (fun x hx y hy => better_rank true x y (hn x (g2.1 x hx)) (hn y (g2.1 y hy)))
    (fun x hx y hy => better_rank true x y (hn x (g2'.1 x hx)) (hn y (g2'.1 y hy)))
    (distinct_ranks hc hn g2 g2' true)
  have := congrArg (List.map fun i : Int => -i) hr
  simpa [List.map_map, Function.comp_def, rank] using this

namespace Agg
open Ref

/-- What was accepted, when scores may differ: for every arrival something with its key and at least its score. -/
structure Best (a : Flat) (arr acc : List ScoredDatum) : Prop where
  some_ : ∀ k s, a.seen.get? (encKey k) = some s → ∃ x ∈ acc, x.datum.key = some k ∧ x.score = s
  sub : ∀ x ∈ acc, x ∈ arr
  cover : ∀ x ∈ arr, ∃ y ∈ acc, y.datum.key = x.datum.key ∧ F64.lt y.score x.score = false
  top : ∀ k s, a.seen.get? (encKey k) = some s → ∀ x ∈ arr, x.datum.key = some k → F64.lt s x.score = false
  none_ : ∀ k, a.seen.get? (encKey k) = none → ∀ x ∈ arr, x.datum.key ≠ some k

theorem lt_asymm' {x y : F64} (h : F64.lt x y = true) : F64.lt y x = false := by
  simp only [F64.lt, Bool.and_eq_true, decide_eq_true_eq] at h
  unfold F64.lt
  have : ¬ F64.key y < F64.key x := by omega
  simp [this]

theorem lt_false_trans {x y z : F64} (hy : F64.isNaN y = false) (h1 : F64.lt x y = false) (h2 : F64.lt y z = false) :
    F64.lt x z = false := by
  unfold F64.lt at *
  cases hx : F64.isNaN x <;> cases hz : F64.isNaN z <;> simp_all <;> omega

/-- The whole merge if higher is better, whatever the scores. -/
theorem insertAll_best {E : Env} (hE : E.Ok) : ∀ (sds : List ScoredDatum) (a : Flat) (arr acc : List ScoredDatum),
    0 < a.config.limit → a.context = none → a.config.higherIsBetter = true → Best a arr acc →
    IsTopK (Ref.better true) a.config.limit.toNat acc a.list → Keyed sds → NoNaN (arr ++ sds) →
    ∃ a' acc', a.insertAll E sds = .ok a' ∧ a'.config = a.config ∧ Best a' (sds.reverse ++ arr) acc' ∧
      IsTopK (Ref.better true) a.config.limit.toNat acc' a'.list
  | [], a, arr, acc, _, _, _, hb, ht, _, _ => ⟨a, acc, rfl, rfl, hb, ht⟩
  | sd :: sds, a, arr, acc, hl, hn, hd, hb, ht, hk, hnn => by
    obtain ⟨k, v, hkv⟩ := hk sd List.mem_cons_self
    have hkey : sd.datum.key = some k := by rw [hkv]
    have fin : ∀ (a1 : Flat) acc1, a.Same a1 → Best a1 (sd :: arr) acc1 →
        IsTopK (Ref.better true) a.config.limit.toNat acc1 a1.list → a.insertScored E sd = .ok a1 →
        ∃ a' acc', a.insertAll E (sd :: sds) = .ok a' ∧ a'.config = a.config ∧ Best a' ((sd :: sds).reverse ++ arr) acc' ∧
          IsTopK (Ref.better true) a.config.limit.toNat acc' a'.list := by
      intro a1 acc1 h1 h2 h3 h4
      obtain ⟨a2, acc2, g1, g2, g3, g4⟩ := insertAll_best hE sds a1 (sd :: arr) acc1 (by rw [h1.1]; exact hl)
        (by rw [h1.2]; exact hn) (by rw [h1.1]; exact hd) h2 (by rw [h1.1]; exact h3) (fun x hx => hk x (List.mem_cons_of_mem _ hx))
        (fun x hx => hnn x (by simp at hx ⊢; grind))
      refine ⟨a2, acc2, ?_, g2.trans h1.1, by simpa using g3, by rw [h1.1] at g4; exact g4⟩
      rw [Flat.insertAll, insert_noContext E a hn, h4]; exact g1
    have hnnsd : F64.isNaN sd.score = false := hnn sd (by simp)
    -- an accepted arrival
    have accept : ∀ (_ : ∀ s, a.seen.get? (encKey k) = some s → F64.lt s sd.score = true),
        a.insertScored E sd = ({ a with seen := a.seen.set (encKey k) sd.score } : Flat).insertToList E sd →
        ∃ a' acc', a.insertAll E (sd :: sds) = .ok a' ∧ a'.config = a.config ∧ Best a' ((sd :: sds).reverse ++ arr) acc' ∧
          IsTopK (Ref.better true) a.config.limit.toNat acc' a'.list := by
      intro hs h1
      obtain ⟨b', g1, g2⟩ := insertToList_topk hE { a with seen := a.seen.set (encKey k) sd.score } hl acc sd (by simp only [hd]; exact ht)
        (by
          refine better_weakOrder _ _ fun x hx => ?_
          rcases List.mem_cons.mp hx with rfl | hx
          · exact hnnsd
          · exact hnn x (List.mem_append_left _ (hb.sub x hx))) (Or.inl hd)
      obtain ⟨b'', e1, e2, e3, -⟩ := insertToList_ok (E := E) hE.sort { a with seen := a.seen.set (encKey k) sd.score } hl ht.length_le sd
      rw [g1] at e1
      injection e1 with e1
      subst e1
      refine fin b' (sd :: acc) e2 ?_ (by simpa only [hd] using g2) (h1.trans g1)
      constructor
      · intro k' s hs'
        rw [e3] at hs'
        by_cases he : encKey k = encKey k'
        · rw [← he, AMap.get?_set_self] at hs'
          injection hs' with hs'
          exact ⟨sd, List.mem_cons_self, by rw [hkey, encKey_inj he], hs'⟩
        · rw [AMap.get?_set_ne _ _ he] at hs'
          obtain ⟨x, hx, h2⟩ := hb.some_ k' s hs'
          exact ⟨x, List.mem_cons_of_mem _ hx, h2⟩
      · intro x hx
        rcases List.mem_cons.mp hx with rfl | hx
        · exact List.mem_cons_self
        · exact List.mem_cons_of_mem _ (hb.sub x hx)
      · intro x hx
        rcases List.mem_cons.mp hx with rfl | hx
        · exact ⟨x, List.mem_cons_self, rfl, F64.lt_irrefl _⟩
        · obtain ⟨y, hy, h2⟩ := hb.cover x hx
          exact ⟨y, List.mem_cons_of_mem _ hy, h2⟩
      · intro k' s hs' x hx hxk
        rw [e3] at hs'
        by_cases he : encKey k = encKey k'
        · rw [← he, AMap.get?_set_self] at hs'
          injection hs' with hs'
          subst hs'
          rcases List.mem_cons.mp hx with rfl | hx
          · exact F64.lt_irrefl _
          · rw [← encKey_inj he] at hxk
            cases hg : a.seen.get? (encKey k) with
            | none => exact absurd hxk (hb.none_ k hg x hx)
            | some s0 =>
              obtain ⟨y, hy, -, hys⟩ := hb.some_ k s0 hg
              have hn0 : F64.isNaN s0 = false := by rw [← hys]; exact hnn y (List.mem_append_left _ (hb.sub y hy))
              exact lt_false_trans hn0 (lt_asymm' (hs s0 hg)) (hb.top k s0 hg x hx hxk)
        · rw [AMap.get?_set_ne _ _ he] at hs'
          rcases List.mem_cons.mp hx with rfl | hx
          · rw [hkey] at hxk
            injection hxk with hxk
            exact absurd (by rw [hxk]) he
          · exact hb.top k' s hs' x hx hxk
      · intro k' hn' x hx
        rw [e3] at hn'
        by_cases he : encKey k = encKey k'
        · rw [← he, AMap.get?_set_self] at hn'; cases hn'
        · rw [AMap.get?_set_ne _ _ he] at hn'
          rcases List.mem_cons.mp hx with rfl | hx
          · rw [hkey]; intro hh; injection hh with hh; exact he (by rw [hh])
          · exact hb.none_ k' hn' x hx
    have hun : a.insertScored E sd = match a.seen.get? (encKey k) with
        | some s => if F64.lt s sd.score then ({ a with seen := a.seen.set (encKey k) sd.score } : Flat).insertToList E sd else .ok a
        | none => ({ a with seen := a.seen.set (encKey k) sd.score } : Flat).insertToList E sd := by
      unfold Flat.insertScored
      rw [hkv, getKeyAsBytes_some]
      simp only [Res.ofOption_some, Res.bind_ok, encodeToString, isNew_eq hE.bits]
      cases a.seen.get? (encKey k) <;> rfl
    cases hg : a.seen.get? (encKey k) with
    | none =>
      rw [hg] at hun
      exact accept (fun s hs => by rw [hg] at hs; cases hs) hun
    | some s =>
      rw [hg] at hun
      simp only at hun
      cases hlt : F64.lt s sd.score with
      | true =>
        rw [hlt, if_pos rfl] at hun
        exact accept (fun s' hs' => by rw [hg] at hs'; cases hs'; exact hlt) hun
      | false =>
        rw [hlt] at hun
        simp only [Bool.false_eq_true, if_false] at hun
        refine fin a acc (.refl a) ?_ ht hun
        refine ⟨hb.some_, fun x hx => List.mem_cons_of_mem _ (hb.sub x hx), ?_, ?_, ?_⟩
        · intro x hx
          rcases List.mem_cons.mp hx with rfl | hx
          · obtain ⟨y, hy, hyk, hys⟩ := hb.some_ k s hg
            exact ⟨y, hy, by rw [hyk, hkey], by rw [hys]; exact hlt⟩
          · exact hb.cover x hx
        · intro k' s' hs' x hx hxk
          rcases List.mem_cons.mp hx with rfl | hx
          · rw [hkey] at hxk
            injection hxk with hxk
            rw [← hxk, hg] at hs'
            cases hs'
            exact hlt
          · exact hb.top k' s' hs' x hx hxk
        · intro k' hn' x hx
          rcases List.mem_cons.mp hx with rfl | hx
          · rw [hkey]
            intro he
            injection he with he
            rw [he, hn'] at hg
            cases hg
          · exact hb.none_ k' hn' x hx

end Agg

/-- C27 for any scores, also if a datum arrives with different ones: it is judged by the best of them.  Whatever arrives is in the
result with at least its score, or the result is full of others that are at least as good; and the result consists of arrivals,
best first. -/
theorem C27_best_score_counts (E : Env) (hE : E.Ok) (config : SearchConfig) (arr : List ScoredDatum)
    (hdir : config.higherIsBetter = true) (hl : 0 < config.limit) (hk : Ref.Keyed arr) (hn : Ref.NoNaN arr) :
    ∃ a, (newFlat config none).insertAll E arr = .ok a ∧ (∀ x ∈ a.list, x ∈ arr) ∧ SortedBy (Ref.better true) a.list ∧
      ∀ x ∈ arr, (∃ y ∈ a.list, y.datum.key = x.datum.key ∧ F64.lt y.score x.score = false) ∨
        (a.list.length = config.limit.toNat ∧ ∀ y ∈ a.list, F64.lt y.score x.score = false) := by
  obtain ⟨a, acc, h1, -, h3, h4⟩ := insertAll_best hE arr (newFlat config none) [] [] hl rfl hdir
    ⟨by simp [newFlat], by simp, by simp, by simp [newFlat], by simp⟩ IsTopK.nil hk (by simpa using hn)
  have hmem : ∀ x, x ∈ arr.reverse ++ [] ↔ x ∈ arr := by intro x; simp
  refine ⟨a, h1, fun x hx => (hmem x).1 (h3.sub x (h4.mem hx)), ?_, ?_⟩
  · obtain ⟨_, _, _, h, _⟩ := h4; exact h
  · intro x hx
    obtain ⟨y, hy, hyk, hyx⟩ := h3.cover x ((hmem x).2 hx)
    obtain ⟨rest, hp, hlen, -, hrest⟩ := h4
    rcases List.mem_append.mp (hp.mem_iff.2 hy) with hyl | hyr
    · exact Or.inl ⟨y, hyl, hyk, hyx⟩
    · right
      constructor
      · have h5 := hp.length_eq
        have h6 : 0 < rest.length := List.length_pos_of_mem hyr
        rw [List.length_append] at h5
        have : (newFlat config none).config.limit = config.limit := rfl
        rw [this] at hlen
        omega
      · intro z hz
        have h7 := hrest y hyr z hz
        simp only [Ref.better, if_true] at h7
        exact lt_false_trans (hn y ((hmem y).1 (h3.sub y hy))) h7 hyx

/-- C28, full statement: the same for lower is better.  FALSE of the code. -/
def C28_merge_lower_top_k_statement : Prop :=
  ∀ (E : Env) (config : SearchConfig) (arr : List ScoredDatum), E.Ok → config.higherIsBetter = false →
    0 < config.limit → Ref.Keyed arr → Ref.Consistent arr → Ref.NoNaN arr →
    ∃ a cands, (newFlat config none).insertAll E arr = .ok a ∧ Ref.Distinct arr cands ∧
      IsTopK (Ref.better false) config.limit.toNat cands a.list

/-- C28, partial: as long as no more than `limit` distinct data arrive. -/
theorem C28_merge_lower_partial (E : Env) (hE : E.Ok) (config : SearchConfig) (arr : List ScoredDatum)
    (hdir : config.higherIsBetter = false) (hl : 0 < config.limit) (hk : Ref.Keyed arr) (hc : Ref.Consistent arr)
    (hn : Ref.NoNaN arr) (keys : List (Option DatumKey)) (hlen : keys.length ≤ config.limit.toNat)
    (hkeys : ∀ x ∈ arr, x.datum.key ∈ keys) :
    ∃ a cands, (newFlat config none).insertAll E arr = .ok a ∧ Ref.Distinct arr cands ∧
      IsTopK (Ref.better false) config.limit.toNat cands a.list := by
  obtain ⟨a, acc, h1, _, h2, h3⟩ := insertAll_topk hE keys arr (newFlat config none) [] [] hl rfl (seen_nil _ _)
    IsTopK.nil hk hc hn (Or.inr ⟨hlen, hkeys⟩)
  refine ⟨a, acc, h1, h2, ?_⟩
  rw [show (newFlat config none).config.higherIsBetter = false from hdir] at h3
  exact h3

namespace Agg

/-- A result for the one-dimensional point `x`. -/
def exHit (s : F64) (x : F32) : ScoredDatum := ⟨s, ⟨some (exPoint x), some ⟨1, [7]⟩⟩⟩

def two : F64 := 0x4000000000000000

/-- The merged list, for evaluation. -/
def flatList : Res Flat → Option (List ScoredDatum)
  | .ok a => some a.list
  | _ => none

theorem flatList_some {r : Res Flat} {a : Flat} {l : List ScoredDatum} (h : flatList r = some l) (hr : r = .ok a) :
    a.list = l := by
  rw [hr] at h
  simpa [flatList] using h

end Agg

/-- C28, counterexample: limit 1, a result with score 1 arrives, then one with score 2; the worse one is kept. -/
theorem C28_merge_lower_top_k_fails : ¬ C28_merge_lower_top_k_statement := by
  intro h
  obtain ⟨a, cands, h1, h2, rest, h3, h4, _, h5⟩ := h exEnv { defaultSearchConfig with limit := 1 }
    [exHit F64.one 0, exHit two 1] exEnv_ok rfl (by decide)
    (by
      intro x hx
      rcases List.mem_cons.1 hx with rfl | hx
      · exact ⟨_, _, rfl⟩
      · rw [List.mem_singleton.1 hx]; exact ⟨_, _, rfl⟩) (by unfold Ref.Consistent; decide +kernel)
    (by unfold Ref.NoNaN; decide +kernel)
  have hl := flatList_some (l := [exHit two 1]) (by decide +kernel) h1
  obtain ⟨y, hy, hk⟩ := h2.2.2 (exHit F64.one 0) (by simp)
  have hya := h2.1 y hy
  rcases List.mem_cons.1 hya with rfl | hya
  · have hm := h3.mem_iff.2 hy
    rw [hl] at hm h5
    rcases List.mem_append.1 hm with hm | hm
    · revert hm; decide +kernel
    · have := h5 _ hm (exHit two 1) (by simp)
      revert this; decide +kernel
  · rw [List.mem_singleton.1 hya] at hk
    revert hk; decide +kernel

/-- C27 is not vacuous: three arrivals from two sources, one of them twice, limit 2. -/
theorem C27_example : ∃ a, (newFlat { defaultSearchConfig with limit := 2, higherIsBetter := true } none).insertAll exEnv
    [exHit F64.one 0, exHit two 1, exHit F64.one 0, exHit 0 2] = .ok a ∧ a.list = [exHit two 1, exHit F64.one 0] := by
  obtain ⟨a, _, h, _⟩ := C27_merge_higher_top_k exEnv exEnv_ok
    { defaultSearchConfig with limit := 2, higherIsBetter := true }
    [exHit F64.one 0, exHit two 1, exHit F64.one 0, exHit 0 2] rfl (by decide)
    (by
      intro x hx
      simp only [List.mem_cons, List.not_mem_nil, or_false] at hx
      rcases hx with rfl | rfl | rfl | rfl <;> exact ⟨_, _, rfl⟩)
    (by unfold Ref.Consistent; decide +kernel) (by unfold Ref.NoNaN; decide +kernel)
  exact ⟨a, h, flatList_some (by decide +kernel) h⟩

/-- A datum that arrives with two scores is in the result with the better one. -/
example : ∃ a, (newFlat { defaultSearchConfig with limit := 2, higherIsBetter := true } none).insertAll exEnv
    [exHit 0 1, exHit F64.one 0, exHit two 1] = .ok a ∧ a.list = [exHit two 1, exHit F64.one 0] := by
  obtain ⟨a, h, _⟩ := C27_best_score_counts exEnv exEnv_ok { defaultSearchConfig with limit := 2, higherIsBetter := true }
    [exHit 0 1, exHit F64.one 0, exHit two 1] rfl (by decide)
    (by
      intro x hx
      simp only [List.mem_cons, List.not_mem_nil, or_false] at hx
      rcases hx with rfl | rfl | rfl <;> exact ⟨_, _, rfl⟩)
    (by unfold Ref.NoNaN; decide +kernel)
  exact ⟨a, h, flatList_some (by decide +kernel) h⟩

namespace Agg
open Ref

/-- One arrival, scores already set, no assumption: it is ignored or handed to `InsertToList`. -/
theorem insertScored_or (E : Env) (a : Flat) (sd : ScoredDatum) (k : DatumKey) (v : Option DatumValue)
    (hk : sd.datum = ⟨some k, v⟩) :
    (a.insertScored E sd = .ok a ∧ a.seen ≠ []) ∨
      ∃ b : Flat, a.insertScored E sd = b.insertToList E sd ∧ b.list = a.list ∧ a.Same b := by
  unfold Flat.insertScored
  rw [hk, getKeyAsBytes_some]
  simp only [Res.ofOption_some, Res.bind_ok, encodeToString]
  cases hg : a.seen.get? (encKey k) with
  | none => exact Or.inr ⟨_, rfl, rfl, rfl, rfl⟩
  | some s =>
    simp only
    split
    · exact Or.inr ⟨_, rfl, rfl, rfl, rfl⟩
    · refine Or.inl ⟨rfl, ?_⟩
      intro hn; rw [hn] at hg; cases hg

/-- A merge of keyed arrivals in general (no context): never a panic with a positive limit; only arrivals are kept,
at most `limit` of them, and at least one if anything arrived. -/
theorem insertAll_ok {E : Env} (hE : IsSort E.sort) : ∀ (sds : List ScoredDatum) (a : Flat), 0 < a.config.limit →
    a.context = none → Keyed sds → a.list.length ≤ a.config.limit.toNat → (a.list = [] → a.seen = []) →
    ∃ a', a.insertAll E sds = .ok a' ∧ a.Same a' ∧ a'.list.length ≤ a.config.limit.toNat ∧
      (∀ x ∈ a'.list, x ∈ a.list ∨ x ∈ sds) ∧ (a.list ≠ [] ∨ sds ≠ [] → a'.list ≠ [])
  | [], a, _, _, _, hle, _ => ⟨a, rfl, .refl a, hle, fun x hx => Or.inl hx, by simp⟩
  | sd :: sds, a, hl, hn, hk, hle, hse => by
    obtain ⟨k, v, hkv⟩ := hk sd List.mem_cons_self
    have fin : ∀ a1 : Flat, a.insertScored E sd = .ok a1 → a.Same a1 → a1.list.length ≤ a.config.limit.toNat →
        (∀ x ∈ a1.list, x ∈ a.list ∨ x = sd) → a1.list ≠ [] →
        ∃ a', a.insertAll E (sd :: sds) = .ok a' ∧ a.Same a' ∧ a'.list.length ≤ a.config.limit.toNat ∧
          (∀ x ∈ a'.list, x ∈ a.list ∨ x ∈ sd :: sds) ∧ (a.list ≠ [] ∨ sd :: sds ≠ [] → a'.list ≠ []) := by
      intro a1 h1 h2 h3 h4 h5
      obtain ⟨a2, g1, g2, g3, g4, g5⟩ := insertAll_ok hE sds a1 (by rw [h2.1]; exact hl) (by rw [h2.2]; exact hn)
        (fun x hx => hk x (List.mem_cons_of_mem _ hx)) (by rw [h2.1]; exact h3) (fun h => absurd h h5)
      refine ⟨a2, ?_, h2.trans g2, by rw [h2.1] at g3; exact g3, ?_, fun _ => g5 (Or.inl h5)⟩
      · rw [Flat.insertAll, insert_noContext E a hn, h1]; exact g1
      · intro x hx
        rcases g4 x hx with h | h
        · rcases h4 x h with h | h
          · exact Or.inl h
          · exact Or.inr (by rw [h]; exact List.mem_cons_self)
        · exact Or.inr (List.mem_cons_of_mem _ h)
    rcases insertScored_or E a sd k v hkv with ⟨h1, h2⟩ | ⟨b, h1, h2, h3⟩
    · exact fin a h1 (.refl a) hle (fun x hx => Or.inl hx) fun h => h2 (hse h)
    · obtain ⟨b', g1, g2, g3, g4, out, g5⟩ := insertToList_ok (E := E) hE b (by rw [h3.1]; exact hl)
        (by rw [h2, h3.1]; exact hle) sd
      refine fin b' (by rw [h1, g1]) (h3.trans g2) (by rw [g4, h3.1]; omega) ?_ ?_
      · intro x hx
        have := g5.mem_iff.1 (List.mem_append_left _ hx)
        rw [h2] at this
        simpa using this
      · intro hnil
        have hpos : 0 < a.config.limit.toNat := by simpa using UInt32.lt_iff_toNat_lt.1 hl
        rw [hnil, h3.1] at g4
        simp at g4
        omega

/-- A merge of keyed arrivals with consistent scores, in either direction: the merged list is part of a selection of
the distinct arrivals, as long as possible. -/
theorem insertAll_distinct {E : Env} (hE : E.Ok) : ∀ (sds : List ScoredDatum) (a : Flat)
    (arr acc : List ScoredDatum), 0 < a.config.limit → a.context = none → Seen a arr acc →
    (∃ out, (a.list ++ out).Perm acc) → a.list.length = min a.config.limit.toNat acc.length →
    Keyed sds → Consistent (arr ++ sds) →
    ∃ a' acc' out, a.insertAll E sds = .ok a' ∧ a.Same a' ∧ Distinct (arr ++ sds) acc' ∧ (a'.list ++ out).Perm acc' ∧
      a'.list.length = min a.config.limit.toNat acc'.length
  | [], a, arr, acc, _, _, hs, ⟨out, ho⟩, hlen, _, _ =>
    ⟨a, acc, out, rfl, .refl a, by simpa using hs.distinct, ho, hlen⟩
  | sd :: sds, a, arr, acc, hl, hn, hs, ⟨out, ho⟩, hlen, hk, hc => by
    obtain ⟨k, v, hkv⟩ := hk sd List.mem_cons_self
    have hc1 : Consistent (sd :: arr) := consistent_mono hc (by simp; grind)
    have hmem : ∀ x, x ∈ (sd :: arr) ++ sds ↔ x ∈ arr ++ sd :: sds := by intro x; simp; grind
    have fin : ∀ (a1 : Flat) acc1, a.Same a1 → Seen a1 (sd :: arr) acc1 →
        (∃ out, (a1.list ++ out).Perm acc1) → a1.list.length = min a.config.limit.toNat acc1.length →
        a.insertScored E sd = .ok a1 →
        ∃ a' acc' out, a.insertAll E (sd :: sds) = .ok a' ∧ a.Same a' ∧ Distinct (arr ++ sd :: sds) acc' ∧
          (a'.list ++ out).Perm acc' ∧ a'.list.length = min a.config.limit.toNat acc'.length := by
      intro a1 acc1 h1 h2 h3 h3' h4
      obtain ⟨a2, acc2, o2, g1, g2, g3, g4, g5⟩ := insertAll_distinct hE sds a1 (sd :: arr) acc1
        (by rw [h1.1]; exact hl) (by rw [h1.2]; exact hn) h2 h3 (by rw [h1.1]; exact h3')
        (fun x hx => hk x (List.mem_cons_of_mem _ hx)) (consistent_mono hc fun x hx => (hmem x).1 hx)
      refine ⟨a2, acc2, o2, ?_, h1.trans g2, distinct_perm g3 hmem, g4, by rw [h1.1] at g5; exact g5⟩
      rw [Flat.insertAll, insert_noContext E a hn, h4]; exact g1
    rcases insertScored_cases hE a arr acc hs sd k v hkv hc1 with ⟨h1, h2⟩ | ⟨b, h1, h2, h3, h4⟩
    · exact fin a acc (.refl a) h2 ⟨out, ho⟩ hlen h1
    · obtain ⟨b', g1, g2, g3, g4, o, g5⟩ := insertToList_ok (E := E) hE.sort b (by rw [h3.1]; exact hl)
        (by rw [h2, h3.1]; omega) sd
      refine fin b' (sd :: acc) (h3.trans g2) (h4 b' g3) ⟨o ++ out, ?_⟩ ?_ (by rw [h1, g1])
      · rw [← List.append_assoc]
        refine (g5.append_right out).trans ?_
        rw [h2, List.append_assoc]
        exact List.perm_middle.trans (ho.cons sd)
      · rw [g4, h3.1, h2]
        simp only [List.length_cons]
        omega

/-- Merging keeps the list sorted. -/
theorem insertAll_sorted {E : Env} (hE : E.Ok) : ∀ (sds : List ScoredDatum) (a a' : Flat),
    a.context = none → Keyed sds → NoNaN (a.list ++ sds) → SortedBy (Ref.better a.config.higherIsBetter) a.list →
    a.insertAll E sds = .ok a' → SortedBy (Ref.better a.config.higherIsBetter) a'.list
  | [], a, a', _, _, _, hs, h => by
    simp only [Flat.insertAll, Res.ok.injEq] at h
    rw [← h]; exact hs
  | sd :: sds, a, a', hn, hk, hnn, hs, h => by
    obtain ⟨k, v, hkv⟩ := hk sd List.mem_cons_self
    rw [Flat.insertAll, insert_noContext E a hn] at h
    rcases insertScored_or E a sd k v hkv with ⟨h1, h2⟩ | ⟨b, h1, h2, h3⟩
    · rw [h1] at h
      exact insertAll_sorted hE sds a a' hn (fun x hx => hk x (List.mem_cons_of_mem _ hx))
        (fun x hx => hnn x (by simp at hx ⊢; grind)) hs h
    · cases hb : b.insertToList E sd with
      | panic => rw [h1, hb] at h; cases h
      | err e => rw [h1, hb] at h; cases h
      | ok b' =>
        rw [h1, hb] at h
        simp only [Res.bind_ok] at h
        have hsame : b.Same b' ∧ ∀ x ∈ b'.list, x ∈ b.list ∨ x = sd := by
          unfold Flat.insertToList at hb
          split at hb
          · injection hb with hb; subst hb
            exact ⟨⟨rfl, rfl⟩, fun x hx => by simpa using (hE.sort.perm _ _).mem_iff.1 hx⟩
          · cases hg : b.list.getLast? with
            | none => rw [hg] at hb; simp at hb
            | some last =>
              rw [hg] at hb
              simp only [Res.ofOption_some, Res.bind_ok] at hb
              split at hb
              · injection hb with hb; subst hb
                refine ⟨⟨rfl, rfl⟩, fun x hx => ?_⟩
                rcases List.mem_append.1 ((hE.sort.perm _ _).mem_iff.1 hx) with h1 | h1
                · exact Or.inl (List.dropLast_subset _ h1)
                · exact Or.inr (by simpa using h1)
              · injection hb with hb; subst hb; exact ⟨.refl _, fun x hx => Or.inl hx⟩
        have hs' := insertToList_sorted hE b b' sd (by rw [h3.1, h2]; exact hs) (by
          rw [h2]; intro x hx
          exact hnn x (by simp at hx ⊢; grind)) hb
        have hcfg : b'.config = a.config := hsame.1.1.trans h3.1
        rw [h3.1, ← hcfg] at hs'
        have := insertAll_sorted hE sds b' a' (by rw [hsame.1.2, h3.2]; exact hn)
          (fun x hx => hk x (List.mem_cons_of_mem _ hx)) (by
            intro x hx
            rcases List.mem_append.1 hx with hx | hx
            · have := hsame.2 x hx
              rw [h2] at this
              exact hnn x (by simp; grind)
            · exact hnn x (by simp [hx])) hs' h
        rw [hcfg] at this
        exact this

end Agg

/-- C29, full statement: no datum twice.  FALSE of the code. -/
def C29_no_duplicates_statement : Prop :=
  ∀ (E : Env) (config : SearchConfig) (arr : List ScoredDatum) (a : Flat), E.Ok → 0 < config.limit → Ref.Keyed arr →
    Ref.NoNaN arr → (newFlat config none).insertAll E arr = .ok a → (a.list.map (·.datum.key)).Nodup

/-- C29, partial: in either direction, if no datum arrives with two different scores (as in a search for a single
datum), no datum is returned twice, and as many are returned as possible. -/
theorem C29_no_duplicates_partial (E : Env) (hE : E.Ok) (config : SearchConfig) (arr : List ScoredDatum)
    (hl : 0 < config.limit) (hk : Ref.Keyed arr) (hc : Ref.Consistent arr) :
    ∃ a cands, (newFlat config none).insertAll E arr = .ok a ∧ (a.list.map (·.datum.key)).Nodup ∧
      Ref.Distinct arr cands ∧ (∀ x ∈ a.list, x ∈ cands) ∧ a.list.length = min config.limit.toNat cands.length := by
  obtain ⟨a, acc, out, h1, _, h2, h3, h4⟩ := insertAll_distinct hE arr (newFlat config none) [] [] hl rfl
    (seen_nil _ _) ⟨[], .refl _⟩ (by simp [newFlat]) hk hc
  refine ⟨a, acc, h1, ?_, h2, fun x hx => h3.mem_iff.1 (List.mem_append_left _ hx), h4⟩
  have h2 : Ref.Distinct arr acc := h2
  have := (h3.map (·.datum.key)).nodup_iff.2 h2.2.1
  rw [List.map_append] at this
  exact (List.nodup_append.1 this).1

/-- C29, counterexample: the same datum with score 1 and then 2. -/
theorem C29_no_duplicates_fails : ¬ C29_no_duplicates_statement := by
  intro h
  have hk : Ref.Keyed [exHit F64.one 0, exHit two 0] := by
    intro x hx
    simp only [List.mem_cons, List.not_mem_nil, or_false] at hx
    rcases hx with rfl | rfl <;> exact ⟨_, _, rfl⟩
  obtain ⟨a, ha, _⟩ := Agg.insertAll_ok (E := exEnv) exEnv_ok.sort [exHit F64.one 0, exHit two 0]
    (newFlat { defaultSearchConfig with higherIsBetter := true } none) (by decide) rfl hk (by simp [newFlat]) (by simp [newFlat])
  have hl := flatList_some (l := [exHit two 0, exHit F64.one 0]) (by decide +kernel) ha
  have := h exEnv _ _ a exEnv_ok (by decide) hk (by unfold Ref.NoNaN; decide +kernel) ha
  rw [hl] at this
  simp [exHit] at this

namespace Agg
open Ref

theorem insertToList_len {E : Env} (hE : IsSort E.sort) {a a' : Flat} {sd : ScoredDatum}
    (h : a.insertToList E sd = .ok a') (hle : a.list.length ≤ a.config.limit.toNat) :
    a.Same a' ∧ a'.list.length ≤ a.config.limit.toNat := by
  unfold Flat.insertToList at h
  split at h
  · rename_i hlt
    injection h with h; subst h
    refine ⟨⟨rfl, rfl⟩, ?_⟩
    have := (toNat_lt_limit hle).1 hlt
    simp only [(hE.perm _ _).length_eq, List.length_append, List.length_cons, List.length_nil]
    omega
  · cases hg : a.list.getLast? with
    | none => rw [hg] at h; simp at h
    | some last =>
      have hne : a.list ≠ [] := by intro hn; rw [hn] at hg; simp at hg
      have hpos := List.length_pos_iff.2 hne
      rw [hg] at h
      simp only [Res.ofOption_some, Res.bind_ok] at h
      split at h
      · injection h with h; subst h
        refine ⟨⟨rfl, rfl⟩, ?_⟩
        simp only [(hE.perm _ _).length_eq, List.length_append, List.length_cons, List.length_nil, List.length_dropLast]
        omega
      · injection h with h; subst h; exact ⟨.refl _, hle⟩

theorem insertScored_len {E : Env} (hE : IsSort E.sort) {a a' : Flat} {sd : ScoredDatum}
    (h : a.insertScored E sd = .ok a') (hle : a.list.length ≤ a.config.limit.toNat) :
    a.Same a' ∧ a'.list.length ≤ a.config.limit.toNat := by
  unfold Flat.insertScored at h
  cases hk : getKeyAsBytes sd.datum with
  | none => rw [hk] at h; simp at h
  | some kb =>
    rw [hk] at h
    simp only [Res.ofOption_some, Res.bind_ok] at h
    split at h
    · split at h
      · have := insertToList_len hE h hle
        exact ⟨⟨this.1.1, this.1.2⟩, this.2⟩
      · injection h with h; subst h; exact ⟨.refl _, hle⟩
    · have := insertToList_len hE h hle
      exact ⟨⟨this.1.1, this.1.2⟩, this.2⟩

theorem insert_len {E : Env} (hE : IsSort E.sort) {a a' : Flat} {sd : ScoredDatum}
    (h : a.insert E sd = .ok a') (hle : a.list.length ≤ a.config.limit.toNat) :
    a.Same a' ∧ a'.list.length ≤ a.config.limit.toNat := by
  unfold Flat.insert at h
  cases hb : bestScore E.o a.config a.context sd with
  | panic => rw [hb] at h; cases h
  | err e => rw [hb] at h; cases h
  | ok s =>
    rw [hb] at h
    exact insertScored_len hE h hle

theorem insertAll_len {E : Env} (hE : IsSort E.sort) : ∀ (sds : List ScoredDatum) (a a' : Flat),
    a.insertAll E sds = .ok a' → a.list.length ≤ a.config.limit.toNat →
    a.Same a' ∧ a'.list.length ≤ a.config.limit.toNat
  | [], a, a', h, hle => by
    simp only [Flat.insertAll, Res.ok.injEq] at h
    subst h; exact ⟨.refl a, hle⟩
  | sd :: sds, a, a', h, hle => by
    rw [Flat.insertAll] at h
    cases hi : a.insert E sd with
    | panic => rw [hi] at h; cases h
    | err e => rw [hi] at h; cases h
    | ok a1 =>
      rw [hi] at h
      obtain ⟨h1, h2⟩ := insert_len hE hi hle
      obtain ⟨g1, g2⟩ := insertAll_len hE sds a1 a' h (by rw [h1.1]; exact h2)
      exact ⟨h1.trans g1, by rw [h1.1] at g2; exact g2⟩

/-- The final merge of a grouped result is a plain merge of the group representatives. -/
theorem insertOnes_eq (E : Env) : ∀ (gs : List Flat) (agg : Flat) (ones : List ScoredDatum),
    gs.map (fun g => g.one E.o) = ones.map some → insertOnes E agg gs = agg.insertAll E ones
  | [], agg, [], _ => rfl
  | [], _, _ :: _, h => by simp at h
  | _ :: _, _, [], h => by simp at h
  | g :: gs, agg, x :: ones, h => by
    simp only [List.map_cons, List.cons.injEq] at h
    rw [insertOnes, h.1, Flat.insertAll]
    simp only [Res.ofOption_some, Res.bind_ok]
    congr 1
    funext a
    exact insertOnes_eq E gs a ones h.2

theorem insertOnes_len {E : Env} (hE : IsSort E.sort) : ∀ (gs : List Flat) (a a' : Flat),
    insertOnes E a gs = .ok a' → a.list.length ≤ a.config.limit.toNat →
    a.Same a' ∧ a'.list.length ≤ a.config.limit.toNat
  | [], a, a', h, hle => by
    simp only [insertOnes, Res.ok.injEq] at h
    subst h; exact ⟨.refl a, hle⟩
  | g :: gs, a, a', h, hle => by
    rw [insertOnes] at h
    cases ho : g.one E.o with
    | none => rw [ho] at h; cases h
    | some sd =>
      rw [ho] at h
      simp only [Res.ofOption_some, Res.bind_ok] at h
      cases hi : a.insert E sd with
      | panic => rw [hi] at h; cases h
      | err e => rw [hi] at h; cases h
      | ok a1 =>
        rw [hi] at h
        obtain ⟨h1, h2⟩ := insert_len hE hi hle
        obtain ⟨g1, g2⟩ := insertOnes_len hE gs a1 a' h (by rw [h1.1]; exact h2)
        exact ⟨h1.trans g1, by rw [h1.1] at g2; exact g2⟩

theorem toInt_resultLimit {x : UInt64} (h : x.toNat < 2^63) : x.toInt64.toInt = x.toNat := by
  rw [Store.toInt_toInt64]
  rw [Int.bmod_eq_of_le] <;> omega

theorem toInt_resultLimit_neg {x : UInt64} (h : 2^63 ≤ x.toNat) : x.toInt64.toInt < 0 := by
  rw [Store.toInt_toInt64]
  have := x.toNat_lt
  rw [Int.bmod_def]
  split <;> omega

/-- `Result` in full. -/
theorem result_eq (a : Flat) : a.result =
    if a.config.resultLimit = 0 then .ok a.list
    else if 2^63 ≤ a.config.resultLimit.toNat ∧ a.list.length < a.config.resultLimit.toNat then .panic
    else .ok (a.list.take a.config.resultLimit.toNat) := by
  unfold Flat.result
  by_cases h0 : a.config.resultLimit = 0
  · rw [if_pos h0, if_neg (by rw [h0]; simp)]
  · have hpos : 0 < a.config.resultLimit := by
      rw [UInt64.lt_iff_toNat_lt]
      have : a.config.resultLimit.toNat ≠ 0 := fun h => h0 (UInt64.toNat_inj.1 h)
      show 0 < _
      omega
    rw [if_neg h0]
    by_cases hb : 2^63 ≤ a.config.resultLimit.toNat
    · have := toInt_resultLimit_neg hb
      rw [if_pos ⟨hpos, by omega⟩]
      by_cases hl : a.list.length < a.config.resultLimit.toNat
      · rw [if_neg (by omega), if_pos ⟨hb, hl⟩]
      · rw [if_pos (by omega), if_neg (by omega)]
    · have := toInt_resultLimit (x := a.config.resultLimit) (by omega)
      rw [this, if_neg (c := _ ∧ _) (t := Res.panic) (fun h => hb h.1)]
      by_cases hl : a.config.resultLimit.toNat < a.list.length
      · rw [if_pos ⟨hpos, by omega⟩, if_pos (by omega)]
      · rw [if_neg (by omega), List.take_of_length_le (by omega)]

end Agg

/-- C31.  Whatever arrives, under any configuration and context: a merged result has at most `limit` entries, at most
`resultLimit` if that is set, and it is a prefix of the ranked list. -/
theorem C31_result_bounded (E : Env) (hE : E.Ok) (config : SearchConfig) (context : Option SearchContext)
    (arr : List ScoredDatum) (a : Flat) (out : List ScoredDatum)
    (h : (newFlat config context).insertAll E arr = .ok a) (hr : a.result = .ok out) :
    out.length ≤ config.limit.toNat ∧ (config.resultLimit ≠ 0 → out.length ≤ config.resultLimit.toNat) ∧
      out <+: a.list ∧ (config.resultLimit = 0 → out = a.list) ∧
      (a.list.length ≤ config.resultLimit.toNat → out = a.list) := by
  obtain ⟨h1, h2⟩ := insertAll_len hE.sort arr _ _ h (by simp [newFlat])
  have hc : a.config = config := h1.1
  have h2 : a.list.length ≤ config.limit.toNat := h2
  rw [result_eq, hc] at hr
  split at hr
  · rename_i h0
    injection hr with hr; subst hr
    exact ⟨h2, fun hn => absurd h0 hn, List.prefix_rfl, fun _ => rfl, fun _ => rfl⟩
  · rename_i h0
    split at hr
    · cases hr
    · injection hr with hr; subst hr
      simp only [List.length_take]
      exact ⟨by omega, fun _ => by omega, List.take_prefix _ _, fun h => absurd h h0, fun h =>
        List.take_of_length_le h⟩

/-- C31, grouped results: the same bounds. -/
theorem C31_grouped_result_bounded (E : Env) (hE : E.Ok) (a : Grouped) (order : List (Bytes × Flat))
    (out : List ScoredDatum) (hr : a.result E order = .ok out) :
    out.length ≤ a.config.limit.toNat ∧ (a.config.resultLimit ≠ 0 → out.length ≤ a.config.resultLimit.toNat) := by
  unfold Grouped.result at hr
  cases hi : insertOnes E (newFlat a.config a.context) (order.map (·.2)) with
  | panic => rw [hi] at hr; cases hr
  | err e => rw [hi] at hr; cases hr
  | ok f =>
    rw [hi] at hr
    obtain ⟨h1, h2⟩ := insertOnes_len hE.sort _ _ _ hi (by simp [newFlat])
    have hc : f.config = a.config := h1.1
    have h2 : f.list.length ≤ a.config.limit.toNat := h2
    simp only [Res.bind_ok] at hr
    rw [result_eq, hc] at hr
    split at hr
    · rename_i h0
      injection hr with hr; subst hr
      exact ⟨h2, fun hn => absurd h0 hn⟩
    · split at hr
      · cases hr
      · injection hr with hr; subst hr
        simp only [List.length_take]
        exact ⟨by omega, fun _ => by omega⟩

/-- C31: the ranked list is ranked, best first, in either direction. -/
theorem C31_ranked (E : Env) (hE : E.Ok) (config : SearchConfig) (arr : List ScoredDatum) (a : Flat)
    (hk : Ref.Keyed arr) (hn : Ref.NoNaN arr) (h : (newFlat config none).insertAll E arr = .ok a) :
    SortedBy (Ref.better config.higherIsBetter) a.list :=
  insertAll_sorted hE arr (newFlat config none) a rfl hk (by simpa [newFlat] using hn) List.Pairwise.nil h

/-- C73, full statement: merging results that all carry a key never crashes, whatever the requested limits.  FALSE of
the code. -/
def C73_merge_never_panics_statement : Prop :=
  ∀ (E : Env) (config : SearchConfig) (arr : List ScoredDatum), E.Ok → Ref.Keyed arr →
    (((newFlat config none).insertAll E arr).bind fun a => a.result) ≠ .panic

/-- C73, exactly: a merge panics if and only if the result limit is 2^63 or more, or the limit is zero and something
arrives. -/
theorem C73_merge_panics_iff (E : Env) (hE : E.Ok) (config : SearchConfig) (arr : List ScoredDatum)
    (hk : Ref.Keyed arr) :
    (((newFlat config none).insertAll E arr).bind fun a => a.result) = .panic ↔
      2^63 ≤ config.resultLimit.toNat ∨ config.limit = 0 ∧ arr ≠ [] := by
  have hres : ∀ a : Flat, a.config = config → a.list.length ≤ config.limit.toNat →
      (a.result = .panic ↔ 2^63 ≤ config.resultLimit.toNat) := by
    intro a hc hle
    rw [result_eq, hc]
    have hlt := config.limit.toNat_lt
    split
    · rename_i h0; rw [h0]; simp
    · split
      · rename_i h; simp [h.1]
      · rename_i h
        simp only [reduceCtorEq, false_iff]
        omega
  by_cases hl : config.limit = 0
  · cases arr with
    | nil =>
      simp only [Flat.insertAll, Res.bind_ok, ne_eq, not_true_eq_false, and_false, or_false]
      exact hres _ rfl (by simp [newFlat])
    | cons x xs =>
      obtain ⟨k, v, hx⟩ := hk x List.mem_cons_self
      have : (newFlat config none).insert E x = .panic := by
        rw [insert_noContext E _ rfl]
        simp [Flat.insertScored, Flat.insertToList, newFlat, hx, getKeyAsBytes_some, hl]
      rw [Flat.insertAll, this]
      simp [hl]
  · have hpos : 0 < config.limit := by
      rw [UInt32.lt_iff_toNat_lt]
      have : config.limit.toNat ≠ 0 := fun h => hl (UInt32.toNat_inj.1 h)
      show 0 < _
      omega
    obtain ⟨a, h1, h2, h3, _⟩ := Agg.insertAll_ok hE.sort arr (newFlat config none) hpos rfl hk (by simp [newFlat])
      (by simp [newFlat])
    rw [h1]
    simp only [Res.bind_ok]
    rw [hres a h2.1 h3]
    simp [hl]

/-- C73, counterexample. -/
theorem C73_merge_never_panics_fails : ¬ C73_merge_never_panics_statement := by
  intro h
  exact h exEnv { defaultSearchConfig with resultLimit := 0x8000000000000000 } [] exEnv_ok (by simp [Ref.Keyed])
    ((C73_merge_panics_iff exEnv exEnv_ok _ [] (by simp [Ref.Keyed])).2 (Or.inl (by decide)))

/-- C73, partial: positive limit, result limit below 2^63. -/
theorem C73_merge_returns_partial (E : Env) (hE : E.Ok) (config : SearchConfig) (arr : List ScoredDatum)
    (hk : Ref.Keyed arr) (hl : config.limit ≠ 0) (hr : config.resultLimit.toNat < 2^63) :
    (((newFlat config none).insertAll E arr).bind fun a => a.result) ≠ .panic := by
  rw [ne_eq, C73_merge_panics_iff E hE config arr hk]
  rintro (h | h)
  · omega
  · exact hl h.1

namespace Agg
open Ref

/-- The scores of a datum against the context data. -/
def contextScores (o : FOps F32 F64) (config : SearchConfig) (k : DatumKey) (keys : List DatumKey) : List F64 :=
  keys.map fun c => (Vec.getVectorComparisonFunction config.scoreFuncName).eval o k.feature c.feature

theorem bestLoop_spec {o : FOps F32 F64} (ho : Bits o) (config : SearchConfig) (f : DatumKey) : ∀ (ds : List Datum)
    (keys : List DatumKey) (cur : Option F64) (before : List F64), ds.map (·.key) = keys.map some →
    (match cur with | none => before = [] | some c => IsBest true before c) →
    (∀ s ∈ before ++ contextScores o config f keys, F64.isNaN s = false) →
    ∃ r, bestLoop o config f.feature cur ds = .ok r ∧
      match r with
      | none => before ++ contextScores o config f keys = []
      | some c => IsBest true (before ++ contextScores o config f keys) c
  | [], [], cur, before, _, hc, _ => ⟨cur, rfl, by cases cur <;> simpa [contextScores] using hc⟩
  | [], _ :: _, _, _, h, _, _ => by simp at h
  | _ :: _, [], _, _, h, _, _ => by simp at h
  | d :: ds, k :: keys, cur, before, h, hc, hn => by
    simp only [List.map_cons, List.cons.injEq] at h
    have hsplit : before ++ contextScores o config f (k :: keys) =
        (before ++ [(Vec.getVectorComparisonFunction config.scoreFuncName).eval o f.feature k.feature]) ++
          contextScores o config f keys := by simp [contextScores]
    rw [hsplit] at hn ⊢
    rw [bestLoop, h.1]
    simp only [Res.ofOption_some, Res.bind_ok]
    generalize (Vec.getVectorComparisonFunction config.scoreFuncName).eval o f.feature k.feature = new at hn ⊢
    cases cur with
    | none =>
      refine bestLoop_spec ho config f ds keys (some new) (before ++ [new]) h.2 ?_ hn
      simp only at hc
      subst hc
      simp [IsBest, F64.lt_irrefl]
    | some c =>
      simp only at hc
      simp only [isNew_eq ho]
      have hcn : F64.isNaN c = false := hn c (by simp [hc.1])
      have hnn : F64.isNaN new = false := hn new (by simp)
      split
      · rename_i hlt
        refine bestLoop_spec ho config f ds keys (some new) (before ++ [new]) h.2 ⟨by simp, ?_⟩ hn
        intro t ht
        rcases List.mem_append.1 ht with ht | ht
        · have h1 := hc.2 t ht
          have htn : F64.isNaN t = false := hn t (by simp [ht])
          simp only [if_true] at h1 ⊢
          rw [F64.not_lt_iff hcn htn] at h1
          rw [F64.not_lt_iff hnn htn]
          have := ((F64.lt_iff _ _).1 hlt).2.2
          omega
        · rw [List.mem_singleton.1 ht]; simp [F64.lt_irrefl]
      · rename_i hlt
        refine bestLoop_spec ho config f ds keys (some c) (before ++ [new]) h.2 ⟨by simp [hc.1], ?_⟩ hn
        intro t ht
        rcases List.mem_append.1 ht with ht | ht
        · exact hc.2 t ht
        · rw [List.mem_singleton.1 ht]; simpa using hlt

end Agg

/-- C32, full statement: with context data the score becomes the best, in the direction of the query, of the search
score (unless the context is prioritised) and the scores against the context data.  FALSE of the code when lower is
better. -/
def C32_context_best_statement : Prop :=
  ∀ (E : Env) (config : SearchConfig) (ctx : SearchContext) (sd : ScoredDatum) (k : DatumKey) (keys : List DatumKey),
    E.Ok → sd.datum.key = some k → ctx.datum.map (·.key) = keys.map some → keys ≠ [] →
    (∀ s ∈ sd.score :: contextScores E.o config k keys, F64.isNaN s = false) →
    ∃ s, bestScore E.o config (some ctx) sd = .ok s ∧
      Ref.IsBest config.higherIsBetter ((if ctx.prioritize then [] else [sd.score]) ++ contextScores E.o config k keys) s

/-- C32, what the code does in either direction: the LARGEST of those scores. -/
theorem C32_context_largest (E : Env) (hE : E.Ok) (config : SearchConfig) (ctx : SearchContext) (sd : ScoredDatum)
    (k : DatumKey) (keys : List DatumKey) (hk : sd.datum.key = some k) (hc : ctx.datum.map (·.key) = keys.map some)
    (hne : keys ≠ []) (hn : ∀ s ∈ sd.score :: contextScores E.o config k keys, F64.isNaN s = false) :
    ∃ s, bestScore E.o config (some ctx) sd = .ok s ∧
      Ref.IsBest true ((if ctx.prioritize then [] else [sd.score]) ++ contextScores E.o config k keys) s := by
  have hd : ctx.datum.isEmpty = false := by
    cases h : ctx.datum with
    | nil => rw [h] at hc; exact absurd (List.map_eq_nil_iff.1 hc.symm) hne
    | cons _ _ => rfl
  obtain ⟨r, h1, h2⟩ := bestLoop_spec hE.bits config k ctx.datum keys
    (if ctx.prioritize then none else some sd.score) (if ctx.prioritize then [] else [sd.score]) hc
    (by cases ctx.prioritize <;> simp [Ref.IsBest, F64.lt_irrefl])
    (by
      intro s hs
      apply hn
      rcases List.mem_append.1 hs with h | h
      · cases hp : ctx.prioritize <;> simp [hp] at h
        simp [h]
      · exact List.mem_cons_of_mem _ h)
  cases r with
  | none =>
    simp only [List.append_eq_nil_iff] at h2
    exact absurd (List.map_eq_nil_iff.1 h2.2) hne
  | some s =>
    refine ⟨s, ?_, h2⟩
    unfold bestScore
    simp only [hd, Bool.false_eq_true, if_false, hk, Res.ofOption_some, Res.bind_ok, h1, Option.getD_some]

/-- C32, partial: right when higher is better. -/
theorem C32_context_best_partial (E : Env) (hE : E.Ok) (config : SearchConfig) (ctx : SearchContext) (sd : ScoredDatum)
    (k : DatumKey) (keys : List DatumKey) (hdir : config.higherIsBetter = true) (hk : sd.datum.key = some k)
    (hc : ctx.datum.map (·.key) = keys.map some)
    (hne : keys ≠ []) (hn : ∀ s ∈ sd.score :: contextScores E.o config k keys, F64.isNaN s = false) :
    ∃ s, bestScore E.o config (some ctx) sd = .ok s ∧
      Ref.IsBest config.higherIsBetter ((if ctx.prioritize then [] else [sd.score]) ++ contextScores E.o config k keys) s := by
  rw [hdir]
  exact C32_context_largest E hE config ctx sd k keys hk hc hne hn

/-- C32: without context data the score is unchanged. -/
theorem C32_no_context (E : Env) (config : SearchConfig) (ctx : SearchContext) (sd : ScoredDatum) (h : ctx.datum = []) :
    bestScore E.o config none sd = .ok sd.score ∧ bestScore E.o config (some ctx) sd = .ok sd.score := by
  simp [bestScore, h]

/-- C32, counterexample: distance 0 to the query, distance 1 to the context; the code reports 1. -/
theorem C32_context_best_fails : ¬ C32_context_best_statement := by
  intro h
  obtain ⟨s, h1, h2, h3⟩ := h exEnv defaultSearchConfig ⟨[⟨some (exPoint 0x3F800000), none⟩], false⟩ (exHit 0 0)
    (exPoint 0) [exPoint 0x3F800000] exEnv_ok rfl rfl (by simp) (by unfold contextScores; decide +kernel)
  have h4 := h3 0 (by simp [exHit])
  obtain ⟨s', g1, g2, g3⟩ := C32_context_largest exEnv exEnv_ok defaultSearchConfig
    ⟨[⟨some (exPoint 0x3F800000), none⟩], false⟩ (exHit 0 0)
    (exPoint 0) [exPoint 0x3F800000] rfl rfl (by simp) (by unfold contextScores; decide +kernel)
  rw [h1] at g1; injection g1 with g1; subst g1
  have g4 := g3 F64.one (by
    have : contextScores exEnv.o defaultSearchConfig (exPoint 0) [exPoint 0x3F800000] = [F64.one] := by
      unfold contextScores; decide +kernel
    simp [this])
  have hs : s = 0 ∨ s = F64.one := by
    have : contextScores exEnv.o defaultSearchConfig (exPoint 0) [exPoint 0x3F800000] = [F64.one] := by
      unfold contextScores; decide +kernel
    rw [this] at h2
    simpa [exHit] using h2
  rcases hs with rfl | rfl
  · revert g4; decide +kernel
  · revert h4; decide +kernel

namespace Agg

theorem insertToList_same {E : Env} {a a' : Flat} {sd : ScoredDatum} (h : a.insertToList E sd = .ok a') : a.Same a' := by
  unfold Flat.insertToList at h
  split at h
  · injection h with h; subst h; exact ⟨rfl, rfl⟩
  · cases hg : a.list.getLast? with
    | none => rw [hg] at h; simp at h
    | some last =>
      rw [hg] at h
      simp only [Res.ofOption_some, Res.bind_ok] at h
      split at h
      · injection h with h; subst h; exact ⟨rfl, rfl⟩
      · injection h with h; subst h; exact .refl _

theorem insertScored_same {E : Env} {a a' : Flat} {sd : ScoredDatum} (h : a.insertScored E sd = .ok a') : a.Same a' := by
  unfold Flat.insertScored at h
  cases hk : getKeyAsBytes sd.datum with
  | none => rw [hk] at h; simp at h
  | some kb =>
    rw [hk] at h
    simp only [Res.ofOption_some, Res.bind_ok] at h
    split at h
    · split at h
      · have := insertToList_same h
        exact ⟨this.1, this.2⟩
      · injection h with h; subst h; exact .refl _
    · have := insertToList_same h
      exact ⟨this.1, this.2⟩

/-- Forget the context. -/
def Flat.plain (a : Flat) : Flat := { a with context := none }

theorem insertToList_plain (E : Env) (a : Flat) (sd : ScoredDatum) :
    (a.insertToList E sd).bind (fun a => .ok a.plain) = a.plain.insertToList E sd := by
  unfold Flat.insertToList Flat.plain
  simp only
  split
  · rfl
  · cases a.list.getLast? with
    | none => rfl
    | some last => simp only [Res.ofOption_some, Res.bind_ok]; split <;> rfl

theorem insertScored_plain (E : Env) (a : Flat) (sd : ScoredDatum) :
    (a.insertScored E sd).bind (fun a => .ok a.plain) = a.plain.insertScored E sd := by
  unfold Flat.insertScored
  cases getKeyAsBytes sd.datum with
  | none => rfl
  | some kb =>
    simp only [Res.ofOption_some, Res.bind_ok]
    rw [show a.plain.seen = a.seen from rfl]
    cases a.seen.get? (encodeToString kb) with
    | none => exact insertToList_plain E _ sd
    | some p =>
      simp only
      rw [show a.plain.config = a.config from rfl]
      split
      · exact insertToList_plain E _ sd
      · rfl

end Agg

/-- C32: merging with a context is merging the rescored arrivals without one. -/
theorem C32_merge_rescored (E : Env) (config : SearchConfig) (context : Option SearchContext) (s : ScoredDatum → F64) :
    ∀ (arr : List ScoredDatum) (a : Flat), (∀ x ∈ arr, bestScore E.o config context x = .ok (s x)) →
    a.config = config → a.context = context →
    (a.insertAll E arr).bind (fun a => .ok a.plain) =
      a.plain.insertAll E (arr.map fun x => { x with score := s x })
  | [], a, _, _, _ => rfl
  | x :: arr, a, hs, hc, hx => by
    rw [List.map_cons, Flat.insertAll, Flat.insertAll, insert_noContext E a.plain rfl, ← insertScored_plain]
    unfold Flat.insert
    rw [hc, hx, hs x List.mem_cons_self]
    simp only [Res.bind_ok]
    cases hi : a.insertScored E { x with score := s x } with
    | panic => rfl
    | err e => rfl
    | ok a1 =>
      have hsame := insertScored_same hi
      exact C32_merge_rescored E config context s arr a1 (fun y hy => hs y (List.mem_cons_of_mem _ hy))
        (hsame.1.trans hc) (hsame.2.trans hx)

namespace Ref

/-- The group label of a result. -/
def labelOf (x : ScoredDatum) : Bytes := ((x.datum.key.map (·.groupLabel)).getD [])

/-- The results of one group. -/
def inGroup (l : Bytes) (arr : List ScoredDatum) : List ScoredDatum := arr.filter fun x => decide (labelOf x = l)

/-- The documented group score: the sum, divided by the square of the number of scores if lower is better. -/
def groupScore (o : FOps F32 F64) (higherIsBetter : Bool) (scores : List F64) : F64 :=
  let sum := scores.foldl o.addD o.zeroD
  if higherIsBetter then sum else o.divD sum (o.mulD (o.ofNatD scores.length) (o.ofNatD scores.length))

/-- `sd` stands for a group whose collected results, best ranked first, are `members`. -/
def Represents (o : FOps F32 F64) (higherIsBetter : Bool) (members : List ScoredDatum) (sd : ScoredDatum) : Prop :=
  (∃ first rest, members = first :: rest ∧ sd.datum = first.datum) ∧
    sd.score = groupScore o higherIsBetter (members.map (·.score))

end Ref

namespace Agg
open Ref

theorem insertAll_append (E : Env) : ∀ (xs ys : List ScoredDatum) (a : Flat),
    a.insertAll E (xs ++ ys) = (a.insertAll E xs).bind fun a => a.insertAll E ys
  | [], ys, a => rfl
  | x :: xs, ys, a => by
    rw [List.cons_append, Flat.insertAll, Flat.insertAll]
    cases a.insert E x with
    | panic => rfl
    | err e => rfl
    | ok a1 => exact insertAll_append E xs ys a1

theorem same_label {l : List ScoredDatum} (h : (l.map labelOf).Nodup) :
    ∀ x ∈ l, ∀ y ∈ l, labelOf x = labelOf y → x = y := by
  induction l with
  | nil => intro x hx; cases hx
  | cons z zs ih =>
    rw [List.map_cons, List.nodup_cons] at h
    intro x hx y hy he
    rcases List.mem_cons.1 hx with hx | hx <;> rcases List.mem_cons.1 hy with hy | hy
    · rw [hx, hy]
    · rw [hx] at he; exact absurd (List.mem_map.2 ⟨y, hy, he.symm⟩) h.1
    · rw [hy] at he; exact absurd (List.mem_map.2 ⟨x, hx, he⟩) h.1
    · exact ih h.2 x hx y hy he

/-- The configuration of a group's aggregator. -/
def groupConfig (config : SearchConfig) : SearchConfig := { config with limit := config.groupLimit }

/-- The merge of the results of one group. -/
def groupMerge (E : Env) (config : SearchConfig) (l : Bytes) (arr : List ScoredDatum) : Res Flat :=
  (newFlat (groupConfig config) none).insertAll E (inGroup l arr)

theorem groupMerge_ok {E : Env} (hE : IsSort E.sort) (config : SearchConfig) (hg : 0 < config.groupLimit) (l : Bytes)
    (arr : List ScoredDatum) (hk : Keyed arr) : ∃ g, groupMerge E config l arr = .ok g ∧ g.config = groupConfig config ∧
      (∀ x ∈ g.list, x ∈ inGroup l arr) ∧ (inGroup l arr ≠ [] → g.list ≠ []) := by
  obtain ⟨g, h1, h2, _, h4, h5⟩ := insertAll_ok hE (inGroup l arr) (newFlat (groupConfig config) none) hg rfl
    (fun x hx => hk x (List.mem_filter.1 hx).1) (by simp [newFlat]) (by simp [newFlat])
  exact ⟨g, h1, h2.1, fun x hx => (h4 x hx).resolve_left (by simp [newFlat]), fun h => h5 (Or.inr h)⟩

/-- The groups after a merge: one per label that arrived, holding the merge of its results. -/
structure GInv (E : Env) (config : SearchConfig) (a : Grouped) (arr : List ScoredDatum) : Prop where
  cfg : a.config = config
  nodup : AMap.Nodup a.groups
  some_ : ∀ l g, a.groups.get? l = some g → inGroup l arr ≠ [] ∧ groupMerge E config l arr = .ok g
  none_ : ∀ l, a.groups.get? l = none → inGroup l arr = []

theorem grouped_insertAll {E : Env} (hE : IsSort E.sort) (config : SearchConfig) (hg : 0 < config.groupLimit) :
    ∀ (sds : List ScoredDatum) (a : Grouped) (arr : List ScoredDatum), a.context = none → Keyed (arr ++ sds) →
    GInv E config a arr → ∃ a', a.insertAll E sds = .ok a' ∧ a'.context = none ∧ GInv E config a' (arr ++ sds)
  | [], a, arr, hc, _, hi => ⟨a, rfl, hc, by simpa using hi⟩
  | sd :: sds, a, arr, hc, hk, hi => by
    obtain ⟨k, v, hkv⟩ := hk sd (by simp)
    have hlab : labelOf sd = k.groupLabel := by simp [labelOf, hkv]
    have hself : inGroup k.groupLabel (arr ++ [sd]) = inGroup k.groupLabel arr ++ [sd] := by
      simp [inGroup, List.filter_append, hlab]
    have hother : ∀ l, l ≠ k.groupLabel → inGroup l (arr ++ [sd]) = inGroup l arr := by
      intro l hl
      have : ¬ labelOf sd = l := by rw [hlab]; exact fun h => hl h.symm
      simp [inGroup, List.filter_append, this]
    have hassoc : arr ++ sd :: sds = (arr ++ [sd]) ++ sds := by simp
    obtain ⟨g', hg1, _⟩ := groupMerge_ok hE config hg k.groupLabel (arr ++ [sd])
      (fun x hx => hk x (by rw [hassoc]; exact List.mem_append_left _ hx))
    have hg1' := hg1
    unfold groupMerge at hg1
    rw [hself, insertAll_append] at hg1
    -- the group before this arrival
    have hg0 : groupMerge E config k.groupLabel arr = .ok (a.group k.groupLabel) := by
      unfold Grouped.group
      cases h : a.groups.get? k.groupLabel with
      | some g => exact (hi.some_ _ g h).2
      | none => simp only [groupMerge]; rw [hi.none_ _ h, hi.cfg]; rfl
    generalize hgg : a.group k.groupLabel = g0 at hg0
    have hins : g0.insert E sd = .ok g' := by
      rw [groupMerge] at hg0
      rw [hg0] at hg1
      simp only [Res.bind_ok, Flat.insertAll] at hg1
      cases h : g0.insert E sd with
      | panic => rw [h] at hg1; cases hg1
      | err e => rw [h] at hg1; cases hg1
      | ok x => rw [h] at hg1; simpa using hg1
    have hstep : a.insert E sd = .ok { a with groups := a.groups.set k.groupLabel g' } := by
      unfold Grouped.insert bestScore
      rw [hc]
      simp only [Res.bind_ok, hkv, Res.ofOption_some, encodeToString]
      rw [hgg]
      have hsd : ({ score := sd.score, datum := ⟨some k, v⟩ } : ScoredDatum) = sd := by rw [← hkv]
      rw [hsd, hins]
      rfl
    have hi' : GInv E config { a with groups := a.groups.set k.groupLabel g' } (arr ++ [sd]) := by
      refine ⟨hi.cfg, AMap.nodup_set hi.nodup _ _, ?_, ?_⟩
      · intro l g hl
        by_cases he : k.groupLabel = l
        · subst he
          rw [AMap.get?_set_self] at hl
          injection hl with hl; subst hl
          exact ⟨by rw [hself]; simp, hg1'⟩
        · rw [AMap.get?_set_ne _ _ he] at hl
          obtain ⟨h1, h2⟩ := hi.some_ l g hl
          rw [groupMerge, hother l fun h => he h.symm]
          exact ⟨h1, h2⟩
      · intro l hl
        by_cases he : k.groupLabel = l
        · subst he; rw [AMap.get?_set_self] at hl; cases hl
        · rw [AMap.get?_set_ne _ _ he] at hl
          rw [hother l fun h => he h.symm]
          exact hi.none_ l hl
    obtain ⟨a', h1, h2, h3⟩ := grouped_insertAll hE config hg sds { a with groups := a.groups.set k.groupLabel g' }
      (arr ++ [sd]) hc (by rw [← hassoc]; exact hk) hi'
    refine ⟨a', ?_, h2, by rw [hassoc]; exact h3⟩
    rw [Grouped.insertAll, hstep]; exact h1

theorem one_represents (o : FOps F32 F64) (g : Flat) (h : g.list ≠ []) :
    ∃ sd, g.one o = some sd ∧ Represents o g.config.higherIsBetter g.list sd := by
  unfold Flat.one
  cases hl : g.list with
  | nil => exact absurd hl h
  | cons x xs =>
    simp only
    have hsum : (x :: xs).foldl (fun s sd => o.addD s sd.score) o.zeroD =
        ((x :: xs).map (·.score)).foldl o.addD o.zeroD := by rw [List.foldl_map]
    cases hb : g.config.higherIsBetter with
    | true =>
      refine ⟨_, if_pos rfl, ⟨x, xs, rfl, rfl⟩, ?_⟩
      simp only [groupScore, if_true]
      exact hsum
    | false =>
      refine ⟨_, if_neg (by simp), ⟨x, xs, rfl, rfl⟩, ?_⟩
      simp only [groupScore, Bool.false_eq_true, if_false, List.length_map]
      rw [hsum]

/-- The representatives, in the iteration order of the map. -/
theorem ones_exist {E : Env} (hE : IsSort E.sort) (config : SearchConfig) (hg : 0 < config.groupLimit)
    (arr : List ScoredDatum) (hk : Keyed arr) : ∀ (order : List (Bytes × Flat)),
    (∀ p ∈ order, inGroup p.1 arr ≠ [] ∧ groupMerge E config p.1 arr = .ok p.2) →
    ∃ ones : List ScoredDatum, (order.map (·.2)).map (fun g => g.one E.o) = ones.map some ∧
      ones.map labelOf = order.map (·.1) ∧
      ∀ sd ∈ ones, (∃ k v, sd.datum = ⟨some k, v⟩) ∧ ∃ g, groupMerge E config (labelOf sd) arr = .ok g ∧
        Represents E.o config.higherIsBetter g.list sd
  | [], _ => ⟨[], rfl, rfl, by simp⟩
  | p :: order, h => by
    obtain ⟨ones, h1, h2, h3⟩ := ones_exist hE config hg arr hk order fun q hq => h q (List.mem_cons_of_mem _ hq)
    obtain ⟨hne, hm⟩ := h p List.mem_cons_self
    obtain ⟨g, g1, g2, g3, g4⟩ := groupMerge_ok hE config hg p.1 arr hk
    rw [hm] at g1; injection g1 with g1; subst g1
    obtain ⟨sd, s1, s2⟩ := one_represents E.o p.2 (g4 hne)
    have s2' := s2
    obtain ⟨⟨first, rest, e1, e2⟩, _⟩ := s2'
    have hfirst := List.mem_filter.1 (g3 first (by rw [e1]; exact List.mem_cons_self))
    have hl : labelOf sd = p.1 := by
      have : labelOf first = p.1 := by simpa using hfirst.2
      rw [← this]; simp only [labelOf, e2]
    refine ⟨sd :: ones, ?_, ?_, ?_⟩
    · simp only [List.map_cons, s1, h1]
    · simp only [List.map_cons, h2, hl]
    · intro x hx
      rcases List.mem_cons.1 hx with rfl | hx
      · refine ⟨?_, p.2, by rw [hl]; exact hm, ?_⟩
        · obtain ⟨k, v, hkv⟩ := hk first hfirst.1
          exact ⟨k, v, by rw [e2, hkv]⟩
        · rw [g2] at s2; exact s2
      · exact h3 x hx

end Agg

/-- C30.  A grouped merge (no context, positive limits), whatever the iteration order `order` over the groups: there
is one representative per group label that arrived (`ones`), carrying the documented score of the results its group
collected (`groupMerge` is the plain merge, C27-C29, of the group's arrivals with the group limit); the result consists
of such representatives, at most one per label, as many as the limits allow. -/
theorem C30_grouped_result (E : Env) (hE : E.Ok) (config : SearchConfig) (arr : List ScoredDatum)
    (hl : 0 < config.limit) (hg : 0 < config.groupLimit) (hr : config.resultLimit.toNat < 2^63) (hk : Ref.Keyed arr) :
    ∃ a, (newGrouped config none).insertAll E arr = .ok a ∧ ∀ order, order.Perm a.groups →
      ∃ out ones rest, a.result E order = .ok out ∧
        (ones.map Ref.labelOf).Nodup ∧ (∀ l, l ∈ ones.map Ref.labelOf ↔ ∃ x ∈ arr, Ref.labelOf x = l) ∧
        (∀ sd ∈ ones, ∃ g, groupMerge E config (Ref.labelOf sd) arr = .ok g ∧
          Ref.Represents E.o config.higherIsBetter g.list sd) ∧
        (out ++ rest).Perm ones ∧ (out.map Ref.labelOf).Nodup ∧
        (config.resultLimit = 0 → out.length = min config.limit.toNat ones.length) := by
  obtain ⟨a, h1, h2, hi⟩ := grouped_insertAll hE.sort config hg arr (newGrouped config none) [] rfl (by simpa using hk)
    ⟨rfl, AMap.nodup_nil, by simp [newGrouped], by simp [Ref.inGroup]⟩
  rw [List.nil_append] at hi
  refine ⟨a, h1, fun order hp => ?_⟩
  have hord : ∀ p ∈ order, Ref.inGroup p.1 arr ≠ [] ∧ groupMerge E config p.1 arr = .ok p.2 := fun p hp' =>
    hi.some_ p.1 p.2 (AMap.get?_of_mem hi.nodup (hp.mem_iff.1 hp'))
  obtain ⟨ones, o1, o2, o3⟩ := ones_exist hE.sort config hg arr hk order hord
  have hnd : (ones.map Ref.labelOf).Nodup := by
    rw [o2]; exact (List.Perm.nodup_iff (hp.map (fun p : Bytes × Flat => p.1))).2 hi.nodup
  have hlab : ∀ l, l ∈ ones.map Ref.labelOf ↔ ∃ x ∈ arr, Ref.labelOf x = l := by
    intro l
    rw [o2, (hp.map (·.1)).mem_iff]
    constructor
    · intro h
      obtain ⟨p, hp', rfl⟩ := List.mem_map.1 h
      obtain ⟨hne, _⟩ := hi.some_ p.1 p.2 (AMap.get?_of_mem hi.nodup hp')
      obtain ⟨x, hx⟩ := List.exists_mem_of_ne_nil _ hne
      have := List.mem_filter.1 hx
      exact ⟨x, this.1, by simpa using this.2⟩
    · rintro ⟨x, hx, hxl⟩
      cases hgl : a.groups.get? l with
      | none =>
        have h3 := hi.none_ l hgl
        have : x ∈ Ref.inGroup l arr := List.mem_filter.2 ⟨hx, by simpa using hxl⟩
        rw [h3] at this; cases this
      | some g => exact List.mem_map.2 ⟨(l, g), AMap.mem_of_get? hgl, rfl⟩
  have hcons : Ref.Consistent ones := by
    -- the keys are all different, because the labels are
    have hsame : ∀ x ∈ ones, ∀ y ∈ ones, x.datum.key = y.datum.key → x = y := by
      intro x hx y hy hxy
      have hlxy : Ref.labelOf x = Ref.labelOf y := by simp only [Ref.labelOf, hxy]
      exact same_label hnd x hx y hy hlxy
    intro x hx y hy hxy
    rw [hsame x hx y hy hxy]; exact F64.lt_irrefl _
  obtain ⟨f, acc, out, f1, f2, f3, f4, f5⟩ := insertAll_distinct hE ones (newFlat config none) [] [] hl rfl
    (seen_nil _ _) ⟨[], .refl _⟩ (by simp [newFlat]) (fun x hx => (o3 x hx).1) hcons
  rw [List.nil_append] at f3
  -- every representative is accepted
  have hkeys : (ones.map (·.datum.key)).Nodup := by
    refine List.pairwise_map.2 ((List.pairwise_map.1 hnd).imp ?_)
    intro x y hxy he
    exact hxy (by simp only [Ref.labelOf, he])
  have hperm : acc.Perm ones := by
    have hn1 : acc.Nodup := (List.pairwise_map.1 f3.2.1).imp fun h he => h (by rw [he])
    have hn2 : ones.Nodup := (List.pairwise_map.1 hkeys).imp fun h he => h (by rw [he])
    refine (List.perm_ext_iff_of_nodup hn1 hn2).2 fun x => ⟨f3.1 x, fun hx => ?_⟩
    obtain ⟨y, hy, hyk⟩ := f3.2.2 x hx
    have hl' : Ref.labelOf y = Ref.labelOf x := by simp only [Ref.labelOf, hyk]
    rw [← same_label hnd y (f3.1 y hy) x hx hl']; exact hy
  have hres : a.result E order = f.result := by
    unfold Grouped.result
    rw [hi.cfg, h2, insertOnes_eq E _ _ _ o1, f1]
    rfl
  have hfc : f.config = config := f2.1
  have hf4 : (f.list ++ out).Perm ones := f4.trans hperm
  have hfl : f.list.length = min config.limit.toNat ones.length := by rw [f5, hperm.length_eq]; rfl
  have hsub : ∀ o r : List ScoredDatum, (o ++ r).Perm ones → (o.map Ref.labelOf).Nodup := by
    intro o r hor
    have := (hor.map Ref.labelOf).nodup_iff.2 hnd
    rw [List.map_append] at this
    exact (List.nodup_append.1 this).1
  by_cases h0 : config.resultLimit = 0
  · refine ⟨f.list, ones, out, ?_, hnd, hlab, fun sd hsd => (o3 sd hsd).2, hf4, hsub _ _ hf4, fun _ => hfl⟩
    rw [hres, result_eq, hfc, if_pos h0]
  · have hp' : (f.list.take config.resultLimit.toNat ++ (f.list.drop config.resultLimit.toNat ++ out)).Perm ones := by
      rw [← List.append_assoc, List.take_append_drop]; exact hf4
    refine ⟨f.list.take config.resultLimit.toNat, ones, f.list.drop config.resultLimit.toNat ++ out, ?_, hnd, hlab,
      fun sd hsd => (o3 sd hsd).2, hp', hsub _ _ hp', fun h => absurd h h0⟩
    rw [hres, result_eq, hfc, if_neg h0, if_neg (by omega)]

/-- C30: the representative is the best ranked member collected. -/
theorem C30_representative_best (E : Env) (hE : E.Ok) (config : SearchConfig) (arr : List ScoredDatum) (l : Bytes)
    (hk : Ref.Keyed arr) (hn : Ref.NoNaN arr) (g : Flat) (first : ScoredDatum) (rest : List ScoredDatum)
    (h : groupMerge E config l arr = .ok g) (hl : g.list = first :: rest) :
    ∀ x ∈ g.list, Ref.better config.higherIsBetter x first = false := by
  have hs := C31_ranked E hE (groupConfig config) _ g (fun x hx => hk x (List.mem_filter.1 hx).1)
    (fun x hx => hn x (List.mem_filter.1 hx).1) h
  rw [hl] at hs ⊢
  have hs : SortedBy (Ref.better config.higherIsBetter) (first :: rest) := hs
  intro x hx
  rcases List.mem_cons.1 hx with rfl | hx
  · exact (better_weakOrder config.higherIsBetter [x] (by
      have hxg : x ∈ g.list := by rw [hl]; exact List.mem_cons_self
      intro y hy
      rw [List.mem_singleton.1 hy]
      have hm : ∀ y ∈ g.list, y ∈ Ref.inGroup l arr := by
        by_cases hg : 0 < config.groupLimit
        · obtain ⟨g', g1, _, g3, _⟩ := groupMerge_ok (E := E) hE.sort config hg l arr hk
          rw [h] at g1; injection g1 with g1; subst g1; exact g3
        · exfalso
          have hlen := (insertAll_len hE.sort _ _ _ h (by simp [newFlat])).2
          have : (newFlat (groupConfig config) none).config.limit.toNat = 0 := by
            simp only [newFlat, groupConfig]
            have := fun h => hg (UInt32.lt_iff_toNat_lt.2 h)
            simp at this
            simp [this]
          rw [this, hl] at hlen
          simp at hlen
      exact hn x (List.mem_filter.1 (hm x hxg)).1)).irrefl x (by simp)
  · exact (List.pairwise_cons.1 hs).1 x hx

namespace Agg

/-- The result of a grouped merge, for evaluation. -/
def groupedResult (E : Env) (config : SearchConfig) (context : Option SearchContext) (arr : List ScoredDatum) :
    Option (List ScoredDatum) :=
  match ((newGrouped config context).insertAll E arr).bind fun a => a.result E a.groups with
  | .ok out => some out
  | _ => none

/-- A result for the point `x` in the group `l`. -/
def exGrouped (s : F64) (x : F32) (l : Bytes) : ScoredDatum := ⟨s, ⟨some { exPoint x with groupLabel := l }, some ⟨1, [7]⟩⟩⟩

def exGroupConfig : SearchConfig := { defaultSearchConfig with groupLimit := 2 }

end Agg

/-- C30 is not vacuous: two groups, lower is better; of the scores 1, 2, 3 the group [1] keeps 1 and 3 (C28: with
group limit 2 the worse of the last two wins) and gets (1 + 3) / 4 = 1. -/
theorem C30_example :
    groupedResult exEnv exGroupConfig none
      [exGrouped F64.one 0 [1], exGrouped two 1 [2], exGrouped two 2 [1], exGrouped 0x4008000000000000 3 [1]] =
    some [exGrouped F64.one 0 [1], exGrouped two 1 [2]] ∧
    0 < exGroupConfig.limit ∧ 0 < exGroupConfig.groupLimit ∧ exGroupConfig.resultLimit.toNat < 2^63 := by
  decide +kernel

/-- C74, full statement: also with a context, each result of a grouped search carries the score of its group.  FALSE
of the code. -/
def C74_group_score_kept_statement : Prop :=
  ∀ (E : Env) (config : SearchConfig) (ctx : SearchContext) (arr : List ScoredDatum) (a : Grouped)
    (order : List (Bytes × Flat)) (out : List ScoredDatum), E.Ok → Ref.Keyed arr → 0 < config.groupLimit →
    (∀ d ∈ ctx.datum, ∃ k, d.key = some k) →
    (newGrouped config (some ctx)).insertAll E arr = .ok a → order.Perm a.groups → a.result E order = .ok out →
    ∀ sd ∈ out, ∃ p ∈ order, Ref.Represents E.o config.higherIsBetter p.2.list sd

/-- C74, counterexample: two results of one group at distances 0 and 1 from a prioritised context datum; the group's
score is 1/4, the reported one is the representative's distance to the context, 0. -/
theorem C74_group_score_kept_fails : ¬ C74_group_score_kept_statement := by
  intro h
  let ctx : SearchContext := ⟨[⟨some (exPoint 0), none⟩], true⟩
  let arr := [exGrouped two 0 [1], exGrouped two 0x3F800000 [1]]
  have hv : groupedResult exEnv exGroupConfig (some ctx) arr = some [exGrouped 0 0 [1]] := by decide +kernel
  have hl : (match (newGrouped exGroupConfig (some ctx)).insertAll exEnv arr with
      | .ok a => a.groups.map (fun p => p.2.list)
      | _ => []) = [[exGrouped 0 0 [1], exGrouped F64.one 0x3F800000 [1]]] := by decide +kernel
  unfold groupedResult at hv
  cases hi : (newGrouped exGroupConfig (some ctx)).insertAll exEnv arr with
  | panic => rw [hi] at hv; simp at hv
  | err e => rw [hi] at hv; simp at hv
  | ok a =>
    rw [hi] at hv hl
    simp only [Res.bind_ok] at hv hl
    cases hr : a.result exEnv a.groups with
    | panic => rw [hr] at hv; simp at hv
    | err e => rw [hr] at hv; simp at hv
    | ok out =>
      rw [hr] at hv
      simp only [Option.some.injEq] at hv
      obtain ⟨p, hp, _, hs⟩ := h exEnv exGroupConfig ctx arr a a.groups out exEnv_ok
        (by
          intro x hx
          simp only [arr, List.mem_cons, List.not_mem_nil, or_false] at hx
          rcases hx with rfl | rfl <;> exact ⟨_, _, rfl⟩) (by decide)
        (by
          intro d hd
          simp only [ctx, List.mem_cons, List.not_mem_nil, or_false] at hd
          subst hd; exact ⟨_, rfl⟩) hi (.refl _) hr (exGrouped 0 0 [1]) (by rw [hv]; simp)
      have hm : p.2.list ∈ a.groups.map (fun p => p.2.list) := List.mem_map.2 ⟨p, hp, rfl⟩
      rw [hl, List.mem_singleton] at hm
      rw [hm] at hs
      revert hs
      decide +kernel

namespace Agg

theorem insert_mem {E : Env} (hE : IsSort E.sort) {a a' : Flat} {sd : ScoredDatum}
    (hb : bestScore E.o a.config a.context sd = .ok sd.score) (h : a.insert E sd = .ok a') :
    a.Same a' ∧ ∀ x ∈ a'.list, x ∈ a.list ∨ x = sd := by
  have hlist : ∀ b b' : Flat, b.insertToList E sd = .ok b' → ∀ x ∈ b'.list, x ∈ b.list ∨ x = sd := by
    intro b b' hb
    unfold Flat.insertToList at hb
    split at hb
    · injection hb with hb; subst hb
      exact fun x hx => by simpa using (hE.perm _ _).mem_iff.1 hx
    · cases hg : b.list.getLast? with
      | none => rw [hg] at hb; simp at hb
      | some last =>
        rw [hg] at hb
        simp only [Res.ofOption_some, Res.bind_ok] at hb
        split at hb
        · injection hb with hb; subst hb
          intro x hx
          rcases List.mem_append.1 ((hE.perm _ _).mem_iff.1 hx) with h1 | h1
          · exact Or.inl (List.dropLast_subset _ h1)
          · exact Or.inr (by simpa using h1)
        · injection hb with hb; subst hb; exact fun x hx => Or.inl hx
  unfold Flat.insert at h
  rw [hb] at h
  have h : a.insertScored E sd = .ok a' := h
  refine ⟨insertScored_same h, ?_⟩
  unfold Flat.insertScored at h
  cases hk : getKeyAsBytes sd.datum with
  | none => rw [hk] at h; simp at h
  | some kb =>
    rw [hk] at h
    simp only [Res.ofOption_some, Res.bind_ok] at h
    split at h
    · split at h
      · have := hlist _ _ h; exact this
      · injection h with h; subst h; exact fun x hx => Or.inl hx
    · have := hlist _ _ h; exact this

theorem insertOnes_mem {E : Env} (hE : IsSort E.sort) : ∀ (gs : List Flat) (a a' : Flat),
    (∀ sd, bestScore E.o a.config a.context sd = .ok sd.score) → insertOnes E a gs = .ok a' →
    ∀ x ∈ a'.list, x ∈ a.list ∨ ∃ g ∈ gs, g.one E.o = some x
  | [], a, a', _, h => by
    simp only [insertOnes, Res.ok.injEq] at h
    subst h; exact fun x hx => Or.inl hx
  | g :: gs, a, a', hb, h => by
    rw [insertOnes] at h
    cases ho : g.one E.o with
    | none => rw [ho] at h; cases h
    | some sd =>
      rw [ho] at h
      simp only [Res.ofOption_some, Res.bind_ok] at h
      cases hi : a.insert E sd with
      | panic => rw [hi] at h; cases h
      | err e => rw [hi] at h; cases h
      | ok a1 =>
        rw [hi] at h
        obtain ⟨h1, h2⟩ := insert_mem hE (hb sd) hi
        intro x hx
        rcases insertOnes_mem hE gs a1 a' (by rw [h1.1, h1.2]; exact hb) h x hx with h3 | ⟨g', h3, h4⟩
        · rcases h2 x h3 with h4 | h4
          · exact Or.inl h4
          · exact Or.inr ⟨g, List.mem_cons_self, by rw [ho, h4]⟩
        · exact Or.inr ⟨g', List.mem_cons_of_mem _ h3, h4⟩

end Agg

/-- C74, partial: with no context data, whatever the groups hold. -/
theorem C74_group_score_kept_partial (E : Env) (hE : E.Ok) (a : Grouped) (order : List (Bytes × Flat))
    (out : List ScoredDatum) (hctx : ∀ c, a.context = some c → c.datum = [])
    (hcfg : ∀ p ∈ order, p.2.config.higherIsBetter = a.config.higherIsBetter)
    (h : a.result E order = .ok out) :
    ∀ sd ∈ out, ∃ p ∈ order, Ref.Represents E.o a.config.higherIsBetter p.2.list sd := by
  unfold Grouped.result at h
  cases hi : insertOnes E (newFlat a.config a.context) (order.map (·.2)) with
  | panic => rw [hi] at h; cases h
  | err e => rw [hi] at h; cases h
  | ok f =>
    rw [hi] at h
    simp only [Res.bind_ok] at h
    have hm := insertOnes_mem hE.sort _ _ _ (by
      intro sd
      simp only [newFlat]
      cases hc : a.context with
      | none => rfl
      | some c => simp [bestScore, hctx c hc]) hi
    have hsub : ∀ sd ∈ out, sd ∈ f.list := by
      rw [result_eq] at h
      split at h
      · injection h with h; subst h; exact fun _ h => h
      · split at h
        · cases h
        · injection h with h; subst h; exact fun _ h => List.mem_of_mem_take h
    intro sd hsd
    obtain ⟨g, hg, ho⟩ := (hm sd (hsub sd hsd)).resolve_left (by simp [newFlat])
    obtain ⟨p, hp, rfl⟩ := List.mem_map.1 hg
    have hne : p.2.list ≠ [] := by
      intro hn; unfold Flat.one at ho; rw [hn] at ho; cases ho
    obtain ⟨sd', h1, h2⟩ := one_represents E.o p.2 hne
    rw [ho] at h1; injection h1 with h1; subst h1
    rw [hcfg p hp] at h2
    exact ⟨p, hp, h2⟩

end Veri
