import Verif.Search.AggProps
/-
What a lower-is-better merge keeps once more than `limit` distinct data have arrived.
-/
set_option autoImplicit false
namespace Veri
open Gencoder Store Search

namespace Ref

/-- The first arrival of every datum key not in `seen`, in order of arrival. -/
def firstsFrom (seen : List (Option DatumKey)) : List ScoredDatum → List ScoredDatum
  | [] => []
  | x :: xs => if x.datum.key ∈ seen then firstsFrom seen xs else x :: firstsFrom (x.datum.key :: seen) xs

/-- The first arrival of every datum key, in order of arrival. -/
def firsts (arr : List ScoredDatum) : List ScoredDatum := firstsFrom [] arr

/-- No element of `l` has a higher score than `m`. -/
def Highest (l : List ScoredDatum) (m : ScoredDatum) : Prop := ∀ x ∈ l, F64.lt m.score x.score = false

/-- `list` is what is left of the candidates `cands` (in order of arrival) if, once there are `k` of them, only the last
place of the list changes, and only towards higher scores: the `k - 1` lowest of the first `k`, then the highest of all. -/
def FirstKAndWorst (k : Nat) (cands list : List ScoredDatum) : Prop :=
  ∃ kept m w, (kept ++ [m]).Perm (cands.take k) ∧ Highest (cands.take k) m ∧ list = kept ++ [w] ∧
    w ∈ m :: cands.drop k ∧ Highest cands w

end Ref

namespace Agg
open Ref

theorem firstsFrom_snoc : ∀ (arr : List ScoredDatum) (seen : List (Option DatumKey)) (x : ScoredDatum),
    firstsFrom seen (arr ++ [x]) =
      firstsFrom seen arr ++ if x.datum.key ∈ seen ∨ x.datum.key ∈ arr.map (·.datum.key) then [] else [x]
  | [], seen, x => by simp [firstsFrom]
  | y :: arr, seen, x => by
    by_cases hy : y.datum.key ∈ seen
    · have hiff : (x.datum.key ∈ seen ∨ x.datum.key ∈ (y :: arr).map (·.datum.key)) ↔
          (x.datum.key ∈ seen ∨ x.datum.key ∈ arr.map (·.datum.key)) := by
        rw [List.map_cons, List.mem_cons]; grind
      simp only [List.cons_append, firstsFrom, if_pos hy, firstsFrom_snoc arr seen x, hiff]
    · have hiff : (x.datum.key ∈ y.datum.key :: seen ∨ x.datum.key ∈ arr.map (·.datum.key)) ↔
          (x.datum.key ∈ seen ∨ x.datum.key ∈ (y :: arr).map (·.datum.key)) := by
        rw [List.map_cons, List.mem_cons, List.mem_cons]; grind
      simp only [List.cons_append, firstsFrom, if_neg hy, firstsFrom_snoc arr _ x, hiff]

theorem firsts_snoc_old (arr : List ScoredDatum) (x : ScoredDatum) (h : x.datum.key ∈ arr.map (·.datum.key)) :
    firsts (arr ++ [x]) = firsts arr := by
  rw [firsts, firstsFrom_snoc, if_pos (.inr h), List.append_nil, firsts]

theorem firsts_snoc_new (arr : List ScoredDatum) (x : ScoredDatum) (h : x.datum.key ∉ arr.map (·.datum.key)) :
    firsts (arr ++ [x]) = firsts arr ++ [x] := by
  rw [firsts, firstsFrom_snoc, if_neg (by simpa using h), firsts]

theorem firstsFrom_nodup : ∀ (l : List ScoredDatum) (rest : List ScoredDatum) (seen : List (Option DatumKey)),
    (l.map (·.datum.key)).Nodup → (∀ x ∈ l, x.datum.key ∉ seen) →
    ∃ seen', firstsFrom seen (l ++ rest) = l ++ firstsFrom seen' rest
  | [], rest, seen, _, _ => ⟨seen, rfl⟩
  | x :: l, rest, seen, hn, hs => by
    rw [List.map_cons, List.nodup_cons] at hn
    obtain ⟨seen', h⟩ := firstsFrom_nodup l rest (x.datum.key :: seen) hn.2 (fun y hy hm => by
      rcases List.mem_cons.1 hm with hm | hm
      · exact hn.1 (hm ▸ List.mem_map.2 ⟨y, hy, rfl⟩)
      · exact hs y (List.mem_cons_of_mem _ hy) hm)
    refine ⟨seen', ?_⟩
    rw [List.cons_append, firstsFrom, if_neg (hs x List.mem_cons_self), h, List.cons_append]

/-- The last element of an ascending list is a highest one. -/
theorem last_highest (kept : List ScoredDatum) (w : ScoredDatum) (h : SortedBy (Ref.better false) (kept ++ [w])) :
    Highest (kept ++ [w]) w := by
  intro x hx
  rcases List.mem_append.1 hx with hx | hx
  · have := (List.pairwise_append.1 h).2.2 x hx w (by simp)
    simpa [Ref.better] using this
  · rw [List.mem_singleton.1 hx]; exact F64.lt_irrefl _

/-- The list of a lower-is-better merge after the candidates `cands`, in order of arrival. -/
structure Low (k : Nat) (cands list : List ScoredDatum) : Prop where
  sorted : SortedBy (Ref.better false) list
  room : cands.length ≤ k → list.Perm cands
  full : k ≤ cands.length → FirstKAndWorst k cands list

theorem worst_length {k : Nat} {cands list : List ScoredDatum} (hk : k ≤ cands.length)
    (h : FirstKAndWorst k cands list) : list.length = k := by
  obtain ⟨kept, m, w, h1, -, h3, -⟩ := h
  have := h1.length_eq
  rw [h3]
  simp only [List.length_append, List.length_cons, List.length_nil, List.length_take] at this ⊢
  omega

theorem Low.length_le {k : Nat} {cands list : List ScoredDatum} (h : Low k cands list) : list.length ≤ k := by
  by_cases hc : cands.length ≤ k
  · rw [(h.room hc).length_eq]; exact hc
  · exact Nat.le_of_eq (worst_length (by omega) (h.full (by omega)))

/-- One accepted arrival. -/
theorem insertToList_low {E : Env} (hE : E.Ok) (a a' : Flat) (hl : 0 < a.config.limit)
    (hdir : a.config.higherIsBetter = false) (cands : List ScoredDatum) (sd : ScoredDatum)
    (h : Low a.config.limit.toNat cands a.list)
    (hn : ∀ x ∈ sd :: cands, F64.isNaN x.score = false) (hsub : ∀ x ∈ a.list, x ∈ cands)
    (hi : a.insertToList E sd = .ok a') :
    Low a.config.limit.toNat (cands ++ [sd]) a'.list ∧ ∀ x ∈ a'.list, x ∈ cands ++ [sd] := by
  have hpos : 0 < a.config.limit.toNat := by simpa using UInt32.lt_iff_toNat_lt.1 hl
  have hsorted : SortedBy (Ref.better false) a'.list := by
    have := insertToList_sorted hE a a' sd (by rw [hdir]; exact h.sorted) (fun x hx => by
      rcases List.mem_cons.1 hx with rfl | hx
      · exact hn _ List.mem_cons_self
      · exact hn _ (List.mem_cons_of_mem _ (hsub x hx))) hi
    rwa [hdir] at this
  have hle := h.length_le
  unfold Flat.insertToList at hi
  by_cases hlt : a.list.length < a.config.limit.toNat
  · rw [if_pos ((toNat_lt_limit hle).2 hlt)] at hi
    injection hi with hi
    have hc : cands.length < a.config.limit.toNat := by
      by_cases hc : cands.length ≤ a.config.limit.toNat
      · rw [← (h.room hc).length_eq]; exact hlt
      · have := worst_length (by omega) (h.full (by omega)); omega
    have hp : a'.list.Perm (cands ++ [sd]) := by
      rw [← hi]
      exact (hE.sort.perm _ _).trans ((h.room (by omega)).append_right _)
    refine ⟨⟨hsorted, fun _ => hp, fun hk => ?_⟩, fun x hx => hp.mem_iff.1 hx⟩
    have hlen : (cands ++ [sd]).length = a.config.limit.toNat := by
      simp only [List.length_append, List.length_cons, List.length_nil] at hk ⊢; omega
    have hne : a'.list ≠ [] := by intro h0; rw [h0] at hp; simpa using hp.length_eq
    have hsplit := List.dropLast_concat_getLast hne
    have htop := last_highest a'.list.dropLast (a'.list.getLast hne) (by rw [hsplit]; exact hsorted)
    rw [hsplit] at htop
    have htake : (cands ++ [sd]).take a.config.limit.toNat = cands ++ [sd] := List.take_of_length_le (by omega)
    refine ⟨a'.list.dropLast, a'.list.getLast hne, a'.list.getLast hne, ?_, ?_, hsplit.symm, List.mem_cons_self, ?_⟩
    · rw [hsplit, htake]; exact hp
    · rw [htake]; intro x hx; exact htop x (hp.mem_iff.2 hx)
    · intro x hx; exact htop x (hp.mem_iff.2 hx)
  · rw [if_neg (fun hh => hlt ((toNat_lt_limit hle).1 hh))] at hi
    have hk : a.list.length = a.config.limit.toNat := by omega
    have hc : a.config.limit.toNat ≤ cands.length := by
      by_cases hc : cands.length ≤ a.config.limit.toNat
      · rw [← (h.room hc).length_eq]; omega
      · omega
    obtain ⟨kept, m, w, h1, h2, h3, h4, h5⟩ := h.full hc
    have htake : (cands ++ [sd]).take a.config.limit.toNat = cands.take a.config.limit.toNat :=
      List.take_append_of_le_length hc
    have hdrop : (cands ++ [sd]).drop a.config.limit.toNat = cands.drop a.config.limit.toNat ++ [sd] :=
      List.drop_append_of_le_length hc
    have hroom : (cands ++ [sd]).length ≤ a.config.limit.toNat → a'.list.Perm (cands ++ [sd]) := by
      intro hh; simp only [List.length_append, List.length_cons, List.length_nil] at hh; omega
    rw [h3] at hi
    simp only [List.getLast?_append, List.getLast?_singleton, Option.some_or, Res.ofOption_some, Res.bind_ok,
      isNew_eq hE.bits, List.dropLast_concat] at hi
    by_cases hb : F64.lt w.score sd.score = true
    · rw [if_pos hb] at hi
      injection hi with hi
      have hp : a'.list.Perm (kept ++ [sd]) := by rw [← hi]; exact hE.sort.perm _ _
      have hkc : ∀ x ∈ kept, x ∈ cands := fun x hx => hsub x (by rw [h3]; simp [hx])
      have hne : a'.list ≠ [] := by intro h0; rw [h0] at hp; simpa using hp.length_eq
      have hsplit := List.dropLast_concat_getLast hne
      have htop := last_highest a'.list.dropLast (a'.list.getLast hne) (by rw [hsplit]; exact hsorted)
      rw [hsplit] at htop
      have hlast : a'.list.getLast hne = sd := by
        have hm := hp.mem_iff.1 (List.getLast_mem hne)
        rcases List.mem_append.1 hm with hm | hm
        · have g1 := h5 _ (hkc _ hm)
          have g2 := htop sd (hp.mem_iff.2 (by simp))
          have := lt_false_trans (hn _ (List.mem_cons_of_mem _ (hkc _ hm))) g1 g2
          rw [this] at hb; cases hb
        · exact List.mem_singleton.1 hm
      rw [hlast] at hsplit
      have hp' : a'.list.dropLast.Perm kept := by
        rw [← hsplit] at hp
        exact (List.perm_append_right_iff _).1 hp
      refine ⟨⟨hsorted, hroom, fun _ => ?_⟩, ?_⟩
      · refine ⟨a'.list.dropLast, m, sd, ?_, ?_, hsplit.symm, ?_, ?_⟩
        · rw [htake]; exact (hp'.append_right _).trans h1
        · rw [htake]; exact h2
        · rw [hdrop]; simp
        · intro x hx
          rcases List.mem_append.1 hx with hx | hx
          · have hwn : F64.isNaN w.score = false := hn _ (List.mem_cons_of_mem _ (hsub w (by rw [h3]; simp)))
            exact lt_false_trans hwn (lt_asymm' hb) (h5 x hx)
          · rw [List.mem_singleton.1 hx]; exact F64.lt_irrefl _
      · intro x hx
        rcases List.mem_append.1 (hp.mem_iff.1 hx) with hx | hx
        · exact List.mem_append_left _ (hkc x hx)
        · exact List.mem_append_right _ hx
    · rw [if_neg hb] at hi
      injection hi with hi
      subst hi
      refine ⟨⟨hsorted, hroom, fun _ => ?_⟩, fun x hx => List.mem_append_left _ (hsub x hx)⟩
      refine ⟨kept, m, w, by rw [htake]; exact h1, by rw [htake]; exact h2, h3, ?_, ?_⟩
      · rw [hdrop]
        rcases List.mem_cons.1 h4 with h4 | h4
        · exact List.mem_cons.2 (.inl h4)
        · exact List.mem_cons_of_mem _ (List.mem_append_left _ h4)
      · intro x hx
        rcases List.mem_append.1 hx with hx | hx
        · exact h5 x hx
        · rw [List.mem_singleton.1 hx]; simpa using hb

/-- The whole merge if lower is better. -/
theorem insertAll_low {E : Env} (hE : E.Ok) : ∀ (sds : List ScoredDatum) (a : Flat) (arr acc : List ScoredDatum),
    0 < a.config.limit → a.context = none → a.config.higherIsBetter = false → Seen a arr acc →
    acc.reverse = firsts arr.reverse → Low a.config.limit.toNat acc.reverse a.list → (∀ x ∈ a.list, x ∈ acc.reverse) →
    Keyed sds → Consistent (arr ++ sds) → NoNaN (arr ++ sds) →
    ∃ a', a.insertAll E sds = .ok a' ∧ Distinct (arr.reverse ++ sds) (firsts (arr.reverse ++ sds)) ∧
      Low a.config.limit.toNat (firsts (arr.reverse ++ sds)) a'.list
  | [], a, arr, acc, _, _, _, hs, hsl, hlow, _, _, _, _ => by
    rw [List.append_nil, ← hsl]
    refine ⟨a, rfl, ⟨?_, ?_, ?_⟩, hlow⟩
    · intro x hx; exact List.mem_reverse.2 (hs.distinct.1 x (List.mem_reverse.1 hx))
    · rw [List.map_reverse]; exact (List.reverse_perm _).nodup_iff.2 hs.distinct.2.1
    · intro x hx
      obtain ⟨y, hy, h5⟩ := hs.distinct.2.2 x (List.mem_reverse.1 hx)
      exact ⟨y, List.mem_reverse.2 hy, h5⟩
  | sd :: sds, a, arr, acc, hl, hn, hd, hs, hsl, hlow, hsub, hk, hc, hnn => by
    obtain ⟨k, v, hkv⟩ := hk sd List.mem_cons_self
    have hc1 : Consistent (sd :: arr) := fun x hx y hy => hc x (by simp at hx ⊢; grind) y (by simp at hy ⊢; grind)
    have fin : ∀ (a1 : Flat) acc1, a.Same a1 → Seen a1 (sd :: arr) acc1 → acc1.reverse = firsts (sd :: arr).reverse →
        Low a.config.limit.toNat acc1.reverse a1.list → (∀ x ∈ a1.list, x ∈ acc1.reverse) →
        a.insertScored E sd = .ok a1 →
        ∃ a', a.insertAll E (sd :: sds) = .ok a' ∧
          Distinct (arr.reverse ++ sd :: sds) (firsts (arr.reverse ++ sd :: sds)) ∧
          Low a.config.limit.toNat (firsts (arr.reverse ++ sd :: sds)) a'.list := by
      intro a1 acc1 h1 h2 h3 h4 h5 h6
      obtain ⟨a2, g1, g2, g3⟩ := insertAll_low hE sds a1 (sd :: arr) acc1 (by rw [h1.1]; exact hl)
        (by rw [h1.2]; exact hn) (by rw [h1.1]; exact hd) h2 h3 (by rw [h1.1]; exact h4) h5
        (fun x hx => hk x (List.mem_cons_of_mem _ hx))
        (fun x hx y hy => hc x (by simp at hx ⊢; grind) y (by simp at hy ⊢; grind))
        (fun x hx => hnn x (by simp at hx ⊢; grind))
      rw [List.reverse_cons, List.append_assoc, List.singleton_append] at g2 g3
      refine ⟨a2, ?_, g2, by rw [h1.1] at g3; exact g3⟩
      rw [Flat.insertAll, insert_noContext E a hn, h6]; exact g1
    rcases insertScored_cases hE a arr acc hs sd k v hkv hc1 with ⟨h1, h2⟩ | ⟨b, h1, h2, h3, h4⟩
    · refine fin a acc (.refl a) h2 ?_ hlow hsub h1
      obtain ⟨y, hy, hyk⟩ := h2.distinct.2.2 sd List.mem_cons_self
      rw [List.reverse_cons, firsts_snoc_old, hsl]
      exact List.mem_map.2 ⟨y, List.mem_reverse.2 (hs.distinct.1 y hy), hyk⟩
    · have hlb : 0 < b.config.limit := by rw [h3.1]; exact hl
      obtain ⟨b', e1, e2, e3, -⟩ := insertToList_ok (E := E) hE.sort b hlb (by rw [h2, h3.1]; exact hlow.length_le) sd
      have hlow' := insertToList_low hE b b' hlb (by rw [h3.1]; exact hd) acc.reverse sd (by rw [h2, h3.1]; exact hlow)
        (fun x hx => by
          rcases List.mem_cons.1 hx with rfl | hx
          · exact hnn _ (by simp)
          · exact hnn x (List.mem_append_left _ (hs.distinct.1 x (List.mem_reverse.1 hx))))
        (by rw [h2]; exact hsub) e1
      rw [h3.1] at hlow'
      have hseen := h4 b' e3
      refine fin b' (sd :: acc) (h3.trans e2) hseen ?_ ?_ ?_ (h1.trans e1)
      · rw [List.reverse_cons, List.reverse_cons, firsts_snoc_new, hsl]
        intro hm
        obtain ⟨x, hx, hxk⟩ := List.mem_map.1 hm
        obtain ⟨y, hy, hyk⟩ := hs.distinct.2.2 x (List.mem_reverse.1 hx)
        have := hseen.distinct.2.1
        rw [List.map_cons, List.nodup_cons] at this
        exact this.1 (List.mem_map.2 ⟨y, hy, hyk.trans hxk⟩)
      · rw [List.reverse_cons]; exact hlow'.1
      · rw [List.reverse_cons]; exact hlow'.2

end Agg
open Agg

/-- C28, exactly: with consistent scores and no NaN, a lower-is-better merge considers the first arrival of each datum.
Up to `limit` of them it returns them all, lowest first.  From `limit` on it returns the `limit - 1` lowest of the
first `limit`, followed by the highest of ALL: a later, better result never enters, a later, worse one does. -/
theorem C28_exact (E : Env) (hE : E.Ok) (config : SearchConfig) (arr : List ScoredDatum)
    (hdir : config.higherIsBetter = false) (hl : 0 < config.limit) (hk : Ref.Keyed arr) (hc : Ref.Consistent arr)
    (hn : Ref.NoNaN arr) :
    ∃ a, (newFlat config none).insertAll E arr = .ok a ∧ Ref.Distinct arr (Ref.firsts arr) ∧
      SortedBy (Ref.better false) a.list ∧
      ((Ref.firsts arr).length ≤ config.limit.toNat → a.list.Perm (Ref.firsts arr)) ∧
      (config.limit.toNat ≤ (Ref.firsts arr).length → Ref.FirstKAndWorst config.limit.toNat (Ref.firsts arr) a.list) := by
  obtain ⟨a, h1, h2, h3⟩ := insertAll_low hE arr (newFlat config none) [] [] hl rfl hdir (seen_nil _ _)
    (by simp [Ref.firsts, Ref.firstsFrom]) ⟨by simp [newFlat, SortedBy], by simp [newFlat], fun hh => by
      have : 0 < config.limit.toNat := by simpa using UInt32.lt_iff_toNat_lt.1 hl
      simp [newFlat] at hh; omega⟩ (by simp [newFlat]) hk (by simpa using hc) (by simpa using hn)
  exact ⟨a, h1, h2, h3.sorted, h3.room, h3.full⟩

/-- C28 read for a client: if the first `limit` arrivals are distinct data and ANY later arrival is further away than all of
them, the answer is wrong: one of those `limit` results is missing and a result further away is returned. -/
theorem C28_wrong (E : Env) (hE : E.Ok) (config : SearchConfig) (first rest : List ScoredDatum) (late : ScoredDatum)
    (hdir : config.higherIsBetter = false) (hl : 0 < config.limit) (hk : Ref.Keyed (first ++ rest))
    (hc : Ref.Consistent (first ++ rest)) (hn : Ref.NoNaN (first ++ rest))
    (hlen : first.length = config.limit.toNat) (hnd : (first.map (·.datum.key)).Nodup) (hlate : late ∈ rest)
    (hworse : ∀ x ∈ first, F64.lt x.score late.score = true) :
    ∃ a, (newFlat config none).insertAll E (first ++ rest) = .ok a ∧
      ∃ x ∈ first, x ∉ a.list ∧ ∃ w ∈ a.list, F64.lt x.score w.score = true := by
  obtain ⟨a, h1, h2, -, -, h3⟩ := C28_exact E hE config (first ++ rest) hdir hl hk hc hn
  obtain ⟨seen', hf⟩ := firstsFrom_nodup first rest [] hnd (by simp)
  change Ref.firsts (first ++ rest) = _ at hf
  rw [hf] at h2 h3
  obtain ⟨kept, m, w, g1, -, g3, g4, g5⟩ := h3 (by simp; omega)
  rw [List.take_left' hlen] at g1
  refine ⟨a, h1, m, g1.mem_iff.1 (by simp), ?_, w, by rw [g3]; simp, ?_⟩
  all_goals
    have hmf : m ∈ first := g1.mem_iff.1 (by simp)
    obtain ⟨c, hcm, hck⟩ := h2.2.2 late (List.mem_append_right _ hlate)
    have hca := h2.1 c hcm
    have hlt : F64.lt m.score w.score = true := by
      cases hmw : F64.lt m.score w.score with
      | true => rfl
      | false =>
        have q1 := g5 c hcm
        have q2 := hc c hca late (List.mem_append_right _ hlate) hck
        have q3 := lt_false_trans (hn c hca) q1 q2
        have hwa : w ∈ first ++ rest := by
          rcases List.mem_cons.1 g4 with rfl | g4
          · exact List.mem_append_left _ hmf
          · exact h2.1 w (List.mem_of_mem_drop g4)
        have q4 := lt_false_trans (hn w hwa) hmw q3
        rw [hworse m hmf] at q4; cases q4
  · rw [g3]
    intro hm
    rcases List.mem_append.1 hm with hm | hm
    · have : ((kept ++ [m]).map (·.datum.key)).Nodup := (g1.map _).nodup_iff.2 hnd
      rw [List.map_append, List.nodup_append] at this
      exact this.2.2 m.datum.key (List.mem_map.2 ⟨m, hm, rfl⟩) m.datum.key (by simp) rfl
    · rw [List.mem_singleton.1 hm, F64.lt_irrefl] at hlt; cases hlt
  · exact hlt

/-- C28_exact is not vacuous: limit 2, scores 1, 4, 3, 2 in this order; 1 and 4 are returned. -/
theorem C28_exact_example : ∃ a, (newFlat { defaultSearchConfig with limit := 2 } none).insertAll exEnv
      [exHit F64.one 0, exHit 0x4010000000000000 1, exHit 0x4008000000000000 2, exHit two 3] = .ok a ∧
    a.list = [exHit F64.one 0, exHit 0x4010000000000000 1] := by
  obtain ⟨a, h1, -⟩ := C28_exact exEnv exEnv_ok { defaultSearchConfig with limit := 2 }
    [exHit F64.one 0, exHit 0x4010000000000000 1, exHit 0x4008000000000000 2, exHit two 3] rfl (by decide)
    (by
      intro x hx
      simp only [List.mem_cons, List.not_mem_nil, or_false] at hx
      rcases hx with rfl | rfl | rfl | rfl <;> exact ⟨_, _, rfl⟩)
    (by unfold Ref.Consistent; decide +kernel) (by unfold Ref.NoNaN; decide +kernel)
  exact ⟨a, h1, flatList_some (by decide +kernel) h1⟩

/-- C28_wrong is not vacuous. -/
theorem C28_wrong_example : ∃ a, (newFlat { defaultSearchConfig with limit := 1 } none).insertAll exEnv
      ([exHit F64.one 0] ++ [exHit two 1]) = .ok a ∧
    ∃ x ∈ [exHit F64.one 0], x ∉ a.list ∧ ∃ w ∈ a.list, F64.lt x.score w.score = true :=
  C28_wrong exEnv exEnv_ok { defaultSearchConfig with limit := 1 } [exHit F64.one 0] [exHit two 1] (exHit two 1) rfl
    (by decide)
    (by
      intro x hx
      simp only [List.cons_append, List.nil_append, List.mem_cons, List.not_mem_nil, or_false] at hx
      rcases hx with rfl | rfl <;> exact ⟨_, _, rfl⟩)
    (by unfold Ref.Consistent; decide +kernel) (by unfold Ref.NoNaN; decide +kernel) (by decide) (by decide +kernel)
    (by simp) (by decide +kernel)

end Veri
