import Verif.Node.Model
/-
Lemmas about strings, addresses and the peer table.
-/
set_option autoImplicit false
namespace Veri
namespace Net

/-! ### Sorting and joining -/

theorem weakOrder (l : List String) : WeakOrderOn (fun a b => decide (a < b)) l where
  irrefl := fun a _ => by simp
  trans := fun a _ b _ c _ h1 h2 => by
    simp only [decide_eq_true_eq] at *
    exact String.lt_trans h1 h2
  neg_trans := fun a _ b _ c _ h1 h2 => by
    simp only [decide_eq_false_iff_not] at *
    rw [String.not_lt] at *
    exact String.le_trans h2 h1

/-- Sorted in the order of Go's `sort.Strings`. -/
def Ascending (l : List String) : Prop := l.Pairwise fun a b => a ≤ b

theorem sortStrings_perm (l : List String) : (sortStrings l).Perm l := ISort.isSort.perm _ l

theorem sortStrings_ascending (l : List String) : Ascending (sortStrings l) := by
  refine (ISort.isSort.sorted _ l (weakOrder l)).imp ?_
  intro a b h
  simp only [decide_eq_false_iff_not] at h
  exact String.not_lt.mp h

theorem sorted_unique {l l' : List String} (h : Ascending l) (h' : Ascending l') (hp : l.Perm l') : l = l' :=
  hp.eq_of_pairwise (fun _ _ _ _ h1 h2 => String.le_antisymm h1 h2) h h'

theorem sortStrings_eq {l l' : List String} : sortStrings l = sortStrings l' ↔ l.Perm l' := by
  constructor
  · intro h
    exact (sortStrings_perm l).symm.trans (h ▸ sortStrings_perm l')
  · intro h
    exact sorted_unique (sortStrings_ascending l) (sortStrings_ascending l')
      ((sortStrings_perm l).trans (h.trans (sortStrings_perm l').symm))

theorem mem_sortStrings {a : String} {l : List String} : a ∈ sortStrings l ↔ a ∈ l := (sortStrings_perm l).mem_iff

theorem sortStrings_idem (l : List String) : sortStrings (sortStrings l) = sortStrings l :=
  sortStrings_eq.mpr (sortStrings_perm l)

theorem splitChars_piece (a : List Char) (rest : List Char) (h : ',' ∉ a) :
    ∀ acc, splitChars acc (a ++ ',' :: rest) = (acc ++ a) :: splitChars [] rest := by
  induction a with
  | nil => intro acc; simp [splitChars]
  | cons c a ih =>
    intro acc
    have hc : c ≠ ',' := fun e => h (by simp [e])
    rw [List.cons_append, splitChars, if_neg hc, ih (fun e => h (by simp [e]))]
    simp

theorem splitChars_last (a : List Char) (h : ',' ∉ a) : ∀ acc, splitChars acc a = [acc ++ a] := by
  induction a with
  | nil => intro acc; simp [splitChars]
  | cons c a ih =>
    intro acc
    have hc : c ≠ ',' := fun e => h (by simp [e])
    rw [splitChars, if_neg hc, ih (fun e => h (by simp [e]))]
    simp

/-- No comma in the string. -/
def NoComma (s : String) : Prop := ',' ∉ s.toList

theorem split_join : ∀ (l : List String), l ≠ [] → (∀ a ∈ l, NoComma a) → split (join l) = l
  | [], h, _ => absurd rfl h
  | [a], _, h => by
    simp only [split, join, splitChars_last _ (h a (by simp))]
    simp
  | a :: b :: l, _, h => by
    have ih := split_join (b :: l) (by simp) (fun x hx => h x (by simp [hx]))
    simp only [split] at ih ⊢
    rw [join, String.toList_append, String.toList_append]
    have hc : ",".toList = [','] := by decide +kernel
    rw [hc, List.append_assoc, List.singleton_append, splitChars_piece _ _ (h a (by simp)), List.map_cons, ih]
    simp

theorem join_inj {l l' : List String} (h : ∀ a ∈ l, NoComma a ∧ a ≠ "") (h' : ∀ a ∈ l', NoComma a ∧ a ≠ "")
    (he : join l = join l') : l = l' := by
  have hne : ∀ m : List String, (∀ a ∈ m, NoComma a ∧ a ≠ "") → join m = "" → m = [] := by
    intro m hm e
    by_cases hm0 : m = []
    · exact hm0
    · have := split_join m hm0 (fun a ha => (hm a ha).1)
      rw [e] at this
      have h0 : split "" = [""] := by decide +kernel
      rw [h0] at this
      exact absurd rfl (hm "" (by rw [← this]; simp)).2
  by_cases hl : l = []
  · subst hl
    exact (hne l' h' (by rw [← he]; rfl)).symm
  · by_cases hl' : l' = []
    · subst hl'
      exact hne l h (by rw [he]; rfl)
    · rw [← split_join l hl (fun a ha => (h a ha).1), he, split_join l' hl' (fun a ha => (h' a ha).1)]

/-! ### Addresses -/

theorem mem_uniqueGo {a : String} : ∀ (l keys : List String), a ∈ uniqueGo keys l ↔ a ∈ l ∧ a ∉ keys
  | [], keys => by simp [uniqueGo]
  | e :: l, keys => by
    rw [uniqueGo]
    split
    · rename_i h
      rw [mem_uniqueGo l keys]
      constructor
      · rintro ⟨h1, h2⟩; exact ⟨by simp [h1], h2⟩
      · rintro ⟨h1, h2⟩
        rcases List.mem_cons.mp h1 with h1 | h1
        · subst h1; exact absurd h h2
        · exact ⟨h1, h2⟩
    · rename_i h
      rw [List.mem_cons, mem_uniqueGo l (e :: keys)]
      simp only [List.mem_cons, not_or]
      grind

theorem nodup_uniqueGo : ∀ (l keys : List String), (uniqueGo keys l).Nodup
  | [], _ => List.nodup_nil
  | e :: l, keys => by
    rw [uniqueGo]
    split
    · exact nodup_uniqueGo l keys
    · rw [List.nodup_cons]
      exact ⟨fun h => ((mem_uniqueGo l _).mp h).2 (by simp), nodup_uniqueGo l _⟩

theorem firstDifferent_spec (own : List String) : ∀ (l : List String),
    (∃ pre post, l = pre ++ firstDifferent own l :: post ∧ (∀ a ∈ pre, a ∈ own) ∧ firstDifferent own l ∉ own) ∨
    ((∀ a ∈ l, a ∈ own) ∧ firstDifferent own l = "")
  | [] => Or.inr ⟨by simp, rfl⟩
  | e :: l => by
    rw [firstDifferent]
    split
    · rename_i h
      rcases firstDifferent_spec own l with ⟨pre, post, h1, h2, h3⟩ | ⟨h1, h2⟩
      · refine Or.inl ⟨e :: pre, post, ?_, ?_, h3⟩
        · rw [List.cons_append, ← h1]
        · intro a ha
          rcases List.mem_cons.mp ha with ha | ha
          · rw [ha]; exact h
          · exact h2 a ha
      · refine Or.inr ⟨?_, h2⟩
        intro a ha
        rcases List.mem_cons.mp ha with ha | ha
        · rw [ha]; exact h
        · exact h1 a ha
    · rename_i h
      exact Or.inl ⟨[], l, rfl, by simp, h⟩

theorem sends_iff (id : String) (p : Peer) : sends id p = true ↔ id ≠ "" ∧ id ∉ p.addressList := by
  unfold sends firstDifferent firstDifferent
  by_cases h : id ∈ p.addressList <;> simp [h]

/-! ### The clock -/

theorem seconds_toNat {now : Int} (h0 : 0 ≤ now) (h1 : now / 1000000000 < 18446744073709551616) :
    (seconds now).toNat = (now / 1000000000).toNat := by
  have : 0 ≤ now / 1000000000 := Int.ediv_nonneg h0 (by decide)
  unfold seconds UInt64.ofInt
  rw [UInt64.toNat_ofNat', Int.emod_eq_of_lt this (by omega)]
  exact Nat.mod_eq_of_lt (by omega)

theorem isRecent_old {now : Int} {t : UInt64} (h : t.toNat + 300 ≤ (seconds now).toNat) : isRecent now t = false := by
  unfold isRecent
  rw [decide_eq_false_iff_not, GT.gt, UInt64.not_lt, UInt64.le_iff_toNat_le, UInt64.toNat_add]
  have : (300 : UInt64).toNat = 300 := rfl
  rw [this]
  exact Nat.le_trans (Nat.mod_le _ _) h

theorem isRecent_new {now : Int} {t : UInt64} (h : (seconds now).toNat < t.toNat + 300) (h2 : t.toNat + 300 < 18446744073709551616) :
    isRecent now t = true := by
  unfold isRecent
  rw [decide_eq_true_eq, GT.gt, UInt64.lt_iff_toNat_lt, UInt64.toNat_add]
  have : (300 : UInt64).toNat = 300 := rfl
  rw [this, Nat.mod_eq_of_lt h2]
  exact h

/-! ### The peer table -/

theorem peerAt_some {now : Int} {t : PeerTable} {id : String} {p : Peer} :
    peerAt now t id = some p ↔ ∃ s, t.get? id = some s ∧ alive now s.expires = true ∧ s.peer = p := by
  unfold peerAt
  cases h : t.get? id with
  | none => simp
  | some s =>
    by_cases ha : alive now s.expires = true <;> simp [Option.filter, ha]

theorem peerAt_put {X : DS.XEnv} (hX : X.Ok) {now t : Int} (ht : t ≤ now + 10 * minute) (m : PeerTable) (id : String)
    (p : Peer) : peerAt t (putPeer X now m id p) id = some p := by
  obtain ⟨e, he, h1, -⟩ := hX.extend (now + 5 * minute) now (10 * minute) (by simp [minute]; omega) (by simp [minute])
  refine peerAt_some.mpr ⟨⟨p, some e⟩, ?_, ?_, rfl⟩
  · rw [putPeer, AMap.get?_set_self, he]
  · simp only [alive, decide_eq_true_eq]
    omega

theorem peerAt_put_ne {X : DS.XEnv} {now t : Int} {m : PeerTable} {id id' : String} {p : Peer} (h : id ≠ id') :
    peerAt t (putPeer X now m id p) id' = peerAt t m id' := by
  unfold peerAt putPeer
  rw [AMap.get?_set_ne _ _ h]

theorem announce_addresses (X : DS.XEnv) (now : Int) (n : Node) (p : Peer) :
    addresses (announce X now n p) = addresses n := by
  unfold announce
  split <;> rfl

theorem announceCheck_some {now : Int} {n : Node} {p : Peer} {r : String × Peer} (h : announceCheck now n p = some r) :
    similar n p = false ∧ isRecent now p.timestamp = true ∧ r = (idOfPeer p, sortedPeer p) ∧
    ∀ old, peerAt now n.peers (idOfPeer p) = some old → old.timestamp < p.timestamp := by
  unfold announceCheck at h
  split at h
  · cases h
  · rename_i hs
    refine ⟨by simpa using hs, ?_⟩
    split at h
    · rename_i old ho
      split at h
      · cases h
      · rename_i hlt
        split at h
        · rename_i hr
          refine ⟨hr, (Option.some.inj h).symm, ?_⟩
          intro old' ho'
          rw [ho] at ho'
          rw [← Option.some.inj ho']
          exact UInt64.not_le.mp hlt
        · cases h
    · rename_i ho
      split at h
      · rename_i hr
        refine ⟨hr, (Option.some.inj h).symm, ?_⟩
        intro old' ho'
        rw [ho] at ho'
        cases ho'
      · cases h

theorem announceCheck_none {now : Int} {n : Node} {p : Peer} (h : announceCheck now n p = none) :
    similar n p = true ∨ isRecent now p.timestamp = false ∨
    ∃ old, peerAt now n.peers (idOfPeer p) = some old ∧ p.timestamp ≤ old.timestamp := by
  unfold announceCheck at h
  split at h
  · rename_i hs; exact Or.inl hs
  · split at h
    · rename_i old ho
      split at h
      · rename_i hle; exact Or.inr (Or.inr ⟨old, ho, hle⟩)
      · split at h
        · cases h
        · rename_i hr; exact Or.inr (Or.inl (by simpa using hr))
    · split at h
      · cases h
      · rename_i hr; exact Or.inr (Or.inl (by simpa using hr))

end Net
end Veri
