import Verif.Float
/-
Go's `sort.Slice`: unspecified on ties and meaningless on inconsistent comparisons, otherwise a sorted permutation.
-/
set_option autoImplicit false
namespace Veri

/-- A sorting function, given the `less` function on elements. -/
abbrev SortFn (α : Type) := (α → α → Bool) → List α → List α

/-- `less` is a strict weak order on the elements of `l`. -/
structure WeakOrderOn {α : Type} (less : α → α → Bool) (l : List α) : Prop where
  irrefl : ∀ a ∈ l, less a a = false
  trans : ∀ a ∈ l, ∀ b ∈ l, ∀ c ∈ l, less a b = true → less b c = true → less a c = true
  neg_trans : ∀ a ∈ l, ∀ b ∈ l, ∀ c ∈ l, less a b = false → less b c = false → less a c = false

/-- Nothing later comes strictly before something earlier. -/
def SortedBy {α : Type} (less : α → α → Bool) (l : List α) : Prop := l.Pairwise fun a b => less b a = false

/-- What is assumed of `sort.Slice`: the result is a permutation, and it is sorted if `less` is consistent
on the elements. -/
structure IsSort {α : Type} (sort : SortFn α) : Prop where
  perm : ∀ less l, (sort less l).Perm l
  sorted : ∀ less l, WeakOrderOn less l → SortedBy less (sort less l)

namespace WeakOrderOn
variable {α : Type} {less : α → α → Bool} {l l' : List α}

theorem asymm (h : WeakOrderOn less l) {a b : α} (ha : a ∈ l) (hb : b ∈ l) (hab : less a b = true) :
    less b a = false := by
  cases hba : less b a with
  | false => rfl
  | true =>
    have := h.trans a ha b hb a ha hab hba
    rw [h.irrefl a ha] at this; cases this

theorem mono (h : WeakOrderOn less l) (hs : ∀ a ∈ l', a ∈ l) : WeakOrderOn less l' :=
  ⟨fun a ha => h.irrefl a (hs a ha),
   fun a ha b hb c hc => h.trans a (hs a ha) b (hs b hb) c (hs c hc),
   fun a ha b hb c hc => h.neg_trans a (hs a ha) b (hs b hb) c (hs c hc)⟩

end WeakOrderOn

namespace ISort
variable {α : Type}

/-- A concrete sort (insertion sort), to show that `IsSort` can be met. -/
def ins (less : α → α → Bool) (a : α) : List α → List α
  | [] => [a]
  | b :: bs => if less b a then b :: ins less a bs else a :: b :: bs

def sort : SortFn α := fun less l => l.foldr (ins less) []

theorem ins_perm (less : α → α → Bool) (a : α) : ∀ l, (ins less a l).Perm (a :: l)
  | [] => .refl _
  | b :: bs => by
    rw [ins]
    split
    · exact ((ins_perm less a bs).cons b).trans (.swap a b bs)
    · exact .refl _

theorem sort_perm (less : α → α → Bool) : ∀ l : List α, (sort less l).Perm l
  | [] => .refl _
  | a :: l => (ins_perm less a _).trans ((sort_perm less l).cons a)

theorem ins_sorted {less : α → α → Bool} {a : α} : ∀ {l : List α}, WeakOrderOn less (a :: l) → SortedBy less l →
    SortedBy less (ins less a l)
  | [], _, _ => List.pairwise_singleton _ _
  | b :: bs, hw, hs => by
    rw [ins]
    have hb : b ∈ a :: b :: bs := by simp
    have ha : a ∈ a :: b :: bs := by simp
    have hs' := List.pairwise_cons.1 hs
    split
    · rename_i hba
      refine List.pairwise_cons.2 ⟨?_, ins_sorted (hw.mono (by simp; grind)) hs'.2⟩
      intro x hx
      rcases List.mem_cons.1 ((ins_perm less a bs).mem_iff.1 hx) with rfl | hx
      · exact hw.asymm hb ha hba
      · exact hs'.1 x hx
    · rename_i hba
      refine List.pairwise_cons.2 ⟨?_, hs⟩
      intro x hx
      rcases List.mem_cons.1 hx with rfl | hx
      · simpa using hba
      · exact hw.neg_trans x (by simp [hx]) b hb a ha (hs'.1 x hx) (by simpa using hba)

theorem isSort : IsSort (sort : SortFn α) where
  perm := sort_perm
  sorted := by
    intro less l
    induction l with
    | nil => intro _; exact List.Pairwise.nil
    | cons a l ih =>
      intro hw
      have h1 := ih (hw.mono (by simp; grind))
      exact ins_sorted (hw.mono (by
        intro x hx
        rcases List.mem_cons.1 hx with rfl | hx
        · simp
        · exact List.mem_cons_of_mem _ ((sort_perm less l).mem_iff.1 hx))) h1

end ISort

/-- Specification of "the k best": the output is sorted best first, has as many entries as possible, and together
with what is left out it is exactly the candidates, none of the left out being strictly better than one kept. -/
def IsTopK {α : Type} (better : α → α → Bool) (k : Nat) (cands out : List α) : Prop :=
  ∃ rest, (out ++ rest).Perm cands ∧ out.length = min k cands.length ∧ SortedBy better out ∧
    ∀ r ∈ rest, ∀ x ∈ out, better r x = false

namespace IsTopK
variable {α : Type} {better : α → α → Bool} {k : Nat} {cands out : List α}

theorem nil : IsTopK better k [] [] := ⟨[], .refl _, by simp, List.Pairwise.nil, by simp⟩

theorem mem (h : IsTopK better k cands out) {x : α} (hx : x ∈ out) : x ∈ cands := by
  obtain ⟨rest, hp, _⟩ := h
  exact hp.mem_iff.1 (List.mem_append_left _ hx)

theorem length_le (h : IsTopK better k cands out) : out.length ≤ k := by
  obtain ⟨rest, _, hl, _⟩ := h; omega

theorem perm (h : IsTopK better k cands out) {cands' : List α} (hp : cands.Perm cands') :
    IsTopK better k cands' out := by
  obtain ⟨rest, h1, h2, h3, h4⟩ := h
  exact ⟨rest, h1.trans hp, by rw [h2, hp.length_eq], h3, h4⟩

/-- Room left: append and sort. -/
theorem step_room (sort : SortFn α) (hsort : IsSort sort) (h : IsTopK better k cands out) (hlt : out.length < k)
    (c : α) (hw : WeakOrderOn better (c :: cands)) :
    IsTopK better k (c :: cands) (sort better (out ++ [c])) := by
  obtain ⟨rest, h1, h2, h3, h4⟩ := h
  have hlen := h1.length_eq
  rw [List.length_append] at hlen
  have hr : rest = [] := List.length_eq_zero_iff.1 (by omega)
  subst hr
  rw [List.append_nil] at h1
  have hp : (sort better (out ++ [c])).Perm (c :: cands) :=
    (hsort.perm _ _).trans (List.perm_append_comm.trans (h1.cons c))
  refine ⟨[], by rw [List.append_nil]; exact hp, ?_, ?_, by simp⟩
  · rw [hp.length_eq]; simp only [List.length_cons]; omega
  · apply hsort.sorted
    exact hw.mono fun a ha => ((List.perm_append_comm.trans (h1.cons c)).mem_iff).1 ha

/-- Full, and the new one beats the last: it replaces it. -/
theorem step_replace (sort : SortFn α) (hsort : IsSort sort) (init : List α) (last : α)
    (h : IsTopK better k cands (init ++ [last])) (hk : (init ++ [last]).length = k)
    (c : α) (hb : better c last = true) (hw : WeakOrderOn better (c :: cands)) :
    IsTopK better k (c :: cands) (sort better (init ++ [c])) := by
  obtain ⟨rest, h1, h2, h3, h4⟩ := h
  have hmem : ∀ a, a ∈ init ∨ a = last ∨ a ∈ rest → a ∈ c :: cands := by
    intro a ha
    refine List.mem_cons_of_mem _ (h1.mem_iff.1 ?_)
    simp only [List.mem_append, List.mem_singleton]
    grind
  have hc : c ∈ c :: cands := List.mem_cons_self
  have hp : (init ++ [c] ++ (last :: rest)).Perm (c :: cands) := by
    refine List.Perm.trans ?_ (h1.cons c)
    rw [List.append_assoc, List.append_assoc]
    exact List.perm_middle
  have hsp := hsort.perm better (init ++ [c])
  refine ⟨last :: rest, (hsp.append_right _).trans hp, ?_, ?_, ?_⟩
  · rw [hsp.length_eq]
    simp only [List.length_append, List.length_cons, List.length_nil] at h2 hk ⊢
    omega
  · apply hsort.sorted
    refine hw.mono fun a ha => ?_
    rcases List.mem_append.1 ha with ha | ha
    · exact hmem a (Or.inl ha)
    · rw [List.mem_singleton.1 ha]; exact hc
  · have hsl := List.pairwise_append.1 h3
    intro r hr x hx
    have hx := hsp.mem_iff.1 hx
    rcases List.mem_append.1 hx with hx | hx
    · rcases List.mem_cons.1 hr with rfl | hr
      · exact hsl.2.2 x hx r (by simp)
      · exact h4 r hr x (by simp [hx])
    · rw [List.mem_singleton.1 hx]
      rcases List.mem_cons.1 hr with rfl | hr
      · exact hw.asymm hc (hmem r (by simp)) hb
      · cases hrc : better r c with
        | false => rfl
        | true =>
          have := hw.trans r (hmem r (by simp [hr])) c hc last (hmem last (by simp)) hrc hb
          rw [h4 r hr last (by simp)] at this; cases this

/-- Full, and the new one does not beat the last: nothing changes. -/
theorem step_skip (init : List α) (last : α)
    (h : IsTopK better k cands (init ++ [last])) (hk : (init ++ [last]).length = k)
    (c : α) (hb : better c last = false) (hw : WeakOrderOn better (c :: cands)) :
    IsTopK better k (c :: cands) (init ++ [last]) := by
  obtain ⟨rest, h1, h2, h3, h4⟩ := h
  have hmem : ∀ a, a ∈ init ∨ a = last ∨ a ∈ rest → a ∈ c :: cands := by
    intro a ha
    refine List.mem_cons_of_mem _ (h1.mem_iff.1 ?_)
    simp only [List.mem_append, List.mem_singleton]
    grind
  refine ⟨c :: rest, List.perm_middle.trans (h1.cons c), ?_, h3, ?_⟩
  · simp only [List.length_append, List.length_cons, List.length_nil] at h2 hk ⊢; omega
  · intro r hr x hx
    rcases List.mem_cons.1 hr with rfl | hr
    · have hsl := List.pairwise_append.1 h3
      rcases List.mem_append.1 hx with hx' | hx'
      · exact hw.neg_trans r (by simp) last (hmem last (by simp)) x (hmem x (by simp [hx'])) hb
          (hsl.2.2 x hx' last (by simp))
      · rw [List.mem_singleton.1 hx']; exact hb
    · exact h4 r hr x hx

end IsTopK
namespace IsTopK
variable {α : Type} {better : α → α → Bool} {k : Nat}

theorem ranks_aux {cands out : List α} (h : IsTopK better k cands out) (rank : α → Int)
    (hr : ∀ a ∈ cands, ∀ b ∈ cands, better a b = decide (rank a < rank b)) :
    ∃ tail, (out.map rank ++ tail).Perm (cands.map rank) ∧ (out.map rank ++ tail).Pairwise (· ≤ ·) := by
  have hmem := fun x hx => h.mem (x := x) hx
  obtain ⟨rest, h1, h2, h3, h4⟩ := h
  have hrest : ∀ x ∈ rest, x ∈ cands := fun x hx => h1.mem_iff.1 (List.mem_append_right _ hx)
  let less : Int → Int → Bool := fun a b => decide (a < b)
  have hw : WeakOrderOn less (rest.map rank) :=
    ⟨fun a _ => by simp [less], fun a _ b _ c _ => by simp only [less, decide_eq_true_eq]; omega,
     fun a _ b _ c _ => by simp only [less, decide_eq_false_iff_not]; omega⟩
  have hp := ISort.sort_perm less (rest.map rank)
  refine ⟨ISort.sort less (rest.map rank), ?_, ?_⟩
  · refine (hp.append_left _).trans ?_
    rw [← List.map_append]
    exact h1.map rank
  · refine List.pairwise_append.2 ⟨?_, ?_, ?_⟩
    · refine List.pairwise_map.2 ((List.Pairwise.and_mem.1 h3).imp ?_)
      rintro a b ⟨ha, hb, hab⟩
      rw [hr b (hmem b hb) a (hmem a ha)] at hab
      simp only [decide_eq_false_iff_not] at hab
      omega
    · refine (ISort.isSort.sorted less _ hw).imp ?_
      intro a b hab
      simp only [less, decide_eq_false_iff_not] at hab
      omega
    · intro a ha b hb
      obtain ⟨x, hx, rfl⟩ := List.mem_map.1 ha
      obtain ⟨y, hy, rfl⟩ := List.mem_map.1 (hp.mem_iff.1 hb)
      have := h4 y hy x hx
      rw [hr y (hrest y hy) x (hmem x hx)] at this
      simp only [decide_eq_false_iff_not] at this
      omega

/-- The k best of two candidate lists with the same ranks have the same ranks, position by position. -/
theorem ranks_unique {c1 c2 o1 o2 : List α} (h1 : IsTopK better k c1 o1) (h2 : IsTopK better k c2 o2)
    (rank : α → Int) (hr1 : ∀ a ∈ c1, ∀ b ∈ c1, better a b = decide (rank a < rank b))
    (hr2 : ∀ a ∈ c2, ∀ b ∈ c2, better a b = decide (rank a < rank b))
    (hp : (c1.map rank).Perm (c2.map rank)) : o1.map rank = o2.map rank := by
  obtain ⟨t1, p1, s1⟩ := h1.ranks_aux rank hr1
  obtain ⟨t2, p2, s2⟩ := h2.ranks_aux rank hr2
  have he := List.Perm.eq_of_pairwise (le := (· ≤ ·)) (fun a b _ _ h1 h2 => Int.le_antisymm h1 h2) s1 s2
    (p1.trans (hp.trans p2.symm))
  obtain ⟨_, _, l1, _⟩ := h1
  obtain ⟨_, _, l2, _⟩ := h2
  have hlen := hp.length_eq
  simp only [List.length_map] at hlen
  have := congrArg (List.take (o1.map rank).length) he
  rw [List.take_left, show (o1.map rank).length = (o2.map rank).length by simp only [List.length_map]; omega,
    List.take_left] at this
  exact this

end IsTopK

end Veri
