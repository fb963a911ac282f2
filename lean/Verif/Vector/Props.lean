import Verif.Vector.Model
/-
C68, C69, C70.
-/
set_option autoImplicit false
namespace Veri
open Vec

namespace Vec
variable {S D : Type} {o : FOps S D}

theorem euclideanLoop_comm (l : FLaws o) : ∀ (a b : List S) (r r' : S), l.same r r' →
    l.same (euclideanLoop o r a b) (euclideanLoop o r' b a)
  | [], [], _, _, h => h
  | [], _ :: _, _, _, h => h
  | _ :: _, [], _, _, h => h
  | _ :: xs, _ :: ys, _, _, h => euclideanLoop_comm l xs ys _ _ (l.sq_sub _ _ _ _ h)

theorem euclideanLoop_take (ret : S) : ∀ (a b : List S) (n : Nat), min a.length b.length ≤ n → 
    euclideanLoop o ret (a.take n) (b.take n) = euclideanLoop o ret a b := by
  intro a
  induction a generalizing ret with
  | nil => intro b n _; simp [euclideanLoop]
  | cons x xs ih =>
    intro b n hn
    cases b with
    | nil => simp [euclideanLoop]
    | cons y ys =>
      cases n with
      | zero => simp at hn
      | succ n =>
        simp only [List.take_succ_cons, euclideanLoop]
        exact ih _ ys n (by simp at hn; omega)

theorem vectorDistance_eq (a b : List S) :
    vectorDistance o a b = o.sqrtD (o.widen (euclideanLoop o o.zero a b)) := by
  unfold vectorDistance euclideanDistance
  simp only []
  rw [euclideanLoop_take _ _ _ _ (Nat.le_refl _)]

theorem quickLoop_comm (l : FLaws o) : ∀ (a b : List S) (r : D), quickLoop o r a b = quickLoop o r b a
  | [], [], _ => rfl
  | [], _ :: _, _ => rfl
  | _ :: _, [], _ => rfl
  | x :: xs, y :: ys, r => by
    simp only [quickLoop]
    rw [l.widen_congr _ _ (l.abs_sub x y)]
    exact quickLoop_comm l xs ys _

theorem quickLoop_take (ret : D) : ∀ (a b : List S) (n : Nat), min a.length b.length ≤ n → 
    quickLoop o ret (a.take n) (b.take n) = quickLoop o ret a b := by
  intro a
  induction a generalizing ret with
  | nil => intro b n _; simp [quickLoop]
  | cons x xs ih =>
    intro b n hn
    cases b with
    | nil => simp [quickLoop]
    | cons y ys =>
      cases n with
      | zero => simp at hn
      | succ n =>
        simp only [List.take_succ_cons, quickLoop]
        exact ih _ ys n (by simp at hn; omega)

theorem multLoop_comm (l : FLaws o) : ∀ (a b : List S) (r r' : S), l.same r r' →
    l.same (multLoop o r a b) (multLoop o r' b a)
  | [], [], _, _, h => h
  | [], _ :: _, _, _, h => h
  | _ :: _, [], _, _, h => h
  | _ :: xs, _ :: ys, _, _, h => multLoop_comm l xs ys _ _ (l.madd_comm _ _ _ _ h)

theorem multLoop_take (ret : S) : ∀ (a b : List S) (n : Nat), min a.length b.length ≤ n → 
    multLoop o ret (a.take n) (b.take n) = multLoop o ret a b := by
  intro a
  induction a generalizing ret with
  | nil => intro b n _; simp [multLoop]
  | cons x xs ih =>
    intro b n hn
    cases b with
    | nil => simp [multLoop]
    | cons y ys =>
      cases n with
      | zero => simp at hn
      | succ n =>
        simp only [List.take_succ_cons, multLoop]
        exact ih _ ys n (by simp at hn; omega)

theorem euclideanLoop_self (l : FLaws o) : ∀ a : List S, (∀ x ∈ a, l.finite x) →
    euclideanLoop o o.zero a a = o.zero
  | [], _ => rfl
  | x :: xs, h => by
    simp only [euclideanLoop]
    rw [(l.sub_self x (h x List.mem_cons_self)).1, l.add_zero_zero]
    exact euclideanLoop_self l xs fun y hy => h y (List.mem_cons_of_mem _ hy)

theorem quickLoop_self (l : FLaws o) : ∀ a : List S, (∀ x ∈ a, l.finite x) → quickLoop o o.zeroD a a = o.zeroD
  | [], _ => rfl
  | x :: xs, h => by
    simp only [quickLoop]
    rw [(l.sub_self x (h x List.mem_cons_self)).2, l.addD_zero]
    exact quickLoop_self l xs fun y hy => h y (List.mem_cons_of_mem _ hy)

theorem cosLoop_nil (c : CosAcc S) : cosLoop o c [] [] = c := rfl
theorem cosLoop_right (c : CosAcc S) (y : S) (ys : List S) :
    cosLoop o c [] (y :: ys) = cosLoop o { c with s2 := o.madd c.s2 y y } [] ys := rfl
theorem cosLoop_left (c : CosAcc S) (x : S) (xs : List S) :
    cosLoop o c (x :: xs) [] = cosLoop o { c with s1 := o.madd c.s1 x x } xs [] := rfl
theorem cosLoop_both (c : CosAcc S) (x y : S) (xs ys : List S) : cosLoop o c (x :: xs) (y :: ys) =
    cosLoop o { sumA := o.madd c.sumA x y, s1 := o.madd c.s1 x x, s2 := o.madd c.s2 y y } xs ys := rfl

theorem cosLoop_comm (l : FLaws o) : ∀ (a b : List S) (c c' : CosAcc S),
    l.same c.sumA c'.sumA → l.same c.s1 c'.s2 → l.same c.s2 c'.s1 →
    l.same (cosLoop o c a b).sumA (cosLoop o c' b a).sumA ∧
    l.same (cosLoop o c a b).s1 (cosLoop o c' b a).s2 ∧
    l.same (cosLoop o c a b).s2 (cosLoop o c' b a).s1
  | [], [], c, c', h1, h2, h3 => by simp only [cosLoop_nil, cosLoop_right, cosLoop_left, cosLoop_both]; exact ⟨h1, h2, h3⟩
  | [], y :: ys, c, c', h1, h2, h3 => by
    simp only [cosLoop_nil, cosLoop_right, cosLoop_left, cosLoop_both]
    exact cosLoop_comm l [] ys _ _ h1 h2 (l.madd_congr _ _ _ _ h3)
  | x :: xs, [], c, c', h1, h2, h3 => by
    simp only [cosLoop_nil, cosLoop_right, cosLoop_left, cosLoop_both]
    exact cosLoop_comm l xs [] _ _ h1 (l.madd_congr _ _ _ _ h2) h3
  | x :: xs, y :: ys, c, c', h1, h2, h3 => by
    simp only [cosLoop_nil, cosLoop_right, cosLoop_left, cosLoop_both]
    exact cosLoop_comm l xs ys _ _ (l.madd_comm _ _ _ _ h1) (l.madd_congr _ _ _ _ h2) (l.madd_congr _ _ _ _ h3)

theorem cosLoop_pad (l : FLaws o) : ∀ (a b : List S) (c : CosAcc S), l.sum c.sumA → l.sum c.s1 → l.sum c.s2 →
    (∀ x ∈ a, l.finite x) → (∀ x ∈ b, l.finite x) →
    cosLoop o c a b = cosLoop o c (a ++ List.replicate (b.length - a.length) o.zero)
      (b ++ List.replicate (a.length - b.length) o.zero)
  | [], [], c, _, _, _, _, _ => by simp
  | [], y :: ys, c, h1, h2, h3, ha, hb => by
    have ih := cosLoop_pad l [] ys { c with s2 := o.madd c.s2 y y } h1 h2 (l.sum_madd _ _ _ h3)
      (by simp) (fun x hx => hb x (List.mem_cons_of_mem _ hx))
    simp only [List.length_nil, Nat.sub_zero, List.nil_append, Nat.zero_sub, List.replicate_zero,
      List.append_nil, List.length_cons, List.replicate_succ,
      cosLoop_nil, cosLoop_right, cosLoop_left, cosLoop_both] at ih ⊢
    rw [ih, (l.madd_zero _ _ h1 (hb y List.mem_cons_self)).2, (l.madd_zero _ _ h2 l.finite_zero).1]
  | x :: xs, [], c, h1, h2, h3, ha, hb => by
    have ih := cosLoop_pad l xs [] { c with s1 := o.madd c.s1 x x } h1 (l.sum_madd _ _ _ h2) h3
      (fun y hy => ha y (List.mem_cons_of_mem _ hy)) (by simp)
    simp only [List.length_nil, Nat.sub_zero, List.nil_append, Nat.zero_sub, List.replicate_zero,
      List.append_nil, List.length_cons, List.replicate_succ,
      cosLoop_nil, cosLoop_right, cosLoop_left, cosLoop_both] at ih ⊢
    rw [ih, (l.madd_zero _ _ h1 (ha x List.mem_cons_self)).1, (l.madd_zero _ _ h3 l.finite_zero).1]
  | x :: xs, y :: ys, c, h1, h2, h3, ha, hb => by
    have ih := cosLoop_pad l xs ys ⟨o.madd c.sumA x y, o.madd c.s1 x x, o.madd c.s2 y y⟩
      (l.sum_madd _ _ _ h1) (l.sum_madd _ _ _ h2) (l.sum_madd _ _ _ h3)
      (fun z hz => ha z (List.mem_cons_of_mem _ hz)) (fun z hz => hb z (List.mem_cons_of_mem _ hz))
    simp only [List.length_cons, Nat.add_sub_add_right, List.cons_append, cosLoop_nil, cosLoop_right, cosLoop_left, cosLoop_both]
    exact ih

theorem cosLoop_zero_left (l : FLaws o) : ∀ (a b : List S) (c : CosAcc S), o.isZero c.s1 = true →
    (∀ x ∈ a, o.isZero x = true) → o.isZero (cosLoop o c a b).s1 = true
  | [], [], c, h, _ => by simp only [cosLoop_nil, cosLoop_right, cosLoop_left, cosLoop_both]; exact h
  | [], y :: ys, c, h, ha => by simp only [cosLoop_nil, cosLoop_right, cosLoop_left, cosLoop_both]; exact cosLoop_zero_left l [] ys _ h ha
  | x :: xs, [], c, h, ha => by
    simp only [cosLoop_nil, cosLoop_right, cosLoop_left, cosLoop_both]
    exact cosLoop_zero_left l xs [] _ (l.madd_isZero _ _ h (ha x List.mem_cons_self))
      (fun y hy => ha y (List.mem_cons_of_mem _ hy))
  | x :: xs, y :: ys, c, h, ha => by
    simp only [cosLoop_nil, cosLoop_right, cosLoop_left, cosLoop_both]
    exact cosLoop_zero_left l xs ys _ (l.madd_isZero _ _ h (ha x List.mem_cons_self))
      (fun y hy => ha y (List.mem_cons_of_mem _ hy))

end Vec

/-- C68.  Euclidean distance, absolute distance and dot product do not depend on the order of their
arguments. -/
theorem C68_symmetric {S D : Type} {o : FOps S D} (l : FLaws o) (a b : List S) :
    vectorDistance o a b = vectorDistance o b a ∧
    quickVectorDistance o a b = quickVectorDistance o b a ∧
    vectorMultiplication o a b = vectorMultiplication o b a := by
  refine ⟨?_, quickLoop_comm l a b _, ?_⟩
  · rw [vectorDistance_eq, vectorDistance_eq]
    rw [l.widen_congr _ _ (euclideanLoop_comm l a b _ _ (l.same_refl _))]
  · exact l.widen_congr _ _ (multLoop_comm l a b _ _ (l.same_refl _))

/-- C68.  Only the common prefix matters: appending anything to the longer vector changes nothing. -/
theorem C68_common_prefix {S D : Type} (o : FOps S D) (a b : List S) :
    let n := min a.length b.length
    vectorDistance o a b = vectorDistance o (a.take n) (b.take n) ∧
    quickVectorDistance o a b = quickVectorDistance o (a.take n) (b.take n) ∧
    vectorMultiplication o a b = vectorMultiplication o (a.take n) (b.take n) := by
  refine ⟨?_, (quickLoop_take _ a b _ (Nat.le_refl _)).symm, ?_⟩
  · rw [vectorDistance_eq, vectorDistance_eq, euclideanLoop_take _ a b _ (Nat.le_refl _)]
  · unfold vectorMultiplication
    rw [multLoop_take _ a b _ (Nat.le_refl _)]

/-- C68.  A vector of finite numbers has distance zero to itself. -/
theorem C68_self_zero {S D : Type} {o : FOps S D} (l : FLaws o) (a : List S) (h : ∀ x ∈ a, l.finite x) :
    vectorDistance o a a = o.zeroD ∧ quickVectorDistance o a a = o.zeroD := by
  constructor
  · rw [vectorDistance_eq, euclideanLoop_self l a h, l.sqrtD_zero]
  · exact quickLoop_self l a h

/-- C69.  Cosine similarity (and the angular score built on it) is symmetric. -/
theorem C69_symmetric {S D : Type} {o : FOps S D} (l : FLaws o) (a b : List S) :
    cosineSimilarity o a b = cosineSimilarity o b a ∧ angularDistance o a b = angularDistance o b a := by
  have h : cosineSimilarity o a b = cosineSimilarity o b a := by
    obtain ⟨h1, h2, h3⟩ := cosLoop_comm l a b ⟨o.zero, o.zero, o.zero⟩ ⟨o.zero, o.zero, o.zero⟩
      (l.same_refl _) (l.same_refl _) (l.same_refl _)
    unfold cosineSimilarity
    simp only []
    rw [l.isZero_congr _ _ h2, l.isZero_congr _ _ h3, l.widen_congr _ _ (l.mul_comm_sqrt _ _ _ _ _ _ h1 h2 h3),
      Bool.or_comm]
  exact ⟨h, by unfold angularDistance; rw [h]⟩

/-- C69.  The shorter vector is treated as padded with zeros. -/
theorem C69_zero_padding {S D : Type} {o : FOps S D} (l : FLaws o) (a b : List S)
    (ha : ∀ x ∈ a, l.finite x) (hb : ∀ x ∈ b, l.finite x) :
    cosineSimilarity o a b =
      cosineSimilarity o (a ++ List.replicate (b.length - a.length) o.zero)
        (b ++ List.replicate (a.length - b.length) o.zero) := by
  unfold cosineSimilarity
  simp only []
  rw [cosLoop_pad l a b _ l.sum_zero l.sum_zero l.sum_zero ha hb]

/-- C69.  It is 0 if either vector is zero. -/
theorem C69_zero_vector {S D : Type} {o : FOps S D} (l : FLaws o) (a b : List S)
    (h : (∀ x ∈ a, o.isZero x = true) ∨ (∀ x ∈ b, o.isZero x = true)) :
    cosineSimilarity o a b = o.zeroD := by
  have key : ∀ a b : List S, (∀ x ∈ a, o.isZero x = true) → cosineSimilarity o a b = o.zeroD := by
    intro a b h
    have := cosLoop_zero_left l a b ⟨o.zero, o.zero, o.zero⟩ l.isZero_zero h
    unfold cosineSimilarity
    simp [this]
  rcases h with h | h
  · exact key a b h
  · rw [(C69_symmetric l a b).1]; exact key b a h

/-- C69.  On float64 bit patterns the result is never above 1 nor below -1, whatever the rounding of the
arithmetic. -/
theorem C69_bounded (o : FOps F32 F64) (hb : Bits o) (a b : List F32) :
    F64.lt F64.one (cosineSimilarity o a b) = false ∧ F64.lt (cosineSimilarity o a b) F64.negOne = false := by
  unfold cosineSimilarity
  simp only [hb.zeroD, hb.oneD, hb.negOneD, hb.ltD]
  split
  · decide
  · split
    · decide
    · rename_i h1
      split
      · decide
      · rename_i h2
        exact ⟨by simpa using h1, by simpa using h2⟩

/-- C70.  Which function a name means, written out; every other name means euclidean distance. -/
theorem C70_score_function (name : String) :
    getVectorComparisonFunction name =
      if name = "CosineSimilarity" ∨ name = "AnnoyCosineSimilarity" then .cosineSimilarity
      else if name = "AngularDistance" ∨ name = "AnnoyAngularDistance" then .angularDistance
      else if name = "VectorMultiplication" then .vectorMultiplication
      else if name = "QuickVectorDistance" then .quickVectorDistance
      else .vectorDistance := by
  by_cases h1 : name = "CosineSimilarity"
  · subst h1; decide
  by_cases h2 : name = "AnnoyCosineSimilarity"
  · subst h2; decide
  by_cases h3 : name = "AngularDistance"
  · subst h3; decide
  by_cases h4 : name = "AnnoyAngularDistance"
  · subst h4; decide
  by_cases h5 : name = "VectorMultiplication"
  · subst h5; decide
  by_cases h6 : name = "QuickVectorDistance"
  · subst h6; decide
  by_cases h7 : name = "VectorDistance"
  · subst h7; decide
  by_cases h8 : name = "AnnoyVectorDistance"
  · subst h8; decide
  · have hn : vectorComparisonFuncs.lookup name = none := by
      have e : ∀ s : String, ¬ name = s → (name == s) = false := fun s h => by simpa using h
      simp only [vectorComparisonFuncs, List.lookup, e _ h1, e _ h2, e _ h3, e _ h4, e _ h5, e _ h6, e _ h7,
        e _ h8]
    simp [getVectorComparisonFunction, hn, h1, h2, h3, h4, h5, h6]

/-- C70, full statement: an Annoy-prefixed name selects index search with the scoring of the plain name.
FALSE of the code. -/
def C70_annoy_prefix_statement : Prop :=
  ∀ name : String, isAnnoyName name = false →
    isAnnoyName ("Annoy" ++ name) = true ∧
    getVectorComparisonFunction ("Annoy" ++ name) = getVectorComparisonFunction name

/-- C70, counterexample: "AnnoyVectorMultiplication" silently scores by euclidean distance. -/
theorem C70_annoy_prefix_fails : ¬ C70_annoy_prefix_statement := by
  intro h
  have := (h "VectorMultiplication" (by decide)).2
  exact absurd this (by decide)

/-- C70, partial: index search is selected exactly by the prefix, and the scoring is that of the plain
name for every name except the dot product and the absolute distance. -/
theorem C70_annoy_prefix_partial (name : String) :
    isAnnoyName ("Annoy" ++ name) = true ∧
    (isAnnoyName name = false → name ≠ "VectorMultiplication" → name ≠ "QuickVectorDistance" →
      getVectorComparisonFunction ("Annoy" ++ name) = getVectorComparisonFunction name) := by
  refine ⟨by simp [isAnnoyName], ?_⟩
  intro hp h5 h6
  rw [C70_score_function, C70_score_function]
  have e1 : ("Annoy" ++ name = "AnnoyCosineSimilarity") ↔ name = "CosineSimilarity" := by
    rw [show "AnnoyCosineSimilarity" = "Annoy" ++ "CosineSimilarity" from by decide, String.append_right_inj]
  have e2 : ("Annoy" ++ name = "AnnoyAngularDistance") ↔ name = "AngularDistance" := by
    rw [show "AnnoyAngularDistance" = "Annoy" ++ "AngularDistance" from by decide, String.append_right_inj]
  have hne : ∀ s : String, isAnnoyName s = false → "Annoy" ++ name ≠ s := by
    intro s hs e; rw [← e] at hs; simp [isAnnoyName] at hs
  have hne' : ∀ s : String, isAnnoyName s = true → name ≠ s := by
    intro s hs e; rw [e, hs] at hp; cases hp
  simp only [e1, e2, hne "CosineSimilarity" (by decide), hne "AngularDistance" (by decide),
    hne "VectorMultiplication" (by decide), hne "QuickVectorDistance" (by decide),
    hne' "AnnoyCosineSimilarity" (by decide), hne' "AnnoyAngularDistance" (by decide), h5, h6, false_or, or_false,
    if_false]

/-- The three documented index scorings. -/
example : getVectorComparisonFunction "AnnoyCosineSimilarity" = .cosineSimilarity ∧
    getVectorComparisonFunction "AnnoyAngularDistance" = .angularDistance ∧
    getVectorComparisonFunction "AnnoyVectorDistance" = .vectorDistance ∧
    getVectorComparisonFunction "" = .vectorDistance := by decide

end Veri
