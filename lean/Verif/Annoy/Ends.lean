import Verif.Annoy.Props
/-
C144: building the native index ends, unless the random sides of some set of items are unbalanced for ever.
-/
set_option autoImplicit false
namespace Veri
namespace Annoy

/-! ### The random numbers -/

/-- The state of the generator after `n` more numbers. -/
def Kiss.after : Nat → Kiss → Kiss
  | 0, k => k
  | n + 1, k => Kiss.after n k.kiss.2

/-- How many of the next `n` flips are true. -/
def Kiss.heads : Nat → Kiss → Nat
  | 0, _ => 0
  | n + 1, k => (if k.flip.1 then 1 else 0) + Kiss.heads n k.kiss.2

/-- From this state on, every round of `n` flips is unbalanced. -/
def Stuck (A : Lib) (k : Kiss) (n : Nat) : Prop :=
  ∀ m, A.over99 (n - (k.after (m * n)).heads n) ((k.after (m * n)).heads n) = true

theorem after_add (a b : Nat) (k : Kiss) : k.after (a + b) = (k.after a).after b := by
  induction a generalizing k with
  | zero => rw [Nat.zero_add]; rfl
  | succ a ih =>
    rw [show a + 1 + b = (a + b) + 1 by omega]
    exact ih _

/-- `k'` comes after `k`. -/
def Later (k k' : Kiss) : Prop := ∃ j, k' = k.after j

theorem Later.refl (k : Kiss) : Later k k := ⟨0, rfl⟩
theorem Later.trans {a b c : Kiss} (h : Later a b) (h' : Later b c) : Later a c := by
  obtain ⟨i, rfl⟩ := h
  obtain ⟨j, rfl⟩ := h'
  exact ⟨i + j, (after_add i j a).symm⟩
theorem Later.next (k : Kiss) : Later k k.kiss.2 := ⟨1, rfl⟩

theorem randomSides_spec (js : List Nat) (k : Kiss) :
    (randomSides js k).1.length = js.length - k.heads js.length ∧ (randomSides js k).2.1.length = k.heads js.length ∧
      (randomSides js k).2.2 = k.after js.length ∧ k.heads js.length ≤ js.length := by
  induction js generalizing k with
  | nil => exact ⟨rfl, rfl, rfl, Nat.le_refl _⟩
  | cons j js ih =>
    obtain ⟨h1, h2, h3, h4⟩ := ih k.kiss.2
    have e : randomSides (j :: js) k = if k.flip.1 then
        ((randomSides js k.kiss.2).1, j :: (randomSides js k.kiss.2).2.1, (randomSides js k.kiss.2).2.2)
      else (j :: (randomSides js k.kiss.2).1, (randomSides js k.kiss.2).2.1, (randomSides js k.kiss.2).2.2) := rfl
    rw [e]
    have e2 : k.heads (j :: js).length = (if k.flip.1 then 1 else 0) + k.kiss.2.heads js.length := rfl
    rw [e2]
    by_cases hf : k.flip.1 = true
    · simp only [hf, if_true, List.length_cons]
      exact ⟨by omega, by omega, h3, by omega⟩
    · simp only [hf, List.length_cons]
      exact ⟨by simp; omega, by simp; omega, h3, by simp; omega⟩

section
variable {A : Lib}

/-! ### Steps that always end -/

theorem Out.bind_nr {α β : Type} {x : Out α} {g : α → Out β} (hx : x ≠ .running) (hg : ∀ a, x = .ok a → g a ≠ .running) :
    x.bind g ≠ .running := by
  cases x with
  | ok a => exact hg a rfl
  | crash => intro h; cases h
  | running => exact absurd rfl hx

theorem ofOption_nr {α : Type} (x : Option α) : Out.ofOption x ≠ .running := by
  cases x <;> (intro h; cases h)

theorem index_nr (k : Kiss) (n : Nat) : k.index n ≠ .running := by
  unfold Kiss.index; split <;> (intro h; cases h)

theorem index_later {k k' : Kiss} {n i : Nat} (h : k.index n = .ok (i, k')) : Later k k' := by
  unfold Kiss.index at h
  split at h
  · cases h
  · simp only [Out.ok.injEq, Prod.mk.injEq] at h
    rw [← h.2]; exact .next k

theorem meansLoop_nr (nodes : List Node) (l : Nat) (m : Means) (k : Kiss) : meansLoop A nodes l m k ≠ .running := by
  induction l generalizing m k with
  | zero => intro h; cases h
  | succ l ih =>
    unfold meansLoop
    refine Out.bind_nr (index_nr _ _) ?_
    rintro ⟨i, k⟩ _
    exact Out.bind_nr (ofOption_nr _) fun n _ => ih _ _

theorem meansLoop_later {nodes : List Node} {l : Nat} {m m' : Means} {k k' : Kiss}
    (h : meansLoop A nodes l m k = .ok (m', k')) : Later k k' := by
  induction l generalizing m k with
  | zero => unfold meansLoop at h; cases h; exact .refl _
  | succ l ih =>
    unfold meansLoop at h
    obtain ⟨⟨i, k1⟩, h1, h⟩ := Out.bind_ok h
    obtain ⟨n, _, h⟩ := Out.bind_ok h
    exact (index_later h1).trans (ih h)

theorem twoMeans_nr (nodes : List Node) (k : Kiss) : twoMeans A nodes k ≠ .running := by
  unfold twoMeans
  refine Out.bind_nr (index_nr _ _) ?_
  rintro ⟨i, k⟩ _
  refine Out.bind_nr (index_nr _ _) ?_
  rintro ⟨j, k⟩ _
  refine Out.bind_nr (ofOption_nr _) fun a _ => Out.bind_nr (ofOption_nr _) fun b _ => meansLoop_nr _ _ _ _

theorem twoMeans_later {nodes : List Node} {k k' : Kiss} {m : Means} (h : twoMeans A nodes k = .ok (m, k')) : Later k k' := by
  unfold twoMeans at h
  obtain ⟨⟨i, k1⟩, h1, h⟩ := Out.bind_ok h
  obtain ⟨⟨j, k2⟩, h2, h⟩ := Out.bind_ok h
  obtain ⟨a, _, h⟩ := Out.bind_ok h
  obtain ⟨b, _, h⟩ := Out.bind_ok h
  exact (index_later h1).trans ((index_later h2).trans (meansLoop_later h))

theorem createSplit_nr (nodes : List Node) (k : Kiss) : createSplit A nodes k ≠ .running := by
  unfold createSplit
  refine Out.bind_nr (twoMeans_nr _ _) ?_
  rintro ⟨m, k⟩ _ h
  cases h

theorem createSplit_later {nodes : List Node} {k k' : Kiss} {v : List F32} (h : createSplit A nodes k = .ok (v, k')) : Later k k' := by
  unfold createSplit at h
  obtain ⟨⟨m, k1⟩, h1, h⟩ := Out.bind_ok h
  cases h
  exact twoMeans_later h1

theorem side_later (n y : List F32) (k : Kiss) : Later k (side A n y k).2 := by
  unfold side
  by_cases h : F32.isZero (A.dot n y) = true
  · simp only [h, if_true]; exact .next k
  · simp only [h]; exact .refl k

theorem sides_nr (nodes : List Node) (n : List F32) (js : List Nat) (k : Kiss) : sides A nodes n js k ≠ .running := by
  induction js generalizing k with
  | nil => intro h; cases h
  | cons j js ih =>
    unfold sides
    refine Out.bind_nr (ofOption_nr _) fun x _ => ?_
    refine Out.bind_nr (ih _) ?_
    rintro ⟨l, r, k⟩ _ h
    cases h

theorem sides_later {nodes : List Node} {n : List F32} {js : List Nat} {k k' : Kiss} {l r : List Nat}
    (h : sides A nodes n js k = .ok (l, r, k')) : Later k k' := by
  induction js generalizing k k' l r with
  | nil => unfold sides at h; cases h; exact .refl _
  | cons j js ih =>
    rw [sides] at h
    obtain ⟨x, _, h⟩ := Out.bind_ok h
    have h : ((sides A nodes n js (side A n x.v k).2).bind fun (l, r, k') =>
        .ok (if (side A n x.v k).1 then (l, j :: r, k') else (j :: l, r, k'))) = .ok (l, r, k') := h
    obtain ⟨⟨l1, r1, k1⟩, h1, h⟩ := Out.bind_ok h
    have := (side_later n x.v k).trans (ih h1)
    generalize (side A n x.v k).1 = b at h
    cases b <;> (cases h; exact this)

theorem attempts_nr (nodes : List Node) (indices : List Nat) (n : Nat) (k : Kiss) : attempts A nodes indices n k ≠ .running := by
  induction n generalizing k with
  | zero =>
    rw [attempts]
    refine Out.bind_nr (ofOption_nr _) fun xs _ => Out.bind_nr (createSplit_nr _ _) ?_
    rintro ⟨v, k⟩ _
    refine Out.bind_nr (sides_nr _ _ _ _) ?_
    rintro ⟨l, r, k⟩ _ h
    cases h
  | succ n ih =>
    rw [attempts]
    refine Out.bind_nr (ofOption_nr _) fun xs _ => Out.bind_nr (createSplit_nr _ _) ?_
    rintro ⟨v, k⟩ _
    refine Out.bind_nr (sides_nr _ _ _ _) ?_
    rintro ⟨l, r, k⟩ _
    simp only
    split
    · intro h; cases h
    · exact ih _

theorem attempts_later {nodes : List Node} {indices : List Nat} {n : Nat} {k k' : Kiss} {s : Split}
    (h : attempts A nodes indices n k = .ok (s, k')) : Later k k' := by
  induction n generalizing k with
  | zero =>
    rw [attempts] at h
    obtain ⟨xs, _, h⟩ := Out.bind_ok h
    obtain ⟨⟨v, k1⟩, h1, h⟩ := Out.bind_ok h
    obtain ⟨⟨l, r, k2⟩, h2, h⟩ := Out.bind_ok h
    cases h
    exact (createSplit_later h1).trans (sides_later h2)
  | succ n ih =>
    rw [attempts] at h
    obtain ⟨xs, _, h⟩ := Out.bind_ok h
    obtain ⟨⟨v, k1⟩, h1, h⟩ := Out.bind_ok h
    obtain ⟨⟨l, r, k2⟩, h2, h⟩ := Out.bind_ok h
    simp only at h
    split at h
    · cases h; exact (createSplit_later h1).trans (sides_later h2)
    · exact ((createSplit_later h1).trans (sides_later h2)).trans (ih h)

/-! ### More rounds do not change what has ended -/

theorem balance_mono {f : Nat} {indices : List Nat} {fuel : Nat} {s : Split} {k : Kiss} {r : Split × Kiss}
    (h : balance A f indices fuel s k = .ok r) : balance A f indices (fuel + 1) s k = .ok r := by
  induction fuel generalizing s k with
  | zero =>
    unfold balance at h ⊢
    split at h
    · cases h
    · rename_i hb; rw [if_neg hb]; exact h
  | succ n ih =>
    unfold balance at h ⊢
    by_cases hb : A.over99 s.l.length s.r.length = true
    · rw [if_pos hb] at h ⊢; exact ih h
    · rw [if_neg hb] at h ⊢; exact h

theorem balance_later {f : Nat} {indices : List Nat} {fuel : Nat} {s s' : Split} {k k' : Kiss}
    (h : balance A f indices fuel s k = .ok (s', k')) : Later k k' := by
  induction fuel generalizing s k with
  | zero =>
    unfold balance at h
    split at h <;> cases h
    exact .refl _
  | succ n ih =>
    unfold balance at h
    split at h
    · have := ih h
      rw [(randomSides_spec indices k).2.2.1] at this
      exact Later.trans ⟨_, rfl⟩ this
    · cases h; exact .refl _

/-- Random sides are balanced in the end, or never. -/
theorem balance_ends (f : Nat) (indices : List Nat) (s : Split) (k : Kiss) :
    (∃ fuel r, balance A f indices fuel s k = .ok r) ∨ Stuck A k indices.length := by
  by_cases hst : Stuck A k indices.length
  · exact Or.inr hst
  · refine Or.inl ?_
    unfold Stuck at hst
    have : ∃ m, ¬ A.over99 (indices.length - (k.after (m * indices.length)).heads indices.length)
        ((k.after (m * indices.length)).heads indices.length) = true := Classical.not_forall.1 hst
    obtain ⟨m, hm⟩ := this
    induction m generalizing s k with
    | zero =>
      by_cases hb : A.over99 s.l.length s.r.length = true
      · obtain ⟨h1, h2, _, _⟩ := randomSides_spec indices k
        refine ⟨1, (⟨List.replicate f 0, (randomSides indices k).1, (randomSides indices k).2.1⟩, (randomSides indices k).2.2), ?_⟩
        unfold balance
        rw [if_pos hb]
        show balance A f indices 0 ⟨List.replicate f 0, (randomSides indices k).1, (randomSides indices k).2.1⟩
          (randomSides indices k).2.2 = _
        unfold balance
        rw [if_neg]
        show ¬ A.over99 (randomSides indices k).1.length (randomSides indices k).2.1.length = true
        rw [h1, h2]
        rwa [Nat.zero_mul] at hm
      · exact ⟨0, _, by unfold balance; rw [if_neg hb]⟩
    | succ m ih =>
      by_cases hb : A.over99 s.l.length s.r.length = true
      · have e : k.after ((m + 1) * indices.length) = (k.after indices.length).after (m * indices.length) := by
          rw [Nat.succ_mul, Nat.add_comm, after_add]
        rw [e] at hm
        have hn : ¬ Stuck A (k.after indices.length) indices.length := fun h => hm (h m)
        obtain ⟨fuel, r, h⟩ := ih ⟨List.replicate f 0, (randomSides indices k).1, (randomSides indices k).2.1⟩ _ hn hm
        refine ⟨fuel + 1, r, ?_⟩
        unfold balance
        rw [if_pos hb, ← h, ← (randomSides_spec indices k).2.2.1]
      · exact ⟨0, _, by unfold balance; rw [if_neg hb]⟩

theorem bind_mono {α β : Type} {x x' : Out α} {g g' : α → Out β} {b : β} (h : x.bind g = .ok b)
    (hx : ∀ a, x = .ok a → x' = .ok a) (hg : ∀ a, x = .ok a → g a = .ok b → g' a = .ok b) : x'.bind g' = .ok b := by
  obtain ⟨a, h1, h2⟩ := Out.bind_ok h
  rw [hx a h1, Out.ok_bind]
  exact hg a h1 h2

theorem makeTree_mono {f nItems fuel : Nat} {nodes : List Node} {k : Kiss} {indices : List Nat} {isRoot : Bool}
    {r : Nat × List Node × Kiss} (h : makeTree A f nItems fuel nodes k indices isRoot = .ok r) :
    makeTree A f nItems (fuel + 1) nodes k indices isRoot = .ok r := by
  induction fuel generalizing nodes k indices isRoot r with
  | zero => unfold makeTree at h; cases h
  | succ fuel ih =>
    unfold makeTree at h ⊢
    by_cases h1 : indices.length = 1 ∧ isRoot = false
    · rw [if_pos h1] at h ⊢; exact h
    · rw [if_neg h1] at h ⊢
      by_cases h2 : indices.length ≤ maxChildren f ∧ (isRoot = false ∨ nItems ≤ maxChildren f ∨ indices.length = 1)
      · simp only [if_pos h2] at h ⊢; exact h
      · simp only [if_neg h2] at h ⊢
        refine bind_mono h (fun a ha => ha) ?_
        rintro ⟨s, k1⟩ _ h
        refine bind_mono h (fun a ha => balance_mono ha) ?_
        rintro ⟨s', k2⟩ _ h
        simp only at h ⊢
        by_cases hlr : s'.l.length > s'.r.length
        · rw [if_pos hlr] at h ⊢
          refine bind_mono h (fun a ha => ih ha) ?_
          rintro ⟨b, n1, k3⟩ _ h
          refine bind_mono h (fun a ha => ih ha) fun _ _ h => h
        · rw [if_neg hlr] at h ⊢
          refine bind_mono h (fun a ha => ih ha) ?_
          rintro ⟨b, n1, k3⟩ _ h
          refine bind_mono h (fun a ha => ih ha) fun _ _ h => h

theorem makeTree_le {f nItems fuel fuel' : Nat} {nodes : List Node} {k : Kiss} {indices : List Nat} {isRoot : Bool}
    {r : Nat × List Node × Kiss} (h : makeTree A f nItems fuel nodes k indices isRoot = .ok r) (hle : fuel ≤ fuel') :
    makeTree A f nItems fuel' nodes k indices isRoot = .ok r := by
  induction hle with
  | refl => exact h
  | step _ ih => exact makeTree_mono ih

theorem balance_le {f : Nat} {indices : List Nat} {fuel fuel' : Nat} {s : Split} {k : Kiss} {r : Split × Kiss}
    (h : balance A f indices fuel s k = .ok r) (hle : fuel ≤ fuel') : balance A f indices fuel' s k = .ok r := by
  induction hle with
  | refl => exact h
  | step _ ih => exact balance_mono ih

theorem makeTree_later {f nItems fuel : Nat} {nodes nodes' : List Node} {k k' : Kiss} {indices : List Nat} {isRoot : Bool} {i : Nat}
    (h : makeTree A f nItems fuel nodes k indices isRoot = .ok (i, nodes', k')) : Later k k' := by
  induction fuel generalizing nodes k indices isRoot i nodes' k' with
  | zero => unfold makeTree at h; cases h
  | succ fuel ih =>
    unfold makeTree at h
    by_cases h1 : indices.length = 1 ∧ isRoot = false
    · rw [if_pos h1] at h
      obtain ⟨_, _, h⟩ := Out.bind_ok h
      cases h; exact .refl _
    · rw [if_neg h1] at h
      by_cases h2 : indices.length ≤ maxChildren f ∧ (isRoot = false ∨ nItems ≤ maxChildren f ∨ indices.length = 1)
      · simp only [if_pos h2] at h; cases h; exact .refl _
      · simp only [if_neg h2] at h
        obtain ⟨⟨s, k1⟩, g1, h⟩ := Out.bind_ok h
        obtain ⟨⟨s', k2⟩, g2, h⟩ := Out.bind_ok h
        refine (attempts_later g1).trans ((balance_later g2).trans ?_)
        simp only at h
        split at h
        · obtain ⟨⟨b, n1, k3⟩, g3, h⟩ := Out.bind_ok h
          obtain ⟨⟨a, n2, k4⟩, g4, h⟩ := Out.bind_ok h
          cases h
          exact (ih g3).trans (ih g4)
        · obtain ⟨⟨b, n1, k3⟩, g3, h⟩ := Out.bind_ok h
          obtain ⟨⟨a, n2, k4⟩, g4, h⟩ := Out.bind_ok h
          cases h
          exact (ih g3).trans (ih g4)

/-! ### A tree, an index -/

/-- At some later moment the random sides of between `maxChildren f + 1` and `n` items are unbalanced for ever. -/
def StuckLater (A : Lib) (f n : Nat) (k : Kiss) : Prop :=
  ∃ k' m, Later k k' ∧ maxChildren f < m ∧ m ≤ n ∧ Stuck A k' m

theorem StuckLater.from {f n n' : Nat} {k k' : Kiss} (h : StuckLater A f n k') (hk : Later k k') (hn : n ≤ n') : StuckLater A f n' k := by
  obtain ⟨k1, m, h1, h2, h3, h4⟩ := h
  exact ⟨k1, m, hk.trans h1, h2, by omega, h4⟩

theorem makeTree_ends (hA : A.Ok) {f nItems : Nat} (N : Nat) {nodes : List Node} {k : Kiss} {indices : List Nat} {isRoot : Bool}
    (hN : indices.length ≤ N)
    (hit : ItemsFirst nItems nodes) (hin : ∀ j ∈ indices, j < nItems) (hne : indices ≠ [])
    (hroot : isRoot = true → indices.length = nItems) (hmax : indices.length < 2^31) :
    (∃ fuel r, makeTree A f nItems fuel nodes k indices isRoot = .ok r) ∨ StuckLater A f indices.length k := by
  induction N generalizing nodes k indices isRoot with
  | zero =>
    have : 0 < indices.length := List.length_pos_iff.2 hne
    omega
  | succ N ih =>
    have hpos : 0 < indices.length := List.length_pos_iff.2 hne
    by_cases h1 : indices.length = 1 ∧ isRoot = false
    · left
      refine ⟨1, (indices[0], nodes, k), ?_⟩
      unfold makeTree
      rw [if_pos h1, ofOption_get (by omega)]
      rfl
    by_cases h2 : indices.length ≤ maxChildren f ∧ (isRoot = false ∨ nItems ≤ maxChildren f ∨ indices.length = 1)
    · left
      refine ⟨1, (nodes.length, nodes ++ [⟨if isRoot then nItems else indices.length,
        indices ++ List.replicate (maxChildren f - indices.length) 0, 0, []⟩], k), ?_⟩
      unfold makeTree
      rw [if_neg h1]
      simp only [if_pos h2]
    have hbig : maxChildren f < indices.length := by
      cases isRoot with
      | false => simp only [true_or, and_true] at h2; omega
      | true =>
        have := hroot rfl
        simp only [Bool.true_eq_false, false_or] at h2
        omega
    have hK : 2 ≤ maxChildren f := Nat.le_add_left _ _
    have hinl : ∀ j ∈ indices, j < nodes.length := fun j hj => hit.lt (hin j hj)
    -- the planes
    obtain ⟨⟨s, k1⟩, hs⟩ : ∃ r, attempts A nodes indices 2 k = .ok r := by
      cases hx : attempts A nodes indices 2 k with
      | ok r => exact ⟨r, rfl⟩
      | crash => exact absurd hx (attempts_ne hinl (by omega) 2 k)
      | running => exact absurd hx (attempts_nr _ _ _ _)
    have l1 := attempts_later hs
    -- the random sides
    rcases balance_ends (A := A) f indices s k1 with ⟨fb, ⟨s', k2⟩, hb⟩ | hst
    rotate_left
    · exact Or.inr ⟨k1, indices.length, l1, hbig, Nat.le_refl _, hst⟩
    have l2 := l1.trans (balance_later hb)
    obtain ⟨hp, ho⟩ := balance_perm hb (attempts_perm hs)
    have hlen := hp.length_eq
    rw [List.length_append] at hlen
    have hl : s'.l ≠ [] := by intro h0; rw [h0, List.length_nil, hA.right _ (by omega)] at ho; cases ho
    have hr : s'.r ≠ [] := by intro h0; rw [h0, List.length_nil, hA.left _ (by omega)] at ho; cases ho
    have hl' : 0 < s'.l.length := List.length_pos_iff.2 hl
    have hr' : 0 < s'.r.length := List.length_pos_iff.2 hr
    -- two subtrees
    have two : ∀ u w : List Nat, u ≠ [] → w ≠ [] → (∀ j ∈ u, j < nItems) → (∀ j ∈ w, j < nItems) →
        u.length < indices.length → w.length < indices.length →
        (∃ fuel a n1 k3 b n2 k4, makeTree A f nItems fuel nodes k2 u false = .ok (a, n1, k3) ∧
          makeTree A f nItems fuel n1 k3 w false = .ok (b, n2, k4)) ∨ StuckLater A f indices.length k := by
      intro u w hu hw hui hwi hul hwl
      rcases ih (k := k2) (indices := u) (isRoot := false) (by omega) hit hui hu (by simp) (by omega) with ⟨f1, ⟨a, n1, k3⟩, g1⟩ | h
      rotate_left
      · exact Or.inr (h.from l2 (by omega))
      obtain ⟨more, rfl⟩ := ((makeTree_spec hA hit hui hu (by simp) (by omega)).2 _ _ _ g1).grows
      rcases ih (k := k3) (indices := w) (isRoot := false) (by omega) (hit.mono more) hwi hw (by simp) (by omega) with
        ⟨f2, ⟨b, n2, k4⟩, g2⟩ | h
      rotate_left
      · exact Or.inr (h.from (l2.trans (makeTree_later g1)) (by omega))
      exact Or.inl ⟨max f1 f2, a, _, k3, b, n2, k4, makeTree_le g1 (Nat.le_max_left ..), makeTree_le g2 (Nat.le_max_right ..)⟩
    have hli : ∀ j ∈ s'.l, j < nItems := fun j hj => hin j (hp.subset (by simp [hj]))
    have hri : ∀ j ∈ s'.r, j < nItems := fun j hj => hin j (hp.subset (by simp [hj]))
    by_cases hlr : s'.l.length > s'.r.length
    · rcases two s'.r s'.l hr hl hri hli (by omega) (by omega) with ⟨fu, a, n1, k3, b, n2, k4, g1, g2⟩ | h
      · left
        refine ⟨max fb fu + 1, (n2.length, n2 ++ [⟨if isRoot then nItems else indices.length, [b, a], 0, s'.v⟩], k4), ?_⟩
        unfold makeTree
        rw [if_neg h1]
        simp only [if_neg h2]
        rw [hs, Out.ok_bind, balance_le hb (Nat.le_max_left fb fu), Out.ok_bind]
        simp only [if_pos hlr]
        rw [makeTree_le g1 (Nat.le_max_right fb fu), Out.ok_bind]
        simp only
        rw [makeTree_le g2 (Nat.le_max_right fb fu), Out.ok_bind]
      · exact Or.inr h
    · rcases two s'.l s'.r hl hr hli hri (by omega) (by omega) with ⟨fu, a, n1, k3, b, n2, k4, g1, g2⟩ | h
      · left
        refine ⟨max fb fu + 1, (n2.length, n2 ++ [⟨if isRoot then nItems else indices.length, [a, b], 0, s'.v⟩], k4), ?_⟩
        unfold makeTree
        rw [if_neg h1]
        simp only [if_neg h2]
        rw [hs, Out.ok_bind, balance_le hb (Nat.le_max_left fb fu), Out.ok_bind]
        simp only [if_neg hlr]
        rw [makeTree_le g1 (Nat.le_max_right fb fu), Out.ok_bind]
        simp only
        rw [makeTree_le g2 (Nat.le_max_right fb fu), Out.ok_bind]
      · exact Or.inr h

theorem threadBuild_mono {f nItems fuel : Nat} {nodes : List Node} {roots : List Nat} {k : Kiss} {r : List Node × List Nat}
    (h : threadBuild A f nItems fuel nodes roots k = .ok r) : threadBuild A f nItems (fuel + 1) nodes roots k = .ok r := by
  induction fuel generalizing nodes roots k with
  | zero =>
    unfold threadBuild at h ⊢
    split at h
    · rename_i hb; rw [if_pos hb]; exact h
    · cases h
  | succ fuel ih =>
    unfold threadBuild at h ⊢
    by_cases hb : nodes.length ≥ 2 * nItems
    · rw [if_pos hb] at h ⊢; exact h
    · rw [if_neg hb] at h ⊢
      refine bind_mono h (fun a ha => makeTree_mono ha) ?_
      rintro ⟨root, n1, k1⟩ _ h
      exact ih h

theorem threadBuild_le {f nItems fuel fuel' : Nat} {nodes : List Node} {roots : List Nat} {k : Kiss} {r : List Node × List Nat}
    (h : threadBuild A f nItems fuel nodes roots k = .ok r) (hle : fuel ≤ fuel') :
    threadBuild A f nItems fuel' nodes roots k = .ok r := by
  induction hle with
  | refl => exact h
  | step _ ih => exact threadBuild_mono ih

theorem threadBuild_ends (hA : A.Ok) {f nItems : Nat} (N : Nat) {nodes : List Node} {roots : List Nat} {k : Kiss}
    (hN : 2 * nItems - nodes.length ≤ N) (hit : ItemsFirst nItems nodes) (hmax : nItems < 2^31) :
    (∃ fuel r, threadBuild A f nItems fuel nodes roots k = .ok r) ∨ StuckLater A f nItems k := by
  induction N generalizing nodes roots k with
  | zero =>
    left
    refine ⟨0, (nodes, roots), ?_⟩
    unfold threadBuild
    rw [if_pos (by omega)]
  | succ N ih =>
    by_cases hb : nodes.length ≥ 2 * nItems
    · left
      refine ⟨0, (nodes, roots), ?_⟩
      unfold threadBuild
      rw [if_pos hb]
    have hio : itemsOf nItems nodes = List.range nItems := by
      unfold Annoy.itemsOf
      rw [List.filter_eq_self]
      intro i hi
      obtain ⟨nd, h1, h2⟩ := hit i (List.mem_range.1 hi)
      simp [h1, h2]
    have hne : List.range nItems ≠ [] := by
      intro h0; have := congrArg List.length h0; rw [List.length_range, List.length_nil] at this; omega
    have hin : ∀ j ∈ List.range nItems, j < nItems := fun j hj => List.mem_range.1 hj
    rcases makeTree_ends hA (f := f) nItems (k := k) (indices := List.range nItems) (isRoot := true) (by simp) hit hin hne
      (by simp) (by simpa using hmax) with ⟨f1, ⟨i, n1, k1⟩, g1⟩ | h
    rotate_left
    · rw [List.length_range] at h; exact Or.inr h
    have hm := (makeTree_spec hA hit hin hne (by simp) (by simpa using hmax)).2 _ _ _ g1
    have hg := hm.root rfl
    obtain ⟨more, rfl⟩ := hm.grows
    rcases ih (nodes := nodes ++ more) (roots := roots ++ [i]) (k := k1) (by omega) (hit.mono more) with ⟨f2, r, g2⟩ | h
    · left
      refine ⟨max f1 f2 + 1, r, ?_⟩
      unfold threadBuild
      rw [if_neg hb, hio, makeTree_le g1 (Nat.le_max_left f1 f2), Out.ok_bind]
      exact threadBuild_le g2 (Nat.le_max_right f1 f2)
    · exact Or.inr (h.from (makeTree_later g1) (Nat.le_refl _))

theorem build_ends (hA : A.Ok) (f : Nat) (vs : List (List F32)) (hmax : vs.length < 2^31) :
    (∃ fuel ix, build A f fuel vs = .ok ix) ∨ StuckLater A f vs.length Kiss.new := by
  rcases threadBuild_ends hA (f := f) _ (nodes := vs.map (itemNode A)) (roots := []) (k := Kiss.new) (Nat.le_refl _)
    (built_start A f vs).itemsFirst hmax with ⟨fuel, r, h⟩ | h
  · left
    refine ⟨fuel, ?_⟩
    have hne := (build_spec hA (f := f) (fuel := fuel) hmax).1
    unfold build at hne ⊢
    rw [h, Out.ok_bind] at hne ⊢
    obtain ⟨nodes, roots⟩ := r
    simp only at hne ⊢
    cases hx : (roots.mapM fun i => nodes[i]? : Option (List Node)) with
    | none => rw [hx] at hne; exact absurd rfl hne
    | some c => exact ⟨_, rfl⟩
  · exact Or.inr h

/-- An index that is built by one number of rounds is built by every larger one, and it is the same. -/
theorem build_le {f fuel fuel' : Nat} {vs : List (List F32)} {ix : Index} (h : build A f fuel vs = .ok ix) (hle : fuel ≤ fuel') :
    build A f fuel' vs = .ok ix := by
  unfold build at h ⊢
  exact bind_mono h (fun a ha => threadBuild_le ha hle) fun _ _ h => h

end
end Annoy

open Annoy

/-- C144, full statement: building the native index ends, for all vectors.  (Not known: it depends on the sequence of random
numbers, see `C144_ends_unless_partial`.) -/
def C144_build_ends_statement : Prop :=
  ∀ (f : Nat) (vs : List (List F32)), vs.length < 2^31 → ∃ fuel ix, build soft f fuel vs = .ok ix

/-- C144, partial: it ends, or there is a point in the sequence of random numbers and a number of items, more than fit into a node
and no more than there are, such that from this point on each round of as many flips sends more than 99% of the items to one
side. -/
theorem C144_ends_unless_partial (A : Lib) (hA : A.Ok) (f : Nat) (vs : List (List F32)) (hmax : vs.length < 2^31) :
    (∃ fuel ix, ∀ fuel', fuel ≤ fuel' → build A f fuel' vs = .ok ix) ∨
    ∃ j n, f + 2 < n ∧ n ≤ vs.length ∧ ∀ m, A.over99 (n - (Kiss.new.after (j + m * n)).heads n) ((Kiss.new.after (j + m * n)).heads n) = true := by
  rcases build_ends hA f vs hmax with ⟨fuel, ix, h⟩ | ⟨_, n, ⟨j, rfl⟩, h1, h2, h3⟩
  · exact Or.inl ⟨fuel, ix, fun _ hle => build_le h hle⟩
  · refine Or.inr ⟨j, n, h1, h2, fun m => ?_⟩
    rw [after_add]
    exact h3 m

/-- C144, partial: it ends if all items fit into one node. -/
theorem C144_small_partial (A : Lib) (hA : A.Ok) (f : Nat) (vs : List (List F32)) (hmax : vs.length < 2^31) (hs : vs.length ≤ f + 2) :
    ∃ fuel ix, ∀ fuel', fuel ≤ fuel' → build A f fuel' vs = .ok ix := by
  rcases C144_ends_unless_partial A hA f vs hmax with h | ⟨j, n, h1, h2, _⟩
  · exact h
  · omega

/-- C144 is not empty: five vectors of one component, three of which fit into a node, are built; of the first five random flips three
are true, so that the sides are balanced at once. -/
theorem C144_example : soft.Ok ∧ (∃ ix, build soft 1 6 (exVs 5 2) = .ok ix) ∧ Kiss.new.heads 5 = 3 ∧ soft.over99 2 3 = false ∧
    soft.over99 5 0 = true := by
  refine ⟨C112_example.1, ?_, by decide +kernel, by decide +kernel, by decide +kernel⟩
  obtain ⟨ix, h, _⟩ := Out.bind_ok C115_example
  exact ⟨ix, h⟩

end Veri
