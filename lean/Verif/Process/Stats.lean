import Verif.Vector.Model
/-
The statistics a maintenance run computes (data/newsync.go:137-167) and C44.  Generic in the arithmetic: the rest of the
model uses float32/float64 bit patterns, C44 exact rationals.
-/
set_option autoImplicit false
namespace Veri

/-- The further operations the statistics use. -/
structure SOps (S D : Type) where
  /-- float32 1 -/
  one : S
  /-- `float32(n)` -/
  ofU64 : UInt64 → S
  /-- `int((distance / maxDistance) * 64)` -/
  bucket : D → D → Int
  /-- Go `x == 0` -/
  isZeroD : D → Bool

namespace Stats
variable {S D : Type} (o : FOps S D) (s : SOps S D)

/-- What `dt` keeps of a run. -/
structure Acc (S D : Type) where
  n : UInt64
  avg : List S
  maxDistance : D
  hist : List S
  deriving DecidableEq, Repr

/-- data/util.go:22-24: `avg[i] += p[i] / n` for `i < len(p)`; `avg` is not shorter than `p` here. -/
def addInto (n : S) : List S → List S → List S
  | a :: as, p :: ps => o.add a (o.div p n) :: addInto n as ps
  | as, _ => as

/-- data/util.go:15-26 `CalculateAverage`. -/
def calculateAverage (avg p : List S) (n : S) : List S :=
  if o.isZero n then p
  else addInto o n (if avg.length < p.length then List.replicate p.length o.zero else avg) p

/-- data/newsync.go:142-146: `nFloat`. -/
def nFloat (n : UInt64) : S :=
  let f := s.ofU64 n
  if o.isZero f then s.one else f

/-- data/newsync.go:137-141: the values before the scan. -/
def fresh : Acc S D := ⟨0, [], o.zeroD, List.replicate 64 o.zero⟩

/-- data/newsync.go:158-167: the clamped bucket. -/
def clamp (index : Int) : Nat :=
  let index := if index ≥ 64 then 63 else index
  let index := if index ≤ 0 then 0 else index
  index.toNat

/-- data/newsync.go:151-167: the statistics part of the function run on every live entry; `dtAvg` and `dtMax` are the
values of the previous run. -/
def meet (dtAvg : List S) (dtMax : D) (nFloat : S) (a : Acc S D) (feature : List S) : Acc S D :=
  let distance := Vec.vectorDistance o dtAvg feature
  { n := a.n + 1
    avg := calculateAverage o a.avg feature nFloat
    maxDistance := if o.ltD a.maxDistance distance then distance else a.maxDistance
    hist :=
      if s.isZeroD dtMax then a.hist
      else a.hist.modify (clamp (s.bucket distance dtMax)) fun h => o.add h (o.div s.one nFloat) }

/-- One run over the given features, from the statistics of the previous run. -/
def run (old : Acc S D) (features : List (List S)) : Acc S D :=
  features.foldl (meet o s old.avg old.maxDistance (nFloat o s old.n)) (fresh o)

end Stats

/-! ### C44 -/

namespace Ref

/-- Sum of rationals. -/
def sum : List Rat → Rat
  | [] => 0
  | x :: xs => x + sum xs

/-- The bucket of a datum whose distance, in 64ths of the maximal one, is `i`: itself within 0 to 63. -/
def slot (i : Int) : Nat := (max 0 (min 63 i)).toNat

/-- Component `j` of the mean of some vectors. -/
def mean (fs : List (List Rat)) (j : Nat) : Rat := sum (fs.map fun f => f.getD j 0) / fs.length

theorem sum_append (a b : List Rat) : sum (a ++ b) = sum a + sum b := by
  induction a with
  | nil => simp only [List.nil_append, sum]; grind
  | cons x a ih => simp only [List.cons_append, sum, ih]; grind

theorem sum_perm {a b : List Rat} (h : a.Perm b) : sum a = sum b := by
  induction h with
  | nil => rfl
  | cons x _ ih => simp only [sum, ih]
  | swap x y l => simp only [sum]; grind
  | trans _ _ ih1 ih2 => rw [ih1, ih2]

theorem sum_div (l : List Rat) (n : Rat) : sum (l.map fun x => x / n) = sum l / n := by
  induction l with
  | nil => simp only [List.map_nil, sum]; grind
  | cons x l ih => simp only [List.map_cons, sum, ih]; grind

theorem mean_perm {fs gs : List (List Rat)} (h : fs.Perm gs) (j : Nat) : mean fs j = mean gs j := by
  unfold mean
  rw [sum_perm (h.map _), h.length_eq]

end Ref

namespace Stats

/-- Exact arithmetic on vectors; the 64-bit float side is only required to know zero. -/
structure Exact {D : Type} (o : FOps Rat D) (s : SOps Rat D) : Prop where
  zero : o.zero = 0
  isZero : ∀ x, o.isZero x = decide (x = 0)
  add : ∀ x y, o.add x y = x + y
  div : ∀ x y, o.div x y = x / y
  one : s.one = 1
  ofU64 : ∀ n, s.ofU64 n = (n.toNat : Rat)
  zeroD : s.isZeroD o.zeroD = true
  irrefl : ∀ x, o.ltD x x = false

variable {D : Type} {o : FOps Rat D} {s : SOps Rat D}

theorem addInto_spec (E : Exact o s) (n : Rat) : ∀ (a p : List Rat), a.length = p.length →
    (addInto o n a p).length = a.length ∧ ∀ j, (addInto o n a p).getD j 0 = a.getD j 0 + p.getD j 0 / n := by
  intro a
  induction a with
  | nil =>
    intro p h
    cases p with
    | nil => exact ⟨rfl, fun j => by simp only [addInto, List.getD_nil]; grind⟩
    | cons => simp at h
  | cons x a ih =>
    intro p h
    cases p with
    | nil => simp at h
    | cons y p =>
      obtain ⟨h1, h2⟩ := ih p (by simpa using h)
      refine ⟨by simp only [addInto, List.length_cons, h1], fun j => ?_⟩
      cases j with
      | zero => simp only [addInto, List.getD_cons_zero, E.add, E.div]
      | succ j => simp only [addInto, List.getD_cons_succ]; exact h2 j

theorem avg_spec (E : Exact o s) (dtAvg : List Rat) (dtMax : D) (n : Rat) (hn : n ≠ 0) (d : Nat) :
    ∀ (fs : List (List Rat)), (∀ f ∈ fs, f.length = d) → ∀ a : Acc Rat D, a.avg.length = d →
    (fs.foldl (meet o s dtAvg dtMax n) a).avg.length = d ∧
    ∀ j, (fs.foldl (meet o s dtAvg dtMax n) a).avg.getD j 0 = a.avg.getD j 0 + Ref.sum (fs.map fun f => f.getD j 0) / n := by
  intro fs
  induction fs with
  | nil =>
    intro _ a ha
    exact ⟨ha, fun j => by simp only [List.foldl_nil, List.map_nil, Ref.sum]; grind⟩
  | cons f fs ih =>
    intro hf a ha
    have hfl := hf f List.mem_cons_self
    have hc : calculateAverage o a.avg f n = addInto o n a.avg f := by
      unfold calculateAverage
      rw [E.isZero, if_neg (by simpa using hn), if_neg (by omega)]
    obtain ⟨g1, g2⟩ := addInto_spec E n a.avg f (by omega)
    obtain ⟨h1, h2⟩ := ih (fun g hg => hf g (List.mem_cons_of_mem _ hg)) (meet o s dtAvg dtMax n a f)
      (by simp only [meet, hc]; omega)
    refine ⟨h1, fun j => ?_⟩
    rw [List.foldl_cons, h2 j]
    simp only [meet, hc, g2, List.map_cons, Ref.sum]
    grind

theorem n_spec (dtAvg : List Rat) (dtMax : D) (n : Rat) : ∀ (fs : List (List Rat)) (a : Acc Rat D),
    (fs.foldl (meet o s dtAvg dtMax n) a).n = a.n + UInt64.ofNat fs.length := by
  intro fs
  induction fs with
  | nil => intro a; simp
  | cons f fs ih =>
    intro a
    rw [List.foldl_cons, ih]
    simp only [meet, List.length_cons]
    apply UInt64.toNat_inj.1
    simp
    omega

theorem run_n (old : Acc Rat D) (fs : List (List Rat)) : (run o s old fs).n = UInt64.ofNat fs.length := by
  unfold run
  rw [n_spec]
  simp [fresh]

theorem nFloat_ne (E : Exact o s) (n : UInt64) : nFloat o s n ≠ 0 := by
  unfold nFloat
  simp only [E.isZero, E.one]
  split
  · decide
  · rename_i h
    simpa using h

theorem nFloat_of (E : Exact o s) {k : Nat} (h0 : 0 < k) (hk : k < 2 ^ 64) : nFloat o s (UInt64.ofNat k) = (k : Rat) := by
  unfold nFloat
  have hr : (k : Rat) ≠ 0 := by
    intro h
    have : ((k : Nat) : Rat) = ((0 : Nat) : Rat) := h
    rw [Rat.natCast_inj] at this
    omega
  have : (UInt64.ofNat k).toNat = k := by
    rw [UInt64.toNat_ofNat']
    exact Nat.mod_eq_of_lt hk
  simp only [E.isZero, E.ofU64, this]
  rw [if_neg (by simpa using hr)]

/-- The average of one run. -/
theorem run_avg (E : Exact o s) (old : Acc Rat D) (d : Nat) (fs : List (List Rat)) (hne : fs ≠ [])
    (hf : ∀ f ∈ fs, f.length = d) : (run o s old fs).avg.length = d ∧
    ∀ j, (run o s old fs).avg.getD j 0 = Ref.sum (fs.map fun f => f.getD j 0) / nFloat o s old.n := by
  cases fs with
  | nil => exact absurd rfl hne
  | cons f fs =>
    have hn := nFloat_ne E old.n
    have hfl := hf f List.mem_cons_self
    have hc : calculateAverage o [] f (nFloat o s old.n) =
        addInto o (nFloat o s old.n) (List.replicate f.length 0) f := by
      unfold calculateAverage
      rw [E.isZero, if_neg (by simpa using hn), E.zero]
      cases f with
      | nil => rfl
      | cons x f => rw [if_pos (by simp)]
    obtain ⟨g1, g2⟩ := addInto_spec E (nFloat o s old.n) (List.replicate f.length 0) f (by simp)
    unfold run
    rw [List.foldl_cons]
    obtain ⟨h1, h2⟩ := avg_spec E old.avg old.maxDistance (nFloat o s old.n) hn d fs
      (fun g hg => hf g (List.mem_cons_of_mem _ hg)) (meet o s old.avg old.maxDistance (nFloat o s old.n) (fresh o) f)
      (by
        show (calculateAverage o [] f (nFloat o s old.n)).length = d
        rw [hc, g1]
        simpa using hfl)
    refine ⟨h1, fun j => ?_⟩
    rw [h2 j]
    have : (meet o s old.avg old.maxDistance (nFloat o s old.n) (fresh o) f).avg.getD j 0 = f.getD j 0 / nFloat o s old.n := by
      show (calculateAverage o [] f (nFloat o s old.n)).getD j 0 = _
      rw [hc, g2]
      have : (List.replicate f.length (0 : Rat)).getD j 0 = 0 := by
        simp only [List.getD_eq_getElem?_getD, List.getElem?_replicate]
        split <;> rfl
      rw [this]
      grind
    rw [this, List.map_cons, Ref.sum]
    grind

/-- The bucket of a datum. -/
def bucketOf (o : FOps Rat D) (s : SOps Rat D) (old : Acc Rat D) (f : List Rat) : Nat :=
  clamp (s.bucket (Vec.vectorDistance o old.avg f) old.maxDistance)

theorem clamp_lt (i : Int) : clamp i < 64 := by
  unfold clamp
  simp only
  split <;> split <;> omega

theorem clamp_slot (i : Int) : clamp i = Ref.slot i := by
  unfold clamp Ref.slot
  simp only
  split <;> split <;> omega

theorem sum_modify (x : Rat) : ∀ (l : List Rat) (i : Nat), i < l.length →
    Ref.sum (l.modify i fun h => h + x) = Ref.sum l + x := by
  intro l
  induction l with
  | nil => intro i h; simp at h
  | cons y l ih =>
    intro i h
    cases i with
    | zero => simp only [List.modify_zero_cons, Ref.sum]; grind
    | succ i =>
      simp only [List.modify_succ_cons, Ref.sum]
      rw [ih i (by simpa using h)]
      grind

theorem hist_spec (E : Exact o s) (old : Acc Rat D) (n : Rat) (hz : s.isZeroD old.maxDistance = false) :
    ∀ (fs : List (List Rat)) (a : Acc Rat D), a.hist.length = 64 →
    (fs.foldl (meet o s old.avg old.maxDistance n) a).hist.length = 64 ∧
    Ref.sum (fs.foldl (meet o s old.avg old.maxDistance n) a).hist = Ref.sum a.hist + fs.length * (1 / n) ∧
    ∀ j, j < 64 → (fs.foldl (meet o s old.avg old.maxDistance n) a).hist.getD j 0 =
      a.hist.getD j 0 + (fs.filter fun f => bucketOf o s old f == j).length * (1 / n) := by
  intro fs
  induction fs with
  | nil =>
    intro a ha
    exact ⟨ha, by simp only [List.foldl_nil, List.length_nil]; grind, fun j _ => by simp only [List.foldl_nil, List.filter_nil, List.length_nil]; grind⟩
  | cons f fs ih =>
    intro a ha
    have hm : (meet o s old.avg old.maxDistance n a f).hist = a.hist.modify (bucketOf o s old f) fun h => h + 1 / n := by
      simp only [meet, hz, Bool.false_eq_true, if_false, E.add, E.div, E.one]
      rfl
    have hlt : bucketOf o s old f < 64 := clamp_lt _
    obtain ⟨h1, h2, h3⟩ := ih (meet o s old.avg old.maxDistance n a f) (by rw [hm, List.length_modify]; exact ha)
    refine ⟨h1, ?_, fun j hj => ?_⟩
    · rw [List.foldl_cons, h2, hm, sum_modify _ _ _ (by omega)]
      simp only [List.length_cons]
      have : ((fs.length + 1 : Nat) : Rat) = (fs.length : Rat) + 1 := by push_cast; rfl
      rw [this]
      grind
    · rw [List.foldl_cons, h3 j hj, hm]
      simp only [List.getD_eq_getElem?_getD, List.getElem?_modify, List.filter_cons]
      have hj' : j < a.hist.length := by omega
      rw [List.getElem?_eq_getElem hj']
      by_cases hb : bucketOf o s old f = j
      · simp only [hb, if_true, Option.map_some, Option.getD_some, beq_self_eq_true, List.length_cons]
        have : (((fs.filter fun f => bucketOf o s old f == j).length + 1 : Nat) : Rat) =
          ((fs.filter fun f => bucketOf o s old f == j).length : Rat) + 1 := by push_cast; rfl
        rw [this]
        grind
      · have : (bucketOf o s old f == j) = false := by simpa using hb
        simp only [hb, if_false, Option.map_some, Option.getD_some, this, Bool.false_eq_true]
        rfl

theorem sum_replicate (k : Nat) : Ref.sum (List.replicate k 0) = 0 := by
  induction k with
  | zero => rfl
  | succ k ih => simp only [List.replicate_succ, Ref.sum, ih]; grind

end Stats

open Stats

/-- The statistics after one, two and three runs over the same data, in any orders. -/
structure ThreeRuns {D : Type} (o : FOps Rat D) (s : SOps Rat D) (fs : List (List Rat)) where
  old : Acc Rat D
  order1 : List (List Rat)
  order2 : List (List Rat)
  order3 : List (List Rat)
  perm1 : order1.Perm fs
  perm2 : order2.Perm fs
  perm3 : order3.Perm fs

namespace ThreeRuns
variable {D : Type} {o : FOps Rat D} {s : SOps Rat D} {fs : List (List Rat)}
def first (t : ThreeRuns o s fs) : Acc Rat D := Stats.run o s t.old t.order1
def second (t : ThreeRuns o s fs) : Acc Rat D := Stats.run o s t.first t.order2
def third (t : ThreeRuns o s fs) : Acc Rat D := Stats.run o s t.second t.order3
end ThreeRuns

/-- C44, full statement, in exact arithmetic.  FALSE of the code (the histogram part). -/
def C44_statistics_statement : Prop :=
  ∀ (D : Type) (o : FOps Rat D) (s : SOps Rat D), Exact o s → ∀ (d : Nat) (fs : List (List Rat)), fs ≠ [] →
    fs.length < 2 ^ 64 → (∀ f ∈ fs, f.length = d) → ∀ t : ThreeRuns o s fs,
    (t.second.avg.length = d ∧ ∀ j, t.second.avg.getD j 0 = Ref.mean fs j) ∧
    (t.third.hist.length = 64 ∧ Ref.sum t.third.hist = 1)

/-- C44, the average: after two runs it is the mean. -/
theorem C44_average {D : Type} (o : FOps Rat D) (s : SOps Rat D) (E : Exact o s) (d : Nat) (fs : List (List Rat))
    (hne : fs ≠ []) (hlen : fs.length < 2 ^ 64) (hf : ∀ f ∈ fs, f.length = d) (t : ThreeRuns o s fs) :
    t.second.avg.length = d ∧ ∀ j, t.second.avg.getD j 0 = Ref.mean fs j := by
  have hne2 : t.order2 ≠ [] := fun h => hne (List.Perm.nil_eq (h ▸ t.perm2)).symm
  obtain ⟨h1, h2⟩ := Stats.run_avg E t.first d t.order2 hne2 (fun f hf' => hf f (t.perm2.mem_iff.1 hf'))
  refine ⟨h1, fun j => ?_⟩
  have hn : t.first.n = UInt64.ofNat fs.length := by
    unfold ThreeRuns.first
    rw [Stats.run_n, t.perm1.length_eq]
  have : (ThreeRuns.second t).avg.getD j 0 = _ := h2 j
  rw [this, hn, Stats.nFloat_of E (List.length_pos_iff.2 hne) hlen, ← Ref.mean_perm t.perm2 j]
  unfold Ref.mean
  rw [t.perm2.length_eq]

/-- C44, partial: the average part, and the histogram part whenever the second run reported a nonzero maximal distance:
then every datum is counted once, in its bucket, with weight 1/n.  (What is missing: data sets whose vectors are all at
distance 0 from the previous average, for instance a single datum.) -/
theorem C44_statistics_partial {D : Type} (o : FOps Rat D) (s : SOps Rat D) (E : Exact o s) (d : Nat)
    (fs : List (List Rat)) (hne : fs ≠ []) (hlen : fs.length < 2 ^ 64) (hf : ∀ f ∈ fs, f.length = d)
    (t : ThreeRuns o s fs) :
    (t.second.avg.length = d ∧ ∀ j, t.second.avg.getD j 0 = Ref.mean fs j) ∧
    (s.isZeroD t.second.maxDistance = false →
      t.third.hist.length = 64 ∧ Ref.sum t.third.hist = 1 ∧
      ∀ j, j < 64 → t.third.hist.getD j 0 =
        ((fs.filter fun f => Ref.slot (s.bucket (Vec.vectorDistance o t.second.avg f) t.second.maxDistance) == j).length : Rat) / fs.length) := by
  refine ⟨C44_average o s E d fs hne hlen hf t, fun hz => ?_⟩
  have hn : t.second.n = UInt64.ofNat fs.length := by
    unfold ThreeRuns.second
    rw [Stats.run_n, t.perm2.length_eq]
  have hnf := Stats.nFloat_of E (List.length_pos_iff.2 hne) hlen
  have hr : (fs.length : Rat) ≠ 0 := by
    rw [← hnf]
    exact Stats.nFloat_ne E _
  obtain ⟨h1, h2, h3⟩ := Stats.hist_spec E t.second (nFloat o s t.second.n) hz t.order3 (fresh o) (by simp [fresh])
  rw [hn, hnf] at h1 h2 h3
  refine ⟨by show (Stats.run o s t.second t.order3).hist.length = 64; unfold Stats.run; rw [hn, hnf]; exact h1, ?_, ?_⟩
  · show Ref.sum (Stats.run o s t.second t.order3).hist = 1
    unfold Stats.run
    rw [hn, hnf, h2, t.perm3.length_eq]
    simp only [fresh, E.zero, Stats.sum_replicate]
    grind
  · intro j hj
    simp only [← Stats.clamp_slot]
    show (Stats.run o s t.second t.order3).hist.getD j 0 = _
    unfold Stats.run
    rw [hn, hnf, h3 j hj, (t.perm3.filter _).length_eq]
    have : (fresh o : Acc Rat D).hist.getD j 0 = 0 := by
      simp only [fresh, E.zero, List.getD_eq_getElem?_getD, List.getElem?_replicate]
      split <;> rfl
    rw [this]
    unfold Stats.bucketOf
    grind

namespace Stats

/-- Exact arithmetic (with the squared distance on the float64 side). -/
def ratOps : FOps Rat Rat where
  zero := 0
  isZero x := decide (x = 0)
  add x y := x + y
  sub x y := x - y
  mul x y := x * y
  div x y := x / y
  madd a x y := a + x * y
  sq x := x * x
  abs x := if x < 0 then -x else x
  sqrt x := x
  widen x := x
  zeroD := 0
  oneD := 1
  negOneD := -1
  piD := 3
  ltD x y := decide (x < y)
  addD x y := x + y
  subD x y := x - y
  mulD x y := x * y
  divD x y := x / y
  sqrtD x := x
  acosD x := x
  ofNatD n := n

def ratSOps : SOps Rat Rat where
  one := 1
  ofU64 n := (n.toNat : Rat)
  bucket d m := (d / m * 64).floor
  isZeroD x := decide (x = 0)

theorem rat_exact : Exact ratOps ratSOps where
  zero := rfl
  isZero _ := rfl
  add _ _ := rfl
  div _ _ := rfl
  one := rfl
  ofU64 _ := rfl
  zeroD := by decide
  irrefl x := by
    show decide (x < x) = false
    simpa using Rat.lt_irrefl

/-- One datum, three runs from a fresh data set. -/
def exRuns : ThreeRuns ratOps ratSOps [[1]] :=
  ⟨fresh ratOps, [[1]], [[1]], [[1]], .refl _, .refl _, .refl _⟩

/-- Two data, three runs from a fresh data set. -/
def exTwo : ThreeRuns ratOps ratSOps [[1], [3]] :=
  ⟨fresh ratOps, [[1], [3]], [[3], [1]], [[1], [3]], .refl _, .swap _ _ _, .refl _⟩

end Stats

/-- C44, counterexample: the histogram of a data set with a single datum is empty. -/
theorem C44_statistics_fails : ¬ C44_statistics_statement := by
  intro h
  have := (h Rat ratOps ratSOps rat_exact 1 [[1]] (by simp) (by decide) (by simp) exRuns).2.2
  exact absurd this (by decide +kernel)

/-- C44 on two data: the hypothesis of the histogram part holds. -/
theorem C44_example : ratSOps.isZeroD (ThreeRuns.second exTwo).maxDistance = false ∧
    (ThreeRuns.second exTwo).avg = [2] ∧ Ref.sum (ThreeRuns.third exTwo).hist = 1 := by decide +kernel

end Veri
