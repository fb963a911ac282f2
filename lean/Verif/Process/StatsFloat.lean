import Verif.Vector.Value
import Verif.Process.Props
/-
The statistics of a maintenance run in single precision (data/newsync.go:137-167, data/util.go:15-26): how far the reported
average and histogram are from the true ones (C131).
-/
set_option autoImplicit false
namespace Veri
set_option exponentiation.threshold 4000

namespace Ref

/-- Component `j` of the mean of some float32 vectors. -/
def mean32 (fs : List (List F32)) (j : Nat) : Rat := sum (fs.map fun f => binary32 (f.getD j 0)) / fs.length

end Ref

namespace Stats
open SF

/-! ### One component -/

variable (acos : F64 → F64)

/-- The running sum of the quotients. -/
def acc (n : F32) (s : F32) (xs : List F32) : F32 := xs.foldl (fun s x => (ops acos).add s ((ops acos).div x n)) s

/-- Sum of the values, in units. -/
def isum : List F32 → Int
  | [] => 0
  | x :: xs => sv x + isum xs

theorem step_bound {S V A T X : Int} {kP NB B : Nat} (he : 2^24 * (S - T).natAbs ≤ 2 * kP)
    (hv : 2^24 * (V - X).natAbs ≤ B) (hsum : (S + V).natAbs ≤ 2 * NB + B) (ha : 2^24 * (A - (S + V)).natAbs ≤ (S + V).natAbs) :
    2^24 * (A - (T + X)).natAbs ≤ 2 * (kP + (NB + B)) := by
  omega

theorem sum_bound {T X : Int} {kB B : Nat} (hT : T.natAbs ≤ kB) (hx : X.natAbs ≤ B) : (T + X).natAbs ≤ kB + B := by
  omega

theorem acc_err {n : F32} {N B : Nat} (hN : 0 < N) (hn : Fin32 n) (hnv : sv n = ((N * 2^149 : Nat) : Int))
    (hNb : N + 1 ≤ 2^23) (hlow : N * 2^23 ≤ B) (hB : B ≤ 2^275) :
    ∀ (xs : List F32) (s : F32) (k : Nat) (T : Int), (∀ x ∈ xs, Fin32 x ∧ (sv x).natAbs ≤ B) → k + xs.length ≤ N →
    Fin32 s → T.natAbs ≤ k * B → 2^24 * (N * sv s - T).natAbs ≤ 2 * (k * ((N + 1) * B)) →
    Fin32 (acc acos n s xs) ∧
    2^24 * (N * sv (acc acos n s xs) - (T + isum xs)).natAbs ≤ 2 * ((k + xs.length) * ((N + 1) * B)) := by
  intro xs
  induction xs with
  | nil => intro s k T _ _ hs _ he; exact ⟨hs, by simpa [acc, isum] using he⟩
  | cons x xs ih =>
    intro s k T hx hk hs hT he
    obtain ⟨hxf, hxB⟩ := hx x List.mem_cons_self
    simp only [List.length_cons] at hk
    obtain ⟨hvf, hv⟩ := div_err acos hxf hN hn hnv
    generalize hvd : (ops acos).div x n = v at *
    -- the products
    have hkP : k * ((N + 1) * B) ≤ N * ((N + 1) * B) := Nat.mul_le_mul_right _ (by omega)
    have hNP : N * ((N + 1) * B) ≤ 2^23 * (N * B) := by
      rw [Nat.mul_left_comm]; exact Nat.mul_le_mul_right _ hNb
    have hkB : (k + 1) * B ≤ N * B := Nat.mul_le_mul_right _ (by omega)
    rw [Nat.succ_mul] at hkB
    have hNv : (N * sv s + N * sv v : Int).natAbs = N * (sv s + sv v).natAbs := by
      rw [← Int.mul_add, Int.natAbs_mul]; rfl
    have hsum : N * (sv s + sv v).natAbs ≤ 2 * (N * B) + B := by
      rw [← hNv]
      omega
    have hB1 : B ≤ N * B := Nat.le_mul_of_pos_left _ hN
    have hsv : (sv s + sv v).natAbs ≤ 3 * B := by
      have : N * (sv s + sv v).natAbs ≤ N * (3 * B) := by rw [Nat.mul_left_comm]; omega
      exact Nat.le_of_mul_le_mul_left this hN
    obtain ⟨haf, ha⟩ := add_err acos hs hvf (Nat.le_trans hsv (by omega))
    generalize had : (ops acos).add s v = a at *
    have ha' : 2^24 * (N * (sv a - (sv s + sv v)) : Int).natAbs ≤ N * (sv s + sv v).natAbs := by
      rw [Int.natAbs_mul, Nat.mul_left_comm]; exact Nat.mul_le_mul_left _ ha
    rw [Int.mul_sub, Int.mul_add] at ha'
    have hstep : (k + 1) * ((N + 1) * B) = k * ((N + 1) * B) + (N * B + B) := by
      rw [Nat.succ_mul k]; rw [Nat.succ_mul N B]
    obtain ⟨h1, h2⟩ := ih a (k + 1) (T + sv x) (fun y hy => hx y (List.mem_cons_of_mem _ hy)) (by omega) haf
      (by rw [Nat.succ_mul]; exact sum_bound hT hxB) (by
        rw [hstep]
        rw [← hNv] at ha' hsum
        exact step_bound he (by omega) hsum ha')
    have e : acc acos n s (x :: xs) = acc acos n a xs := by
      show acc acos n ((ops acos).add s ((ops acos).div x n)) xs = _
      rw [hvd, had]
    rw [e]
    refine ⟨h1, ?_⟩
    simp only [isum, List.length_cons]
    have e2 : T + (sv x + isum xs) = T + sv x + isum xs := by omega
    have e3 : k + (xs.length + 1) = k + 1 + xs.length := by omega
    rw [e2, e3]
    exact h2

theorem acc_zero_err {n : F32} {N B : Nat} (hN : 0 < N) (hn : Fin32 n) (hnv : sv n = ((N * 2^149 : Nat) : Int))
    (hNb : N + 1 ≤ 2^23) (hlow : N * 2^23 ≤ B) (hB : B ≤ 2^275) (xs : List F32)
    (hx : ∀ x ∈ xs, Fin32 x ∧ (sv x).natAbs ≤ B) (hl : xs.length ≤ N) :
    Fin32 (acc acos n 0 xs) ∧
    2^24 * (N * sv (acc acos n 0 xs) - isum xs).natAbs ≤ 2 * (xs.length * ((N + 1) * B)) := by
  have h0 : sv 0 = 0 := by decide
  have := acc_err acos hN hn hnv hNb hlow hB xs 0 0 0 hx (by omega) (by unfold Fin32; decide) (by simp) (by simp [h0])
  simpa using this

/-! ### The runs -/

section generic
variable {S D : Type} (o : FOps S D) (s : SOps S D)

theorem addInto_get (n : S) (z : S) : ∀ (a p : List S), a.length = p.length →
    (addInto o n a p).length = a.length ∧
    ∀ j, j < a.length → (addInto o n a p).getD j z = o.add (a.getD j z) (o.div (p.getD j z) n) := by
  intro a
  induction a with
  | nil => intro p h; exact ⟨by cases p <;> rfl, fun j hj => absurd hj (by simp)⟩
  | cons x a ih =>
    intro p h
    cases p with
    | nil => simp at h
    | cons y p =>
      obtain ⟨h1, h2⟩ := ih p (by simpa using h)
      refine ⟨by simp only [addInto, List.length_cons, h1], fun j hj => ?_⟩
      cases j with
      | zero => rfl
      | succ j => simp only [addInto, List.getD_cons_succ]; exact h2 j (by simpa using hj)

theorem avg_fold (z : S) (dtAvg : List S) (dtMax : D) (n : S) (hn : o.isZero n = false) (d : Nat) :
    ∀ (fs : List (List S)), (∀ f ∈ fs, f.length = d) → ∀ a : Acc S D, a.avg.length = d →
    (fs.foldl (meet o s dtAvg dtMax n) a).avg.length = d ∧
    ∀ j, j < d → (fs.foldl (meet o s dtAvg dtMax n) a).avg.getD j z =
      (fs.map fun f => f.getD j z).foldl (fun s x => o.add s (o.div x n)) (a.avg.getD j z) := by
  intro fs
  induction fs with
  | nil => intro _ a ha; exact ⟨ha, fun j _ => rfl⟩
  | cons f fs ih =>
    intro hf a ha
    have hfl := hf f List.mem_cons_self
    have hc : calculateAverage o a.avg f n = addInto o n a.avg f := by
      unfold calculateAverage
      rw [hn, if_neg (by simp), if_neg (by omega)]
    obtain ⟨g1, g2⟩ := addInto_get o n z a.avg f (by omega)
    obtain ⟨h1, h2⟩ := ih (fun g hg => hf g (List.mem_cons_of_mem _ hg)) (meet o s dtAvg dtMax n a f)
      (by simp only [meet, hc]; omega)
    refine ⟨h1, fun j hj => ?_⟩
    rw [List.foldl_cons, h2 j hj]
    simp only [meet, hc, List.map_cons, List.foldl_cons]
    rw [g2 j (by omega)]

theorem run_avg_fold (old : Acc S D) (hn : o.isZero (nFloat o s old.n) = false) (d : Nat) (fs : List (List S))
    (hne : fs ≠ []) (hf : ∀ f ∈ fs, f.length = d) : (run o s old fs).avg.length = d ∧
    ∀ j, j < d → (run o s old fs).avg.getD j o.zero =
      (fs.map fun f => f.getD j o.zero).foldl (fun a x => o.add a (o.div x (nFloat o s old.n))) o.zero := by
  cases fs with
  | nil => exact absurd rfl hne
  | cons f fs =>
    have hfl := hf f List.mem_cons_self
    have hc : calculateAverage o [] f (nFloat o s old.n) =
        addInto o (nFloat o s old.n) (List.replicate f.length o.zero) f := by
      unfold calculateAverage
      rw [hn, if_neg (by simp)]
      cases f with
      | nil => rfl
      | cons x f => rw [if_pos (by simp)]
    obtain ⟨g1, g2⟩ := addInto_get o (nFloat o s old.n) o.zero (List.replicate f.length o.zero) f (by simp)
    unfold run
    rw [List.foldl_cons]
    obtain ⟨h1, h2⟩ := avg_fold o s o.zero old.avg old.maxDistance (nFloat o s old.n) hn d fs
      (fun g hg => hf g (List.mem_cons_of_mem _ hg)) (meet o s old.avg old.maxDistance (nFloat o s old.n) (fresh o) f)
      (by
        show (calculateAverage o [] f (nFloat o s old.n)).length = d
        rw [hc, g1]
        simpa using hfl)
    refine ⟨h1, fun j hj => ?_⟩
    rw [h2 j hj]
    have : (meet o s old.avg old.maxDistance (nFloat o s old.n) (fresh o) f).avg.getD j o.zero =
        o.add o.zero (o.div (f.getD j o.zero) (nFloat o s old.n)) := by
      show (calculateAverage o [] f (nFloat o s old.n)).getD j o.zero = _
      rw [hc, g2 j (by simpa [hfl] using hj)]
      congr 1
      simp only [List.getD_eq_getElem?_getD, List.getElem?_replicate]
      split <;> rfl
    rw [this, List.map_cons, List.foldl_cons]

theorem n_fold (dtAvg : List S) (dtMax : D) (n : S) : ∀ (fs : List (List S)) (a : Acc S D),
    (fs.foldl (meet o s dtAvg dtMax n) a).n = a.n + UInt64.ofNat fs.length := by
  intro fs
  induction fs with
  | nil => intro a; simp
  | cons f fs ih =>
    intro a
    rw [List.foldl_cons, ih]
    simp only [meet, List.length_cons]
    apply UInt64.toNat_inj.1
    simp
    omega

theorem run_count (old : Acc S D) (fs : List (List S)) : (run o s old fs).n = UInt64.ofNat fs.length := by
  unfold run
  rw [n_fold]
  simp [fresh]

/-- How often each bucket is hit. -/
def counts (bucket : List S → Nat) (fs : List (List S)) (c : List Nat) : List Nat :=
  fs.foldl (fun c f => c.modify (bucket f) (· + 1)) c

theorem map_modify {α β : Type} (g : α → β) (u : α → α) (v : β → β) (h : ∀ a, g (u a) = v (g a)) :
    ∀ (l : List α) (i : Nat), (l.modify i u).map g = (l.map g).modify i v := by
  intro l
  induction l with
  | nil => intro i; simp
  | cons x l ih =>
    intro i
    cases i with
    | zero => simp [h]
    | succ i => simp [ih]

/-- A bucket hit `c` times. -/
def hits (unit z : S) : Nat → S
  | 0 => z
  | c + 1 => o.add (hits unit z c) unit

theorem hist_fold (old : Acc S D) (n z : S) (hz : s.isZeroD old.maxDistance = false) :
    ∀ (fs : List (List S)) (a : Acc S D) (c : List Nat), a.hist = c.map (hits o (o.div s.one n) z) →
    (fs.foldl (meet o s old.avg old.maxDistance n) a).hist =
      (counts (fun f => clamp (s.bucket (Vec.vectorDistance o old.avg f) old.maxDistance)) fs c).map
        (hits o (o.div s.one n) z) := by
  intro fs
  induction fs with
  | nil => intro a c h; exact h
  | cons f fs ih =>
    intro a c h
    rw [List.foldl_cons]
    unfold counts
    rw [List.foldl_cons]
    refine ih _ _ ?_
    simp only [meet, hz, Bool.false_eq_true, if_false]
    rw [h, map_modify]
    intro a
    rfl

theorem run_hist (old : Acc S D) (hz : s.isZeroD old.maxDistance = false) (fs : List (List S)) :
    (run o s old fs).hist =
      (counts (fun f => clamp (s.bucket (Vec.vectorDistance o old.avg f) old.maxDistance)) fs (List.replicate 64 0)).map
        (hits o (o.div s.one (nFloat o s old.n)) o.zero) := by
  unfold run
  refine hist_fold o s old _ _ hz fs _ _ ?_
  simp [fresh, hits]

theorem sum_modify_succ : ∀ (c : List Nat) (i : Nat), i < c.length → (c.modify i (· + 1)).sum = c.sum + 1 := by
  intro c
  induction c with
  | nil => intro i h; simp at h
  | cons x c ih =>
    intro i h
    cases i with
    | zero => simp; omega
    | succ i =>
      have := ih i (by simpa using h)
      simp only [List.modify_succ_cons, List.sum_cons, this]; omega

theorem counts_spec (bucket : List S → Nat) (m : Nat) (hb : ∀ f, bucket f < m) : ∀ (fs : List (List S)) (c : List Nat),
    c.length = m → (counts bucket fs c).length = m ∧ (counts bucket fs c).sum = c.sum + fs.length ∧
    ∀ j, j < m → (counts bucket fs c).getD j 0 = c.getD j 0 + (fs.filter fun f => bucket f == j).length := by
  intro fs
  induction fs with
  | nil => intro c h; exact ⟨h, by simp [counts], fun j _ => by simp [counts]⟩
  | cons f fs ih =>
    intro c h
    have hlt := hb f
    have hm := sum_modify_succ c (bucket f) (by omega)
    obtain ⟨h1, h2, h3⟩ := ih (c.modify (bucket f) (· + 1)) (by simpa using h)
    refine ⟨h1, ?_, fun j hj => ?_⟩
    · show (counts bucket fs (c.modify (bucket f) (· + 1))).sum = _
      rw [h2, hm]; simp only [List.length_cons]; omega
    · show (counts bucket fs (c.modify (bucket f) (· + 1))).getD j 0 = _
      rw [h3 j hj]
      simp only [List.getD_eq_getElem?_getD, List.getElem?_modify, List.filter_cons]
      rw [List.getElem?_eq_getElem (by omega : j < c.length)]
      by_cases hbj : bucket f = j
      · simp [hbj]; omega
      · have : (bucket f == j) = false := by simpa using hbj
        simp [hbj, this]

end generic

theorem hits_acc (n one : F32) (c : Nat) :
    hits (ops acos) ((ops acos).div one n) 0 c = acc acos n 0 (List.replicate c one) := by
  induction c with
  | zero => rfl
  | succ c ih =>
    rw [List.replicate_succ']
    unfold acc
    rw [List.foldl_append]
    simp only [hits, List.foldl_cons, List.foldl_nil]
    rw [ih]
    rfl

/-- The conversions of the statistics are those of IEEE single precision (the bucket is left open). -/
structure Single (s : SOps F32 F64) : Prop where
  one : s.one = 0x3F800000
  /-- rounded to nearest even -/
  ofU64 : ∀ n, s.ofU64 n = pk32 ⟨false, roundRat f32 (n.toNat * 2^149) 1⟩

theorem nFloat_exact {s : SOps F32 F64} (hs : Single s) {k : Nat} (h0 : 0 < k) (hk : k < 2^24) :
    (ops acos).isZero (nFloat (ops acos) s (UInt64.ofNat k)) = false ∧
    Fin32 (nFloat (ops acos) s (UInt64.ofNat k)) ∧
    sv (nFloat (ops acos) s (UInt64.ofNat k)) = ((k * 2^149 : Nat) : Int) := by
  have hto : (UInt64.ofNat k).toNat = k := by
    rw [UInt64.toNat_ofNat']
    exact Nat.mod_eq_of_lt (by omega)
  have hle : floorPat f32 (k * 2^149) ≤ 0x4B800000 := by
    have h1 : k * 2^149 ≤ 2^24 * 2^149 := Nat.mul_le_mul_right _ (by omega)
    refine Nat.le_trans (floorPat_mono h1) ?_
    decide +kernel
  have hv : val f32 (roundRat f32 (k * 2^149) 1) = k * 2^149 :=
    val_round_nat (by exact hk) (by rw [inf32]; omega)
  have hrle : roundRat f32 (k * 2^149) 1 ≤ 0x4B800000 := by
    refine roundRat_le_of (by omega) ?_
    have : val f32 0x4B800000 = 2^24 * 2^149 := by decide +kernel
    rw [this, Nat.one_mul]
    exact Nat.mul_le_mul_right _ (by omega)
  have hun : un32 (s.ofU64 (UInt64.ofNat k)) = ⟨false, roundRat f32 (k * 2^149) 1⟩ := by
    rw [hs.ofU64, hto]
    refine un_pk32 _ ?_
    simp only; omega
  have hnz : (ops acos).isZero (s.ofU64 (UInt64.ofNat k)) = false := by
    cases h : (ops acos).isZero (s.ofU64 (UInt64.ofNat k)) with
    | false => rfl
    | true =>
      have h := (isZero_iff _).1 h
      rw [hun] at h
      simp only at h
      rw [h, val_zero] at hv
      have := Nat.mul_pos h0 (Nat.two_pow_pos 149)
      omega
  have e : nFloat (ops acos) s (UInt64.ofNat k) = s.ofU64 (UInt64.ofNat k) := by
    unfold nFloat
    simp only [hnz, Bool.false_eq_true, if_false]
  rw [e]
  refine ⟨hnz, ?_, ?_⟩
  · unfold Fin32; rw [hun, inf32]; simp only; omega
  · unfold sv Num.sval; rw [hun]; simp only [Bool.false_eq_true, if_false, hv]

/-! ### In rational numbers -/

theorem isum_rat (xs : List F32) : Ref.sum (xs.map Ref.binary32) = (isum xs : Rat) / 2^149 := by
  induction xs with
  | nil => simp only [List.map_nil, Ref.sum, isum]; grind
  | cons x xs ih =>
    simp only [List.map_cons, Ref.sum, isum, ih, binary32_eq]
    push_cast
    grind

theorem isum_replicate (x : F32) (c : Nat) : isum (List.replicate c x) = c * sv x := by
  induction c with
  | zero => simp [isum]
  | succ c ih => simp only [List.replicate_succ, isum, ih]; push_cast; rw [Int.add_mul]; omega

/-- An inequality between whole numbers of units, read as one between numbers. -/
theorem to_rat {N c B : Nat} (hN : 0 < N) {r t : Int} {b : Rat} (hb : (B : Rat) ≤ b * 2^149)
    (h : 2^24 * (N * r - t).natAbs ≤ 2 * (c * ((N + 1) * B))) :
    Ref.within (((N : Rat) + 1) * b / 2^23 * (c / N)) ((r : Rat) / 2^149) ((t : Rat) / 2^149 / N) := by
  have hNr : (0 : Rat) < (N : Rat) := by exact_mod_cast hN
  have h1 : 2^24 * (N * r - t) ≤ ((2 * (c * ((N + 1) * B)) : Nat) : Int) := by omega
  have h2 : 2^24 * (t - N * r) ≤ ((2 * (c * ((N + 1) * B)) : Nat) : Int) := by omega
  have cast : ∀ (K : Nat) (a : Int) (m : Nat), (K : Int) * a ≤ m → (K : Rat) * a ≤ m := by
    intro K a m h; exact_mod_cast h
  have h1' := cast (2^24) _ _ h1
  have h2' := cast (2^24) _ _ h2
  rw [show ((2^24 : Nat) : Rat) = 2^24 by decide +kernel] at h1' h2'
  push_cast at h1' h2'
  have hcn : (0 : Rat) ≤ (c : Rat) * ((N : Rat) + 1) := by exact_mod_cast Nat.zero_le (c * (N + 1))
  have h3 : (c : Rat) * ((N : Rat) + 1) * B ≤ (c : Rat) * ((N : Rat) + 1) * (b * 2^149) :=
    Rat.mul_le_mul_of_nonneg_left hb hcn
  have hne : (N : Rat) ≠ 0 := by grind
  have hpos : (0 : Rat) < 2^172 * N := Rat.mul_pos (by decide +kernel) hNr
  constructor
  · refine Rat.le_of_mul_le_mul_left ?_ hpos
    have e1 : (2:Rat)^172 * N * ((r : Rat) / 2^149 - (t : Rat) / 2^149 / N) = 2^23 * (N * r - t) := by
      grind
    have e2 : (2:Rat)^172 * N * (((N : Rat) + 1) * b / 2^23 * (c / N)) = (c : Rat) * ((N : Rat) + 1) * (b * 2^149) := by
      grind
    rw [e1, e2]
    grind
  · refine Rat.le_of_mul_le_mul_left ?_ hpos
    have e1 : (2:Rat)^172 * N * ((t : Rat) / 2^149 / N - (r : Rat) / 2^149) = 2^23 * (t - N * r) := by
      grind
    have e2 : (2:Rat)^172 * N * (((N : Rat) + 1) * b / 2^23 * (c / N)) = (c : Rat) * ((N : Rat) + 1) * (b * 2^149) := by
      grind
    rw [e1, e2]
    grind

theorem one_fin : Fin32 0x3F800000 ∧ sv 0x3F800000 = ((2^149 : Nat) : Int) := by
  unfold Fin32
  decide +kernel

theorem hits_err {n : F32} {N : Nat} (hN : 0 < N) (hn : Fin32 n) (hnv : sv n = ((N * 2^149 : Nat) : Int))
    (hNb : N + 1 ≤ 2^23) (c : Nat) (hc : c ≤ N) :
    2^24 * (N * sv (hits (ops acos) ((ops acos).div 0x3F800000 n) 0 c) - ((c * 2^149 : Nat) : Int)).natAbs ≤
      2 * (c * ((N + 1) * 2^149)) := by
  rw [hits_acc]
  have hlow : N * 2^23 ≤ 2^149 := by
    have : N * 2^23 ≤ 2^23 * 2^23 := Nat.mul_le_mul_right _ (by omega)
    omega
  have := (acc_zero_err acos hN hn hnv hNb hlow (by decide) (List.replicate c 0x3F800000) (by
    intro x hx
    rw [List.eq_of_mem_replicate hx]
    exact ⟨one_fin.1, by rw [one_fin.2]; exact Nat.le_refl _⟩) (by simpa using hc)).2
  rw [isum_replicate, one_fin.2, List.length_replicate, ← Int.natCast_mul] at this
  exact this

theorem add_bound {A A' : Int} {p p' q q' : Nat} (h : 2^24 * (A - p).natAbs ≤ 2 * q) (h' : 2^24 * (A' - p').natAbs ≤ 2 * q') :
    2^24 * (A + A' - ((p + p' : Nat) : Int)).natAbs ≤ 2 * (q + q') := by
  omega

theorem cast_pow (c k : Nat) : (((c * 2^k : Nat) : Int) : Rat) = (c : Rat) * 2^k := by push_cast; rfl

theorem hist_sum_err {n : F32} {N : Nat} (hN : 0 < N) (hn : Fin32 n) (hnv : sv n = ((N * 2^149 : Nat) : Int))
    (hNb : N + 1 ≤ 2^23) : ∀ (cs : List Nat), cs.sum ≤ N →
    2^24 * (N * isum (cs.map (hits (ops acos) ((ops acos).div 0x3F800000 n) 0)) - ((cs.sum * 2^149 : Nat) : Int)).natAbs ≤
      2 * (cs.sum * ((N + 1) * 2^149)) := by
  intro cs
  induction cs with
  | nil => intro _; simp [isum]
  | cons c cs ih =>
    intro h
    simp only [List.sum_cons] at h
    have h1 := ih (by omega)
    have h2 := hits_err acos hN hn hnv hNb c (by omega)
    simp only [List.map_cons, isum, List.sum_cons]
    rw [Int.mul_add, Nat.add_mul, Nat.add_mul]
    exact add_bound h2 h1

end Stats

open Stats SF

/-- Three maintenance runs over the same float32 data, in any orders. -/
structure FloatRuns (acos : F64 → F64) (s : SOps F32 F64) (fs : List (List F32)) where
  old : Acc F32 F64
  order1 : List (List F32)
  order2 : List (List F32)
  order3 : List (List F32)
  perm1 : order1.Perm fs
  perm2 : order2.Perm fs
  perm3 : order3.Perm fs

namespace FloatRuns
variable {acos : F64 → F64} {s : SOps F32 F64} {fs : List (List F32)}
def first (t : FloatRuns acos s fs) : Acc F32 F64 := Stats.run (ops acos) s t.old t.order1
def second (t : FloatRuns acos s fs) : Acc F32 F64 := Stats.run (ops acos) s t.first t.order2
def third (t : FloatRuns acos s fs) : Acc F32 F64 := Stats.run (ops acos) s t.second t.order3
end FloatRuns

/-- C131, full statement: features between -1 and 1; the average reported after two runs is within one percent of the mean
in every component, and the histogram reported after three sums to one within one percent, unless the maximal distance was
zero (C44).  FALSE of the code. -/
def C131_accuracy_statement : Prop :=
  ∀ (acos : F64 → F64) (s : SOps F32 F64), Single s → ∀ (d : Nat) (fs : List (List F32)), fs ≠ [] → fs.length < 2 ^ 64 →
    (∀ f ∈ fs, f.length = d ∧ ∀ x ∈ f, Ref.finite32 x ∧ -1 ≤ Ref.binary32 x ∧ Ref.binary32 x ≤ 1) →
    ∀ t : FloatRuns acos s fs,
    (∀ j, j < d → Ref.within (1 / 100) (Ref.binary32 (t.second.avg.getD j 0)) (Ref.mean32 fs j)) ∧
    (s.isZeroD t.second.maxDistance = false → Ref.within (1 / 100) (Ref.sum (t.third.hist.map Ref.binary32)) 1)

/-- C131, the error bound.  For `n < 2^23 - 1` data with components of magnitude at most `B` (at least `n` times the least
normal number, at most `2^126`), every component of the average is a finite number within `(n + 1) B / 2^23` of the mean,
the histogram sums to one within `(n + 1) / 2^23`, and each of its 64 buckets is the share of the data it counts, within
this relative error. -/
theorem C131_error_bound (acos : F64 → F64) (s : SOps F32 F64) (hs : Single s) (d : Nat) (fs : List (List F32))
    (hne : fs ≠ []) (hlen : fs.length + 1 ≤ 2 ^ 23) (B : Rat) (hlow : (fs.length : Rat) / 2 ^ 126 ≤ B) (hhigh : B ≤ 2 ^ 126)
    (hf : ∀ f ∈ fs, f.length = d ∧ ∀ x ∈ f, Ref.finite32 x ∧ -B ≤ Ref.binary32 x ∧ Ref.binary32 x ≤ B)
    (t : FloatRuns acos s fs) :
    (t.second.avg.length = d ∧ ∀ j, j < d → Ref.finite32 (t.second.avg.getD j 0) ∧
      Ref.within (((fs.length : Rat) + 1) * B / 2 ^ 23) (Ref.binary32 (t.second.avg.getD j 0)) (Ref.mean32 fs j)) ∧
    (s.isZeroD t.second.maxDistance = false →
      t.third.hist.length = 64 ∧
      Ref.within (((fs.length : Rat) + 1) / 2 ^ 23) (Ref.sum (t.third.hist.map Ref.binary32)) 1 ∧
      ∃ bucket : List F32 → Nat,
        (∀ f, bucket f = Ref.slot (s.bucket (Vec.vectorDistance (ops acos) t.second.avg f) t.second.maxDistance)) ∧ ∀ j, j < 64 →
        Ref.within (((fs.length : Rat) + 1) / 2 ^ 23 * (((fs.filter fun f => bucket f == j).length : Rat) / fs.length))
          (Ref.binary32 (t.third.hist.getD j 0)) (((fs.filter fun f => bucket f == j).length : Rat) / fs.length)) := by
  have hN : 0 < fs.length := List.length_pos_iff.2 hne
  have hNr : (0 : Rat) < (fs.length : Rat) := by exact_mod_cast hN
  have hNne : (fs.length : Rat) ≠ 0 := by grind
  obtain ⟨hz, hn, hnv⟩ := nFloat_exact acos hs hN (by omega)
  have hn1 : t.first.n = UInt64.ofNat fs.length := by
    unfold FloatRuns.first
    rw [run_count, t.perm1.length_eq]
  have hn2 : t.second.n = UInt64.ofNat fs.length := by
    unfold FloatRuns.second
    rw [run_count, t.perm2.length_eq]
  constructor
  · -- the average
    have hne2 : t.order2 ≠ [] := fun h => hne (List.Perm.nil_eq (h ▸ t.perm2)).symm
    obtain ⟨h1, h2⟩ := run_avg_fold (ops acos) s t.first (by rw [hn1]; exact hz) d t.order2 hne2
      (fun f hf' => (hf f (t.perm2.mem_iff.1 hf')).1)
    refine ⟨h1, fun j hj => ?_⟩
    have h2j : t.second.avg.getD j 0 = acc acos (nFloat (ops acos) s t.first.n) 0 (t.order2.map fun f => f.getD j 0) := h2 j hj
    rw [hn1] at h2j
    rw [h2j]
    -- the bound in units
    have hBi : ((B * 2^149).floor.toNat : Rat) ≤ B * 2^149 := by
      have h0 : (0 : Rat) ≤ B * 2^149 := by
        have : (0 : Rat) ≤ B := by grind
        exact Rat.mul_nonneg this (by decide +kernel)
      have hfl : (0 : Int) ≤ (B * 2^149).floor := Rat.le_floor_iff.2 (by simpa using h0)
      have := Rat.floor_le (B * 2^149)
      have e : (((B * 2^149).floor.toNat : Int) : Rat) = ((B * 2^149).floor : Rat) := by rw [Int.toNat_of_nonneg hfl]
      rw [← e] at this
      exact this
    have hlo : fs.length * 2^23 ≤ (B * 2^149).floor.toNat := by
      have : ((fs.length * 2^23 : Nat) : Int) ≤ (B * 2^149).floor := by
        apply Rat.le_floor_iff.2
        rw [cast_pow]
        grind
      omega
    have hhi : (B * 2^149).floor.toNat ≤ 2^275 := by
      have : (B * 2^149).floor ≤ ((2^275 : Nat) : Int) := by
        have : (B * 2^149).floor ≤ (((2^275 : Nat) : Int) : Rat).floor := by
          apply Rat.floor_monotone
          have := cast_pow 1 275
          rw [Nat.one_mul] at this
          rw [this]
          grind
        rwa [Rat.floor_intCast] at this
      omega
    have hxs : ∀ x ∈ t.order2.map (fun f => f.getD j 0), Fin32 x ∧ (sv x).natAbs ≤ (B * 2^149).floor.toNat := by
      intro x hx
      obtain ⟨f, hfm, rfl⟩ := List.mem_map.1 hx
      obtain ⟨hl, hall⟩ := hf f (t.perm2.mem_iff.1 hfm)
      have hm : f.getD j 0 ∈ f := by
        rw [List.getD_eq_getElem?_getD, List.getElem?_eq_getElem (by omega)]
        exact List.getElem_mem _
      obtain ⟨g1, g2, g3⟩ := hall _ hm
      refine ⟨(finite_iff _).1 g1, ?_⟩
      rw [binary32_eq] at g2 g3
      have a1 : sv (f.getD j 0) ≤ (B * 2^149).floor := Rat.le_floor_iff.2 (by grind)
      have a2 : -sv (f.getD j 0) ≤ (B * 2^149).floor := Rat.le_floor_iff.2 (by push_cast; grind)
      omega
    have herr := acc_zero_err acos hN hn hnv hlen hlo hhi _ hxs (by simp [t.perm2.length_eq])
    refine ⟨(finite_iff _).2 herr.1, ?_⟩
    have hr := to_rat hN hBi herr.2
    rw [← binary32_eq, ← isum_rat] at hr
    have hmean : Ref.sum ((t.order2.map fun f => f.getD j 0).map Ref.binary32) / fs.length = Ref.mean32 fs j := by
      unfold Ref.mean32
      rw [List.map_map, Ref.sum_perm (t.perm2.map _)]
      rfl
    rw [hmean, List.length_map, t.perm2.length_eq, show (fs.length : Rat) / fs.length = 1 by grind, Rat.mul_one] at hr
    exact hr
  · -- the histogram
    intro hmz
    have hh := run_hist (ops acos) s t.second hmz t.order3
    rw [hn2, hs.one] at hh
    generalize hb : (fun f => clamp (s.bucket (Vec.vectorDistance (ops acos) t.second.avg f) t.second.maxDistance)) = bucket at hh
    have hb' : ∀ f, bucket f < 64 := by intro f; rw [← hb]; exact clamp_lt _
    obtain ⟨c1, c2, c3⟩ := counts_spec bucket 64 hb' t.order3 (List.replicate 64 0) (by simp)
    generalize counts bucket t.order3 (List.replicate 64 0) = cs at *
    have hsum : cs.sum = fs.length := by rw [c2, t.perm3.length_eq]; simp
    have hhist : t.third.hist = cs.map (hits (ops acos) ((ops acos).div 0x3F800000 (nFloat (ops acos) s (UInt64.ofNat fs.length))) 0) := hh
    rw [hhist]
    have hone : (((2^149 : Nat)) : Rat) ≤ 1 * 2^149 := by decide +kernel
    have hu : ∀ c : Nat, (((c * 2^149 : Nat) : Int) : Rat) / 2^149 = c := by
      intro c; rw [cast_pow]; grind
    refine ⟨by simpa using c1, ?_, bucket, fun f => by rw [← hb]; exact clamp_slot _, fun j hj => ?_⟩
    · rw [isum_rat]
      have hr := to_rat hN hone (hist_sum_err acos hN hn hnv hlen cs (by omega))
      rw [hu, hsum, show (fs.length : Rat) / fs.length = 1 by grind, Rat.mul_one, Rat.mul_one] at hr
      exact hr
    · have hcj : cs.getD j 0 = (fs.filter fun f => bucket f == j).length := by
        rw [c3 j hj, (t.perm3.filter _).length_eq]
        simp only [List.getD_eq_getElem?_getD, List.getElem?_replicate]
        split <;> simp only [Option.getD_some] <;> omega
      have hle : cs.getD j 0 ≤ fs.length := by rw [hcj]; exact List.length_filter_le _ _
      have hget : (cs.map (hits (ops acos) ((ops acos).div 0x3F800000 (nFloat (ops acos) s (UInt64.ofNat fs.length))) 0)).getD j 0 =
          hits (ops acos) ((ops acos).div 0x3F800000 (nFloat (ops acos) s (UInt64.ofNat fs.length))) 0 (cs.getD j 0) := by
        simp only [List.getD_eq_getElem?_getD, List.getElem?_map]
        rw [List.getElem?_eq_getElem (by omega : j < cs.length)]
        rfl
      rw [hget, ← hcj, binary32_eq]
      have hr := to_rat hN hone (hits_err acos hN hn hnv hlen (cs.getD j 0) hle)
      rw [hu, Rat.mul_one] at hr
      exact hr

/-- C131, partial: the full statement for at most 80000 data.  (What is missing: larger data sets; see
`C131_accuracy_fails`.) -/
theorem C131_accuracy_partial (acos : F64 → F64) (s : SOps F32 F64) (hs : Single s) (d : Nat) (fs : List (List F32))
    (hne : fs ≠ []) (hlen : fs.length ≤ 80000)
    (hf : ∀ f ∈ fs, f.length = d ∧ ∀ x ∈ f, Ref.finite32 x ∧ -1 ≤ Ref.binary32 x ∧ Ref.binary32 x ≤ 1)
    (t : FloatRuns acos s fs) :
    (∀ j, j < d → Ref.within (1 / 100) (Ref.binary32 (t.second.avg.getD j 0)) (Ref.mean32 fs j)) ∧
    (s.isZeroD t.second.maxDistance = false → Ref.within (1 / 100) (Ref.sum (t.third.hist.map Ref.binary32)) 1) := by
  have hl : (fs.length : Rat) ≤ 80000 := by exact_mod_cast hlen
  obtain ⟨⟨_, h1⟩, h2⟩ := C131_error_bound acos s hs d fs hne (by omega) 1 (by grind) (by decide +kernel) hf t
  have hw : ∀ {e a b : Rat}, e ≤ 1 / 100 → Ref.within e a b → Ref.within (1 / 100) a b := by
    intro e a b he h
    exact ⟨Rat.le_trans h.1 he, Rat.le_trans h.2 he⟩
  refine ⟨fun j hj => hw (by grind) (h1 j hj).2, fun hz => hw (by grind) (h2 hz).2.1⟩

namespace Stats

/-- Adding `2^e` units again and again is exact as long as there are at most `2^24` of them. -/
theorem hits_exact (acos : F64 → F64) (e : Nat) (he : e ≤ 149) : ∀ k, k ≤ 2^24 →
    hits (ops acos) (pk32 ⟨false, floorPat f32 (2^e)⟩) 0 k = pk32 ⟨false, floorPat f32 (k * 2^e)⟩ := by
  have hval : ∀ k, k ≤ 2^24 → val f32 (floorPat f32 (k * 2^e)) = k * 2^e := by
    intro k hk
    by_cases h : k < 2^24
    · exact val_floorPat k e h
    · have hk' : k = 2^24 := by omega
      rw [hk', ← Nat.pow_add, ← Nat.one_mul (2^(24 + e))]
      exact val_floorPat 1 (24 + e) (by decide)
  have hle : ∀ k, k ≤ 2^24 → floorPat f32 (k * 2^e) ≤ 0x4B800000 := by
    intro k hk
    have h1 : k * 2^e ≤ 2^24 * 2^149 := Nat.mul_le_mul hk (Nat.pow_le_pow_right (by omega) he)
    refine Nat.le_trans (floorPat_mono h1) ?_
    decide +kernel
  intro k
  induction k with
  | zero =>
    intro _
    rw [Nat.zero_mul]
    show (0 : F32) = _
    decide +kernel
  | succ k ih =>
    intro hk
    have hk1 := hle k (by omega)
    have hk2 := hle (k + 1) hk
    have h1 := hle 1 (by decide)
    rw [Nat.one_mul] at h1
    have hv1 := hval 1 (by decide)
    rw [Nat.one_mul] at hv1
    simp only [hits, ih (by omega)]
    show pk32 (addN f32 (un32 (pk32 ⟨false, floorPat f32 (k * 2^e)⟩)) (un32 (pk32 ⟨false, floorPat f32 (2^e)⟩))) = _
    rw [un_pk32 _ (by simp only; omega), un_pk32 _ (by simp only; omega)]
    obtain ⟨a1, a2⟩ := not_special (f := f32) (a := ⟨false, floorPat f32 (k * 2^e)⟩) (by rw [inf32]; simp only; omega)
    obtain ⟨b1, b2⟩ := not_special (f := f32) (a := ⟨false, floorPat f32 (2^e)⟩) (by rw [inf32]; simp only; omega)
    have hpos : 0 < 2^e := Nat.two_pow_pos e
    have hs : Num.sval f32 ⟨false, floorPat f32 (k * 2^e)⟩ + Num.sval f32 ⟨false, floorPat f32 (2^e)⟩ =
        (((k + 1) * 2^e : Nat) : Int) := by
      simp only [Num.sval, Bool.false_eq_true, if_false, hval k (by omega), hv1, Nat.succ_mul]
      omega
    have hp2 : 0 < (k + 1) * 2^e := Nat.mul_pos (by omega) hpos
    congr 1
    unfold addN
    simp only [a1, a2, b1, b2, hs, Bool.or_self, Bool.false_eq_true, if_false]
    rw [if_neg (by omega), Int.natAbs_natCast]
    have hr : roundRat f32 ((k + 1) * 2^e) 1 = floorPat f32 ((k + 1) * 2^e) := by
      have := roundRat_val f32 (floorPat f32 ((k + 1) * 2^e)) (by rw [inf32]; omega)
      rwa [hval (k + 1) hk] at this
    rw [hr]
    have : decide ((((k + 1) * 2^e : Nat) : Int) < 0) = false := by
      rw [decide_eq_false_iff_not]; omega
    rw [this]

/-- The sum stops growing. -/
theorem hits_stuck (acos : F64 → F64) (unit x : F32) (k : Nat) (hk : hits (ops acos) unit 0 k = x)
    (h : (ops acos).add x unit = x) : ∀ m, hits (ops acos) unit 0 (k + m) = x := by
  intro m
  induction m with
  | zero => exact hk
  | succ m ih =>
    show (ops acos).add (hits (ops acos) unit 0 (k + m)) unit = x
    rw [ih, h]

section
variable {S D : Type} (o : FOps S D) (s : SOps S D)

theorem max_fold (dtAvg : List S) (dtMax : D) (n : S) (f : List S) (dist : D) (hd : Vec.vectorDistance o dtAvg f = dist)
    (h0 : o.ltD o.zeroD dist = true) (h1 : o.ltD dist dist = false) : ∀ (m : Nat) (a : Acc S D),
    a.maxDistance = o.zeroD ∨ a.maxDistance = dist →
    ((List.replicate (m + 1) f).foldl (meet o s dtAvg dtMax n) a).maxDistance = dist := by
  intro m
  have step : ∀ a : Acc S D, a.maxDistance = o.zeroD ∨ a.maxDistance = dist →
      (meet o s dtAvg dtMax n a f).maxDistance = dist := by
    intro a ha
    simp only [meet, hd]
    rcases ha with ha | ha
    · rw [ha, h0]; rfl
    · rw [ha, h1]; rfl
  induction m with
  | zero => intro a ha; exact step a ha
  | succ m ih =>
    intro a ha
    rw [List.replicate_succ, List.foldl_cons]
    exact ih _ (.inr (step a ha))

end

/-- `2^25` data, all with the feature `[1]`. -/
def exMany : List (List F32) := List.replicate (2^25) [0x3F800000]

/-- Three runs over them, from a fresh data set. -/
def exRuns32 : FloatRuns id Proc.softS exMany :=
  ⟨⟨0, [], 0, List.replicate 64 0⟩, exMany, exMany, exMany, .refl _, .refl _, .refl _⟩

theorem softS_single : Single Proc.softS := ⟨rfl, fun _ => rfl⟩

theorem many_ne (N : Nat) (h : N = 2^25) : List.replicate N [(0x3F800000 : F32)] ≠ [] := by
  intro hc
  rw [List.replicate_eq_nil_iff] at hc
  omega

theorem singleton_of {l : List F32} {x : F32} (hl : l.length = 1) (h : l.getD 0 0 = x) : l = [x] := by
  match l, hl, h with
  | [y], _, h => simp at h; rw [h]

theorem hits_quarter {N : Nat} (hN : N = 2^25) (e : Nat) (he : e ≤ 149) (x : F32)
    (hx : pk32 ⟨false, floorPat f32 (2^24 * 2^e)⟩ = x)
    (h : (ops id).add x (pk32 ⟨false, floorPat f32 (2^e)⟩) = x) :
    hits (ops id) (pk32 ⟨false, floorPat f32 (2^e)⟩) 0 N = x := by
  have h1 := hits_exact id e he (2^24) (Nat.le_refl _)
  rw [hx] at h1
  have := hits_stuck id _ x (2^24) h1 h (2^24)
  rwa [show 2^24 + 2^24 = N by omega] at this

theorem run_avg_many (old : Acc F32 F64) {N : Nat} (hN : N = 2^25)
    (hz : (ops id).isZero (nFloat (ops id) Proc.softS old.n) = false) :
    (run (ops id) Proc.softS old (List.replicate N [0x3F800000])).avg =
      [hits (ops id) ((ops id).div 0x3F800000 (nFloat (ops id) Proc.softS old.n)) 0 N] := by
  obtain ⟨h1, h2⟩ := run_avg_fold (ops id) Proc.softS old hz 1 (List.replicate N [0x3F800000]) (many_ne N hN)
    (by intro f hf; rw [List.eq_of_mem_replicate hf]; rfl)
  refine singleton_of h1 ?_
  have := h2 0 (by omega)
  rw [List.map_replicate] at this
  rw [hits_acc]
  exact this

theorem many_first {N : Nat} (hN : N = 2^25) :
    (run (ops id) Proc.softS ⟨0, [], 0, List.replicate 64 0⟩ (List.replicate N [0x3F800000])).avg = [0x4B800000] ∧
    (run (ops id) Proc.softS ⟨0, [], 0, List.replicate 64 0⟩ (List.replicate N [0x3F800000])).n = UInt64.ofNat N := by
  refine ⟨?_, by rw [run_count, List.length_replicate]⟩
  rw [run_avg_many _ hN (by decide +kernel)]
  have e : (ops id).div 0x3F800000 (nFloat (ops id) Proc.softS 0) = pk32 ⟨false, floorPat f32 (2^149)⟩ := by decide +kernel
  show [hits (ops id) ((ops id).div 0x3F800000 (nFloat (ops id) Proc.softS 0)) 0 N] = _
  rw [e, hits_quarter hN 149 (by omega) 0x4B800000 (by decide +kernel) (by decide +kernel)]

theorem nf_many {N : Nat} (hN : N = 2^25) : nFloat (ops id) Proc.softS (UInt64.ofNat N) = 0x4C000000 := by
  rw [hN]; decide +kernel

theorem many_second {N : Nat} (hN : N = 2^25) (old : Acc F32 F64) (h1 : old.avg = [0x4B800000]) (h2 : old.n = UInt64.ofNat N) :
    (run (ops id) Proc.softS old (List.replicate N [0x3F800000])).avg = [0x3F000000] ∧
    (run (ops id) Proc.softS old (List.replicate N [0x3F800000])).n = UInt64.ofNat N ∧
    (run (ops id) Proc.softS old (List.replicate N [0x3F800000])).maxDistance = 0x416FFFFFDFFFFFF0 := by
  have hn : nFloat (ops id) Proc.softS old.n = 0x4C000000 := by rw [h2, nf_many hN]
  refine ⟨?_, by rw [run_count, List.length_replicate], ?_⟩
  · rw [run_avg_many old hN (by rw [hn]; decide), hn]
    have e : (ops id).div 0x3F800000 0x4C000000 = pk32 ⟨false, floorPat f32 (2^124)⟩ := by decide +kernel
    rw [e, hits_quarter hN 124 (by omega) 0x3F000000 (by decide +kernel) (by decide +kernel)]
  · unfold run
    obtain ⟨m, hm⟩ : ∃ m, N = m + 1 := ⟨N - 1, by omega⟩
    rw [hm]
    refine max_fold _ _ _ _ _ _ _ ?_ ?_ ?_ m _ (.inl rfl)
    · rw [h1]; decide +kernel
    · decide +kernel
    · decide +kernel

theorem many_third {N : Nat} (hN : N = 2^25) (old : Acc F32 F64) (h1 : old.avg = [0x3F000000]) (h2 : old.n = UInt64.ofNat N)
    (h3 : old.maxDistance = 0x416FFFFFDFFFFFF0) :
    (run (ops id) Proc.softS old (List.replicate N [0x3F800000])).hist = 0x3F000000 :: List.replicate 63 0 := by
  have hn : nFloat (ops id) Proc.softS old.n = 0x4C000000 := by rw [h2, nf_many hN]
  rw [run_hist _ _ old (by rw [h3]; decide), hn, h1, h3]
  have hb : clamp (Proc.softS.bucket (Vec.vectorDistance (ops id) [0x3F000000] [0x3F800000]) 0x416FFFFFDFFFFFF0) = 0 := by
    decide +kernel
  have hc : ∀ (M c : Nat) (l : List Nat), counts (fun f => clamp (Proc.softS.bucket (Vec.vectorDistance (ops id) [0x3F000000] f)
      0x416FFFFFDFFFFFF0)) (List.replicate M [0x3F800000]) (c :: l) = (c + M) :: l := by
    intro M
    induction M with
    | zero => intro c l; rfl
    | succ M ih =>
      intro c l
      unfold counts
      rw [List.replicate_succ, List.foldl_cons]
      simp only [hb]
      rw [List.modify_zero_cons]
      have := ih (c + 1) l
      unfold counts at this
      rw [this, Nat.add_assoc, Nat.add_comm 1 M]
  rw [List.replicate_succ, hc, Nat.zero_add, List.map_cons, List.map_replicate]
  have e : (ops id).div Proc.softS.one 0x4C000000 = pk32 ⟨false, floorPat f32 (2^124)⟩ := by decide +kernel
  rw [e]
  have := hits_quarter hN 124 (by omega) 0x3F000000 (by decide +kernel) (by decide +kernel)
  show hits (ops id) (pk32 ⟨false, floorPat f32 (2^124)⟩) 0 N :: _ = _
  rw [this]
  rfl

end Stats

/-- C131, what is reported of `2^25` data with the feature `[1]`: average 1/2, and a histogram that sums to 1/2: from 1/2 on,
adding `2^-25` changes nothing. -/
theorem C131_saturated : exRuns32.second.avg = [0x3F000000] ∧ Ref.binary32 0x3F000000 = 1 / 2 ∧
    Proc.softS.isZeroD exRuns32.second.maxDistance = false ∧
    Ref.sum (exRuns32.third.hist.map Ref.binary32) = 1 / 2 := by
  obtain ⟨N, hN⟩ : ∃ N : Nat, N = 2^25 := ⟨_, rfl⟩
  obtain ⟨a1, a2⟩ := many_first hN
  obtain ⟨b1, b2, b3⟩ := many_second hN _ a1 a2
  have c := many_third hN _ b1 b2 b3
  have e : exRuns32.first = run (ops id) Proc.softS ⟨0, [], 0, List.replicate 64 0⟩ (List.replicate N [0x3F800000]) := by
    rw [hN]; rfl
  have e2 : exRuns32.second = run (ops id) Proc.softS exRuns32.first (List.replicate N [0x3F800000]) := by rw [hN]; rfl
  have e3 : exRuns32.third = run (ops id) Proc.softS exRuns32.second (List.replicate N [0x3F800000]) := by rw [hN]; rfl
  rw [← e, ← e2] at b1 b3 c
  rw [← e3] at c
  refine ⟨b1, by decide +kernel, by rw [b3]; decide, ?_⟩
  rw [c]
  decide +kernel

/-- C131, counterexample. -/
theorem C131_accuracy_fails : ¬ C131_accuracy_statement := by
  intro h
  have hlen : exMany.length < 2 ^ 64 := by unfold exMany; rw [List.length_replicate]; decide
  have := (h id Proc.softS softS_single 1 exMany (many_ne _ rfl) hlen
    (by
      intro f hf
      rw [List.eq_of_mem_replicate hf]
      refine ⟨rfl, fun x hx => ?_⟩
      rw [List.mem_singleton.1 hx]
      unfold Ref.finite32
      decide +kernel) exRuns32).2 C131_saturated.2.2.1
  rw [C131_saturated.2.2.2] at this
  exact absurd this.2 (by decide +kernel)

/-- Three data, three runs from a fresh data set, in changing order. -/
def Stats.exThree32 : FloatRuns id Proc.softS [[0x3F800000], [0], [0x3F800000]] :=
  ⟨⟨0, [], 0, List.replicate 64 0⟩, [[0x3F800000], [0], [0x3F800000]], [[0x3F800000], [0x3F800000], [0]],
    [[0], [0x3F800000], [0x3F800000]], .refl _, .cons _ (.swap _ _ _), .swap _ _ _⟩

/-- C131 on three data: the hypotheses hold, the maximal distance is not zero, and neither number is exact. -/
theorem C131_example : (∀ f ∈ [[(0x3F800000 : F32)], [0], [0x3F800000]],
      f.length = 1 ∧ ∀ x ∈ f, Ref.finite32 x ∧ -1 ≤ Ref.binary32 x ∧ Ref.binary32 x ≤ 1) ∧
    Proc.softS.isZeroD (FloatRuns.second exThree32).maxDistance = false ∧
    (FloatRuns.second exThree32).avg = [0x3F2AAAAB] ∧ Ref.binary32 0x3F2AAAAB ≠ 2 / 3 ∧
    ((FloatRuns.third exThree32).hist.filter fun h => decide (h ≠ 0)) = [0x3F2AAAAB, 0x3EAAAAAB] := by
  unfold Ref.finite32
  decide +kernel

end Veri
