import Verif.Vector.Rounding
import Verif.Store.Lemmas
/-
Time limits of searches: data/search.go:162-165, 194-198, 255-265.  C104, C105, C106.
-/
set_option autoImplicit false
namespace Veri
open SF

namespace Tmo
set_option exponentiation.threshold 4000

/-- The float64 constant 0.9. -/
def c09 : F64 := 0x3FECCCCCCCCCCCCD

/-- data/search.go:165: `uint64(float64(config.Timeout) * 0.9)`. -/
def shrink (t : UInt64) : UInt64 := UInt64.ofNat (truncD ((ops id).mulD ((ops id).ofNatD t.toNat) c09))

/-- The pattern of `float64(t)`. -/
def ofNatPat (t : Nat) : Nat := roundRat f64 (t * 2^f64.unit) 1

theorem val_c09 : 10 * val f64 (un64 c09).mag = 9 * 2^f64.unit + 2 * 2^(f64.unit - 53) := by decide +kernel

theorem unit_split : 2^f64.unit = 2^53 * 2^(f64.unit - 53) := by decide +kernel

theorem rep_nat (a e : Nat) (h : a < 2^53) : val f64 (floorPat f64 (a * 2^e)) = a * 2^e := val_floorPat a e h

/-- Any integer below `2^64` is finite as a float64. -/
theorem ofNatPat_finite {t : Nat} (h : t < 2^64) : ofNatPat t < f64.inf := by
  have h1 : ofNatPat t ≤ floorPat f64 (1 * 2^(64 + f64.unit)) := by
    refine roundRat_le_of (by decide) ?_
    rw [rep_nat 1 _ (by decide), Nat.one_mul, Nat.one_mul, Nat.pow_add]
    exact Nat.mul_le_mul_right _ (Nat.le_of_lt h)
  have h2 : floorPat f64 (1 * 2^(64 + f64.unit)) < f64.inf := by decide +kernel
  omega

theorem shrink_eq {t : Nat} (h : t < 2^64) :
    truncD ((ops id).mulD ((ops id).ofNatD t) c09) =
      val f64 (roundRat f64 (val f64 (ofNatPat t) * val f64 (un64 c09).mag) (2^f64.unit)) / 2^f64.unit := by
  have hX := ofNatPat_finite h
  have hinf : f64.inf < 2^63 := by decide
  have e1 : un64 ((ops id).ofNatD t) = ⟨false, ofNatPat t⟩ := by
    show un64 (pk64 ⟨false, ofNatPat t⟩) = _
    exact un_pk64 _ (by simp only; omega)
  have hc : un64 c09 = ⟨false, 0x3FECCCCCCCCCCCCD⟩ := by decide +kernel
  show truncD (pk64 (mulN f64 (un64 ((ops id).ofNatD t)) (un64 c09))) = _
  have e2 : mulN f64 (un64 ((ops id).ofNatD t)) (un64 c09) =
      ⟨false, roundRat f64 (val f64 (ofNatPat t) * val f64 (un64 c09).mag) (2^f64.unit)⟩ := by
    rw [e1, hc]
    unfold mulN
    have a1 : (Num.mk false (ofNatPat t)).isNaN f64 = false := by simp [Num.isNaN]; omega
    have a2 : (Num.mk false (ofNatPat t)).isInf f64 = false := by simp [Num.isInf]; omega
    have a3 : (Num.mk false 0x3FECCCCCCCCCCCCD).isNaN f64 = false := by decide
    have a4 : (Num.mk false 0x3FECCCCCCCCCCCCD).isInf f64 = false := by decide
    rw [a1, a2, a3, a4]
    rfl
  rw [e2]
  unfold truncD
  rw [un_pk64]
  have := roundRat_le f64 (val f64 (ofNatPat t) * val f64 (un64 c09).mag) (2^f64.unit)
  simp only; omega

/-- Upper bound: if `t` is at most the representable `u` and nine tenths of `u` (and a bit) at most the representable
number `w`, then the result is at most `w`. -/
theorem shrink_le {t u w a b s e : Nat} (h : t < 2^64) (hu : u = a * 2^s) (ha : a < 2^53) (ht : t ≤ u)
    (hw : w = b * 2^e) (hb : b < 2^53) (hc : u * (9 * 2^53 + 2) * 2^(f64.unit - 53) ≤ 10 * w) :
    truncD ((ops id).mulD ((ops id).ofNatD t) c09) ≤ w / 2^f64.unit := by
  rw [shrink_eq h]
  have hU : 0 < 2^f64.unit := Nat.two_pow_pos _
  refine Nat.div_le_div_right ?_
  have hX : val f64 (ofNatPat t) ≤ u * 2^f64.unit := by
    have hr : val f64 (floorPat f64 (u * 2^f64.unit)) = u * 2^f64.unit := by
      rw [hu, Nat.mul_assoc, ← Nat.pow_add]; exact rep_nat a _ ha
    rw [← hr]
    refine val_le (roundRat_le_of (by decide) ?_)
    rw [hr, Nat.one_mul]
    exact Nat.mul_le_mul_right _ ht
  have hr : val f64 (floorPat f64 w) = w := by rw [hw]; exact rep_nat b _ hb
  rw [← hr]
  refine val_le (roundRat_le_of hU ?_)
  rw [hr]
  have h9 := val_c09
  have hsplit := unit_split
  generalize val f64 (un64 c09).mag = C at *
  generalize 2^(f64.unit - 53) = V at *
  generalize 2^f64.unit = U at *
  generalize val f64 (ofNatPat t) = X at *
  have : 10 * (X * C) ≤ 10 * (U * w) := by
    calc 10 * (X * C) = X * (10 * C) := by rw [Nat.mul_left_comm]
      _ ≤ (u * U) * (10 * C) := Nat.mul_le_mul_right _ hX
      _ = U * (u * (10 * C)) := by rw [Nat.mul_comm u U, Nat.mul_assoc]
      _ = U * (u * (9 * 2^53 + 2) * V) := by
          rw [h9, hsplit, Nat.mul_assoc u, Nat.add_mul]
          congr 2
          omega
      _ ≤ U * (10 * w) := Nat.mul_le_mul_left _ hc
      _ = 10 * (U * w) := by rw [Nat.mul_left_comm]
  omega

theorem truncD_lt {t : Nat} (h : t < 2^64) (h0 : 0 < t) : truncD ((ops id).mulD ((ops id).ofNatD t) c09) < t := by
  by_cases hs : t < 64
  · have hall : ∀ t : Fin 64, 0 < t.val → truncD ((ops id).mulD ((ops id).ofNatD t.val) c09) < t.val := by decide +kernel
    exact hall ⟨t, hs⟩ h0
  · -- `t` lies between `a * 2^s` and `(a + 1) * 2^s`, where `64 ≤ a < 128`
    have ht0 : t ≠ 0 := by omega
    have h1 : 2 ^ Nat.log2 t ≤ t := Nat.log2_self_le ht0
    have h2 : t < 2 ^ (Nat.log2 t + 1) := Nat.lt_log2_self
    have h3 : 6 ≤ Nat.log2 t := by
      apply Nat.le_of_not_lt
      intro hc
      have : 2 ^ (Nat.log2 t + 1) ≤ 2 ^ 6 := Nat.pow_le_pow_right (by omega) (by omega)
      omega
    obtain ⟨s, hs⟩ : ∃ s, Nat.log2 t = 6 + s := ⟨Nat.log2 t - 6, by omega⟩
    rw [hs] at h1 h2
    have hps : 0 < 2^s := Nat.two_pow_pos _
    rw [Nat.pow_add] at h1
    rw [show 6 + s + 1 = 7 + s by omega, Nat.pow_add] at h2
    have ha1 : 64 ≤ t / 2^s := by rw [Nat.le_div_iff_mul_le hps]; exact h1
    have ha2 : t / 2^s < 128 := by rw [Nat.div_lt_iff_lt_mul hps]; exact h2
    have hdm := Nat.div_add_mod t (2^s)
    have hmod : t % 2^s < 2^s := Nat.mod_lt _ hps
    generalize t / 2^s = a at *
    have hlow : a * 2^s ≤ t := by rw [Nat.mul_comm]; omega
    have hup : t ≤ (a + 1) * 2^s := by rw [Nat.add_mul, Nat.one_mul, Nat.mul_comm a]; omega
    have hk := shrink_le (t := t) (u := (a + 1) * 2^s) (w := (a - 1) * 2^(s + f64.unit)) (a := a + 1) (s := s)
      (b := a - 1) (e := s + f64.unit) h rfl (by omega) hup rfl (by omega) (by
        rw [Nat.pow_add, unit_split]
        have hcoef : (a + 1) * (9 * 2^53 + 2) ≤ 10 * ((a - 1) * 2^53) := by omega
        calc (a + 1) * 2^s * (9 * 2^53 + 2) * 2^(f64.unit - 53)
            = ((a + 1) * (9 * 2^53 + 2)) * (2^s * 2^(f64.unit - 53)) := by
              rw [Nat.mul_right_comm (a + 1), Nat.mul_assoc ((a+1) * (9 * 2^53 + 2))]
          _ ≤ (10 * ((a - 1) * 2^53)) * (2^s * 2^(f64.unit - 53)) := Nat.mul_le_mul_right _ hcoef
          _ = 10 * ((a - 1) * (2^s * (2^53 * 2^(f64.unit - 53)))) := by
              rw [Nat.mul_assoc 10, Nat.mul_assoc (a - 1), Nat.mul_left_comm (2^53)])
    rw [Nat.pow_add, ← Nat.mul_assoc, Nat.mul_div_cancel _ (Nat.two_pow_pos _)] at hk
    have : (a - 1) * 2^s < a * 2^s := Nat.mul_lt_mul_of_pos_right (by omega) hps
    omega

theorem shrink_toNat (t : UInt64) : (shrink t).toNat = truncD ((ops id).mulD ((ops id).ofNatD t.toNat) c09) := by
  unfold shrink
  rw [UInt64.toNat_ofNat']
  refine Nat.mod_eq_of_lt ?_
  have h := t.toNat_lt
  by_cases h0 : 0 < t.toNat
  · have := truncD_lt h h0; omega
  · have : t.toNat = 0 := by omega
    rw [this]; decide +kernel

/-- The limit gets smaller. -/
theorem shrink_lt {t : UInt64} (h : 0 < t) : shrink t < t := by
  rw [UInt64.lt_iff_toNat_lt, shrink_toNat]
  exact truncD_lt t.toNat_lt (UInt64.lt_iff_toNat_lt.1 h)

theorem shrink_zero : shrink 0 = 0 := by decide +kernel

theorem shrink_self_le (t : UInt64) : shrink t ≤ t := by
  by_cases h : 0 < t
  · exact UInt64.le_of_lt (shrink_lt h)
  · have : t = 0 := by
      apply UInt64.toNat_inj.1
      have h2 : ¬ (0 : Nat) < t.toNat := fun hc => h (UInt64.lt_iff_toNat_lt.2 hc)
      simp; omega
    subst this
    rw [shrink_zero]
    exact UInt64.le_refl 0

theorem shrink_mono {t t' : UInt64} (h : t ≤ t') : shrink t ≤ shrink t' := by
  rw [UInt64.le_iff_toNat_le, shrink_toNat, shrink_toNat, shrink_eq t.toNat_lt, shrink_eq t'.toNat_lt]
  refine Nat.div_le_div_right (val_le (roundRat_mono (Nat.mul_le_mul_right _ (val_le (roundRat_mono ?_)))))
  exact Nat.mul_le_mul_right _ (UInt64.le_iff_toNat_le.1 h)

/-- Up to seventeen thousand years the result is nine tenths, rounded down. -/
theorem shrink_exact {t : UInt64} (h : t.toNat < 2^49) : (shrink t).toNat = 9 * t.toNat / 10 := by
  rw [shrink_toNat]
  have h64 := t.toNat_lt
  generalize t.toNat = t at *
  apply Nat.le_antisymm
  · have hk := shrink_le (t := t) (u := t) (w := (16 * (9 * t / 10) + 15) * 2^(f64.unit - 4)) (a := t) (s := 0)
      (b := 16 * (9 * t / 10) + 15) (e := f64.unit - 4) h64 (by simp) (by omega) (Nat.le_refl _) rfl (by omega) (by
        have e : 2^(f64.unit - 4) = 2^49 * 2^(f64.unit - 53) := by decide +kernel
        rw [e, ← Nat.mul_assoc, ← Nat.mul_assoc]
        refine Nat.mul_le_mul_right _ ?_
        omega)
    have e : 2^f64.unit = 2^4 * 2^(f64.unit - 4) := by decide +kernel
    have hV : 0 < 2^(f64.unit - 4) := Nat.two_pow_pos _
    rw [e, Nat.mul_div_mul_right _ _ hV] at hk
    omega
  · rw [shrink_eq h64, Nat.le_div_iff_mul_le (Nat.two_pow_pos _)]
    have hX : val f64 (ofNatPat t) = t * 2^f64.unit := by
      have hr : val f64 (floorPat f64 (t * 2^f64.unit)) = t * 2^f64.unit := rep_nat t _ (by omega)
      apply Nat.le_antisymm
      · rw [← hr]
        refine val_le (roundRat_le_of (by decide) ?_)
        rw [hr, Nat.one_mul]; exact Nat.le_refl _
      · conv => lhs; rw [← hr]
        refine val_le (le_roundRat (by decide) ?_ ?_)
        · rw [hr, Nat.one_mul]; exact Nat.le_refl _
        · refine Nat.le_trans (floorPat_mono (Nat.mul_le_mul_right _ (Nat.le_of_lt h))) ?_
          decide +kernel
    have hr : val f64 (floorPat f64 (9 * t / 10 * 2^f64.unit)) = 9 * t / 10 * 2^f64.unit := rep_nat _ _ (by omega)
    conv => lhs; rw [← hr]
    refine val_le (le_roundRat (Nat.two_pow_pos _) ?_ ?_)
    · rw [hr, hX]
      have h9 := val_c09
      generalize val f64 (un64 c09).mag = C at *
      generalize 2^(f64.unit - 53) = V at *
      generalize 2^f64.unit = U at *
      have hc : 9 * t / 10 * U ≤ t * C := by
        have h1 : 10 * (9 * t / 10) ≤ 9 * t := Nat.mul_div_le _ _
        have h2 : 10 * (9 * t / 10 * U) ≤ 10 * (t * C) := by
          calc 10 * (9 * t / 10 * U) = (10 * (9 * t / 10)) * U := by rw [Nat.mul_assoc]
            _ ≤ 9 * t * U := Nat.mul_le_mul_right _ h1
            _ = t * (9 * U) := by rw [Nat.mul_comm 9, Nat.mul_assoc]
            _ ≤ t * (10 * C) := Nat.mul_le_mul_left _ (by omega)
            _ = 10 * (t * C) := by rw [Nat.mul_left_comm]
        omega
      calc U * (9 * t / 10 * U) ≤ U * (t * C) := Nat.mul_le_mul_left _ hc
        _ = t * U * C := by rw [Nat.mul_comm t U, Nat.mul_assoc]
    · refine Nat.le_trans (floorPat_mono (M := 2^49 * 2^f64.unit) (Nat.mul_le_mul_right _ (by omega))) ?_
      decide +kernel

/-- Seconds, a minute, and a limit near the end of the range. -/
example : shrink 1000 = 900 ∧ shrink 60000 = 54000 ∧ shrink 1 = 0 ∧ shrink 10 = 9 ∧ shrink 7 = 6 := by decide +kernel

/-! ### One request: the searches of its data share the configuration -/

/-- Where the search of one datum is (data/search.go:161-198). -/
inductive Phase where
  | start
  /-- line 162 done: the time this search waits -/
  | limited (own : UInt64)
  /-- line 165, the right-hand side read -/
  | read (own r : UInt64)
  /-- line 165 done; the peers are being asked -/
  | running (own : UInt64)
  deriving DecidableEq, Repr

/-- A request under way at a node: the shared field `config.Timeout`, the searches, and the limits sent to peers so far. -/
structure St where
  timeout : UInt64
  threads : List Phase
  sent : List UInt64
  deriving DecidableEq, Repr

inductive Label where
  | limit (i : Nat)
  | read (i : Nat)
  | write (i : Nat)
  /-- line 197: a peer is asked; the request is encoded from the shared configuration -/
  | send (i : Nat)
  deriving DecidableEq, Repr

def step (s : St) : Label → Option St
  | .limit i =>
    match s.threads[i]? with
    | some .start => some { s with threads := s.threads.set i (.limited s.timeout) }
    | _ => none
  | .read i =>
    match s.threads[i]? with
    | some (.limited own) => some { s with threads := s.threads.set i (.read own s.timeout) }
    | _ => none
  | .write i =>
    match s.threads[i]? with
    | some (.read own r) => some { s with timeout := shrink r, threads := s.threads.set i (.running own) }
    | _ => none
  | .send i =>
    match s.threads[i]? with
    | some (.running _) => some { s with sent := s.sent ++ [s.timeout] }
    | _ => none

def run : St → List Label → Option St
  | s, [] => some s
  | s, l :: ls => match step s l with
    | none => none
    | some s => run s ls

/-- data/search.go:254-265: a request for `n` data with time limit `t`. -/
def request (t : UInt64) (n : Nat) : St := ⟨t, List.replicate n .start, []⟩

/-- `k` times nine tenths. -/
def cut (t : UInt64) : Nat → UInt64
  | 0 => t
  | k + 1 => shrink (cut t k)

theorem cut_le (t : UInt64) (k : Nat) : cut t k ≤ t := by
  induction k with
  | zero => exact UInt64.le_refl t
  | succ k ih => exact UInt64.le_trans (shrink_self_le _) ih

theorem cut_succ_le (t : UInt64) (k : Nat) : cut t (k + 1) ≤ shrink t := shrink_mono (cut_le t k)

theorem cut_anti (t : UInt64) {j k : Nat} (h : j ≤ k) : cut t k ≤ cut t j := by
  induction k with
  | zero => have : j = 0 := by omega
            subst this; exact UInt64.le_refl _
  | succ k ih =>
    by_cases hj : j = k + 1
    · subst hj; exact UInt64.le_refl _
    · exact UInt64.le_trans (shrink_self_le _) (ih (by omega))

theorem cut_mono {t t' : UInt64} (h : t ≤ t') (k : Nat) : cut t k ≤ cut t' k := by
  induction k with
  | zero => exact h
  | succ k ih => exact shrink_mono ih

theorem cut_shrink (t : UInt64) (k : Nat) : cut (shrink t) k = cut t (k + 1) := by
  induction k with
  | zero => rfl
  | succ k ih => show shrink (cut (shrink t) k) = _; rw [ih]; rfl

def Phase.isRunning : Phase → Bool
  | .running _ => true
  | _ => false

def running (l : List Phase) : Nat := (l.filter Phase.isRunning).length

theorem running_cons (p : Phase) (l : List Phase) : running (p :: l) = (if p.isRunning then 1 else 0) + running l := by
  unfold running
  cases h : p.isRunning <;> simp [h]; omega

theorem running_set {l : List Phase} {i : Nat} {p q : Phase} (h : l[i]? = some p) (hp : p.isRunning = false) :
    running (l.set i q) = running l + (if q.isRunning then 1 else 0) := by
  induction l generalizing i with
  | nil => simp at h
  | cons a l ih =>
    cases i with
    | zero =>
      simp only [List.getElem?_cons_zero, Option.some.injEq] at h
      subst h
      rw [List.set_cons_zero, running_cons, running_cons, hp]
      simp; omega
    | succ i =>
      simp only [List.getElem?_cons_succ] at h
      rw [List.set_cons_succ, running_cons, running_cons, ih h]
      omega

theorem running_lt {l : List Phase} {i : Nat} {p : Phase} (h : l[i]? = some p) (hp : p.isRunning = false) :
    running l < l.length := by
  induction l generalizing i with
  | nil => simp at h
  | cons a l ih =>
    cases i with
    | zero =>
      simp only [List.getElem?_cons_zero, Option.some.injEq] at h
      subst h
      rw [running_cons, hp]
      have : running l ≤ l.length := List.length_filter_le _ _
      simp; omega
    | succ i =>
      simp only [List.getElem?_cons_succ] at h
      have := ih h
      rw [running_cons, List.length_cons]
      split <;> omega

theorem running_pos {l : List Phase} {i : Nat} {p : Phase} (h : l[i]? = some p) (hp : p.isRunning = true) :
    0 < running l := by
  have : p ∈ l.filter Phase.isRunning := List.mem_filter.2 ⟨List.mem_of_getElem? h, hp⟩
  exact List.length_pos_of_mem this

/-- What a search that has read its limit waits. -/
def Phase.own : Phase → Option UInt64
  | .start => none
  | .limited o => some o
  | .read o _ => some o
  | .running o => some o

/-- The invariant of a request for `n` data with limit `t`. -/
structure Inv (t : UInt64) (n : Nat) (s : St) : Prop where
  len : s.threads.length = n
  field : ∃ k, s.timeout = cut t k ∧ k ≤ running s.threads ∧ (0 < running s.threads → 0 < k)
  held : ∀ (i : Nat) (o r : UInt64), s.threads[i]? = some (.read o r) → ∃ k, r = cut t k ∧ k ≤ running s.threads
  own : ∀ (i : Nat) (p : Phase) (o : UInt64), s.threads[i]? = some p → p.own = some o → ∃ k, o = cut t k ∧ k < n
  sent : ∀ v ∈ s.sent, ∃ k, v = cut t (k + 1) ∧ k < n

theorem inv_request (t : UInt64) (n : Nat) : Inv t n (request t n) := by
  have hr : running (List.replicate n Phase.start) = 0 := by
    unfold running
    simp [Phase.isRunning]
  refine ⟨by simp [request], ⟨0, rfl, Nat.zero_le _, ?_⟩, ?_, ?_, by simp [request]⟩
  · show 0 < running (List.replicate n .start) → _
    rw [hr]; exact id
  · intro i o r h
    simp only [request, List.getElem?_replicate] at h
    split at h <;> simp at h
  · intro i p o h ho
    simp only [request, List.getElem?_replicate] at h
    split at h
    · simp only [Option.some.injEq] at h; subst h; simp [Phase.own] at ho
    · simp at h

theorem inv_step {t : UInt64} {n : Nat} {s s' : St} {l : Label} (I : Inv t n s) (h : step s l = some s') : Inv t n s' := by
  obtain ⟨k0, hk0, hkr, hkp⟩ := I.field
  cases l with
  | limit i =>
    simp only [step] at h
    split at h
    · rename_i hi
      simp only [Option.some.injEq] at h
      subst h
      have hrun : running (s.threads.set i (.limited s.timeout)) = running s.threads := by
        rw [running_set hi rfl]; simp [Phase.isRunning]
      have hlt := running_lt hi rfl
      have hlen := I.len
      refine ⟨by simp [I.len], ⟨k0, hk0, by simp only [hrun]; exact hkr, by simp only [hrun]; exact hkp⟩, ?_, ?_, I.sent⟩
      · intro j o r hj
        simp only [List.getElem?_set] at hj
        simp only [hrun]
        split at hj
        · split at hj <;> simp at hj
        · exact I.held j o r hj
      · intro j p o hj ho
        simp only [List.getElem?_set] at hj
        split at hj
        · split at hj
          · simp only [Option.some.injEq] at hj
            subst hj
            simp only [Phase.own, Option.some.injEq] at ho
            exact ⟨k0, by rw [← ho, hk0], by omega⟩
          · simp at hj
        · exact I.own j p o hj ho
    · simp at h
  | read i =>
    simp only [step] at h
    split at h
    · rename_i own hi
      simp only [Option.some.injEq] at h
      subst h
      have hrun : running (s.threads.set i (.read own s.timeout)) = running s.threads := by
        rw [running_set hi rfl]; simp [Phase.isRunning]
      refine ⟨by simp [I.len], ⟨k0, hk0, by simp only [hrun]; exact hkr, by simp only [hrun]; exact hkp⟩, ?_, ?_, I.sent⟩
      · intro j o r hj
        simp only [List.getElem?_set] at hj
        simp only [hrun]
        split at hj
        · split at hj
          · simp only [Option.some.injEq, Phase.read.injEq] at hj
            exact ⟨k0, by rw [← hj.2, hk0], hkr⟩
          · simp at hj
        · exact I.held j o r hj
      · intro j p o hj ho
        simp only [List.getElem?_set] at hj
        split at hj
        · split at hj
          · simp only [Option.some.injEq] at hj
            subst hj
            exact I.own i _ o hi ho
          · simp at hj
        · exact I.own j p o hj ho
    · simp at h
  | write i =>
    simp only [step] at h
    split at h
    · rename_i own r hi
      simp only [Option.some.injEq] at h
      subst h
      have hrun : running (s.threads.set i (.running own)) = running s.threads + 1 := by
        rw [running_set hi rfl]; simp [Phase.isRunning]
      obtain ⟨k, hk, hk2⟩ := I.held i own r hi
      refine ⟨by simp [I.len], ⟨k + 1, by simp only [hk, cut], by simp only [hrun]; omega, fun _ => by omega⟩, ?_, ?_, I.sent⟩
      · intro j o r hj
        simp only [List.getElem?_set] at hj
        simp only [hrun]
        split at hj
        · split at hj <;> simp at hj
        · obtain ⟨k, h1, h2⟩ := I.held j o r hj
          exact ⟨k, h1, by omega⟩
      · intro j p o hj ho
        simp only [List.getElem?_set] at hj
        split at hj
        · split at hj
          · simp only [Option.some.injEq] at hj
            subst hj
            exact I.own i _ o hi ho
          · simp at hj
        · exact I.own j p o hj ho
    · simp at h
  | send i =>
    simp only [step] at h
    split at h
    · rename_i own hi
      simp only [Option.some.injEq] at h
      subst h
      refine ⟨I.len, ⟨k0, hk0, hkr, hkp⟩, I.held, I.own, ?_⟩
      intro v hv
      simp only [List.mem_append, List.mem_singleton] at hv
      rcases hv with hv | hv
      · exact I.sent v hv
      · have hpos := hkp (running_pos hi rfl)
        have hle : running s.threads ≤ s.threads.length := List.length_filter_le _ _
        have hlen := I.len
        refine ⟨k0 - 1, ?_, by omega⟩
        rw [hv, hk0, Nat.sub_add_cancel hpos]
    · simp at h

theorem inv_run {t : UInt64} {n : Nat} : ∀ (ls : List Label) (s s' : St), Inv t n s → run s ls = some s' → Inv t n s'
  | [], s, s', I, h => by simp only [run, Option.some.injEq] at h; exact h ▸ I
  | l :: ls, s, s', I, h => by
    simp only [run] at h
    cases hs : step s l with
    | none => rw [hs] at h; simp at h
    | some s1 => rw [hs] at h; exact inv_run ls s1 s' (inv_step I hs) h

/-- A request sent on `h` times: `Hop t h v` says that a node `h` hops away from the one that received limit `t` can receive
limit `v` for its part of the query.  Every node on the way may handle any number of data, in any interleaving. -/
inductive Hop (t : UInt64) : Nat → UInt64 → Prop where
  | here : Hop t 0 t
  | on {h : Nat} {u v : UInt64} {n : Nat} {ls : List Label} {s : St} :
      Hop t h u → run (request u n) ls = some s → v ∈ s.sent → Hop t (h + 1) v

theorem hop_le {t : UInt64} {h : Nat} {v : UInt64} (H : Hop t h v) : v ≤ cut t h := by
  induction H with
  | here => exact UInt64.le_refl t
  | @on h u v n ls s _ hr hv ih =>
    obtain ⟨k, hk, _⟩ := (inv_run ls _ s (inv_request u n) hr).sent v hv
    rw [hk]
    exact UInt64.le_trans (cut_succ_le u k) (shrink_mono ih)

theorem cut_exact {t : UInt64} (ht : t.toNat < 2^49) (k : Nat) : 10^k * (cut t k).toNat ≤ 9^k * t.toNat := by
  induction k with
  | zero => simp [cut]
  | succ k ih =>
    have hlt : (cut t k).toNat < 2^49 := Nat.lt_of_le_of_lt (UInt64.le_iff_toNat_le.1 (cut_le t k)) ht
    have e := shrink_exact hlt
    have hle : 10 * (shrink (cut t k)).toNat ≤ 9 * (cut t k).toNat := by rw [e]; exact Nat.mul_div_le _ _
    calc 10^(k+1) * (cut t (k+1)).toNat = 10^k * (10 * (shrink (cut t k)).toNat) := by
          rw [Nat.pow_succ, Nat.mul_assoc]; rfl
      _ ≤ 10^k * (9 * (cut t k).toNat) := Nat.mul_le_mul_left _ hle
      _ = 9 * (10^k * (cut t k).toNat) := by rw [Nat.mul_left_comm]
      _ ≤ 9 * (9^k * t.toNat) := Nat.mul_le_mul_left _ ih
      _ = 9^(k+1) * t.toNat := by rw [Nat.pow_succ, Nat.mul_comm (9^k) 9, Nat.mul_assoc]

end Tmo

open Tmo

/-- C104: every query sent on to a peer carries a time limit below the received one (and zero if that was zero), whatever
the number of data of the request and however their searches interleave. -/
theorem C104_smaller (t : UInt64) (n : Nat) (ls : List Label) (s : St) (h : run (request t n) ls = some s) (v : UInt64)
    (hv : v ∈ s.sent) : v ≤ shrink t ∧ (0 < t → v < t) ∧ (t = 0 → v = 0) := by
  obtain ⟨k, hk, _⟩ := (inv_run ls _ s (inv_request t n) h).sent v hv
  have hle : v ≤ shrink t := by rw [hk]; exact cut_succ_le t k
  refine ⟨hle, fun h0 => UInt64.lt_of_le_of_lt hle (shrink_lt h0), fun h0 => ?_⟩
  subst h0
  rw [shrink_zero] at hle
  exact UInt64.le_antisymm hle (UInt64.le_iff_toNat_le.2 (by simp))

/-- C104: `h` hops away the limit is at most nine tenths of nine tenths of … (`h` times) the limit of the user.  For limits
up to seventeen thousand years this is the real product; so beyond `h` hops with `9^h * t < 10^h` peers are not given any
time. -/
theorem C104_hops (t : UInt64) (ht : t.toNat < 2^49) (h : Nat) (v : UInt64) (H : Hop t h v) :
    10^h * v.toNat ≤ 9^h * t.toNat ∧ (9^h * t.toNat < 10^h → v = 0) := by
  have hle := UInt64.le_iff_toNat_le.1 (hop_le H)
  have h1 : 10^h * v.toNat ≤ 9^h * t.toNat := Nat.le_trans (Nat.mul_le_mul_left _ hle) (cut_exact ht h)
  refine ⟨h1, fun hlt => ?_⟩
  apply UInt64.toNat_inj.1
  show v.toNat = 0
  apply Nat.eq_zero_of_not_pos
  intro hp
  have : 10^h * 1 ≤ 10^h * v.toNat := Nat.mul_le_mul_left _ hp
  omega

/-- C104: the limit of a query that is sent on is close to nine tenths if the request has one datum. -/
theorem C104_one_datum (t : UInt64) (ls : List Label) (s : St) (h : run (request t 1) ls = some s) (v : UInt64)
    (hv : v ∈ s.sent) : v = shrink t ∧ (t.toNat < 2^49 → v.toNat = 9 * t.toNat / 10) := by
  obtain ⟨k, hk, hk1⟩ := (inv_run ls _ s (inv_request t 1) h).sent v hv
  have : k = 0 := by omega
  subst this
  have e : v = shrink t := hk
  exact ⟨e, fun ht => by rw [e]; exact shrink_exact ht⟩

/-- Three data, a limit of one second; the searches interleave, one update of the limit is lost. -/
example : (run (request 1000 3) [.limit 0, .limit 1, .read 0, .read 1, .write 0, .send 0, .limit 2, .read 2, .write 2, .send 2,
    .write 1, .send 1, .send 0]).map (fun s => (s.sent, s.threads.map Phase.own)) =
    some ([900, 810, 900, 900], [some 1000, some 1000, some 900]) := by decide +kernel

/-- C105: the search of each datum of a request waits for its results as long as the request says. -/
def C105_statement : Prop := ∀ (t : UInt64) (n : Nat) (ls : List Label) (s : St), run (request t n) ls = some s →
  ∀ (i : Nat) (p : Phase) (o : UInt64), s.threads[i]? = some p → p.own = some o → o = t

/-- C105 fails: the searches share the configuration, and each of them lowers the limit it has read; one that begins later
waits less. -/
theorem C105_fails : ¬ C105_statement := by
  intro h
  have hr : run (request 1000 2) [.limit 0, .read 0, .write 0, .limit 1] =
      some ⟨900, [.running 1000, .limited 900], []⟩ := by decide +kernel
  exact absurd (h 1000 2 _ _ hr 1 (.limited 900) 900 rfl rfl) (by decide)

/-- C105, exactly: a search waits `t` cut by nine tenths at most `n - 1` times, where `n` is the number of data. -/
theorem C105_partial (t : UInt64) (n : Nat) (ls : List Label) (s : St) (h : run (request t n) ls = some s) (i : Nat) (p : Phase)
    (o : UInt64) (hp : s.threads[i]? = some p) (ho : p.own = some o) :
    o ≤ t ∧ cut t (n - 1) ≤ o ∧ ∃ k, k < n ∧ o = cut t k := by
  obtain ⟨k, hk, hkn⟩ := (inv_run ls _ s (inv_request t n) h).own i p o hp ho
  subst hk
  exact ⟨cut_le t k, cut_anti t (by omega), k, hkn, rfl⟩

/-- C105 for a request with one datum. -/
theorem C105_one_datum (t : UInt64) (ls : List Label) (s : St) (h : run (request t 1) ls = some s) (i : Nat) (p : Phase)
    (o : UInt64) (hp : s.threads[i]? = some p) (ho : p.own = some o) : o = t := by
  obtain ⟨_, _, k, hk, e⟩ := C105_partial t 1 ls s h i p o hp ho
  have : k = 0 := by omega
  subst this
  exact e

/-- The searches one after the other, up to line 165. -/
def oneByOne : Nat → Nat → List Label
  | _, 0 => []
  | i, k + 1 => .limit i :: .read i :: .write i :: oneByOne (i + 1) k

namespace Tmo

theorem run_append (s : St) (xs ys : List Label) : run s (xs ++ ys) = (run s xs).bind fun s => run s ys := by
  induction xs generalizing s with
  | nil => rfl
  | cons x xs ih =>
    show (match step s x with | none => none | some s => run s (xs ++ ys)) = _
    simp only [run]
    cases step s x with
    | none => rfl
    | some s1 => exact ih s1

theorem oneByOne_run : ∀ (k : Nat) (done : List Phase) (t : UInt64) (sent : List UInt64) (rest : List Phase),
    ∃ l, l.length = k ∧ run ⟨t, done ++ List.replicate k .start ++ rest, sent⟩ (oneByOne done.length k) =
        some ⟨cut t k, done ++ l ++ rest, sent⟩ ∧
      ∀ j, j < k → l[j]? = some (.running (cut t j))
  | 0, done, t, sent, rest => ⟨[], rfl, by simp [oneByOne, run, cut], by intro j hj; omega⟩
  | k + 1, done, t, sent, rest => by
    obtain ⟨l, hlen, hr, hl⟩ := oneByOne_run k (done ++ [.running t]) (shrink t) sent rest
    refine ⟨.running t :: l, by simp [hlen], ?_, ?_⟩
    · have g : ∀ (p : Phase) (m : List Phase), (done ++ p :: m)[done.length]? = some p := by intro p m; simp
      have st : ∀ (p q : Phase) (m : List Phase), (done ++ p :: m).set done.length q = done ++ q :: m := by intro p q m; simp
      have e0 : done ++ List.replicate (k + 1) Phase.start ++ rest = done ++ .start :: (List.replicate k .start ++ rest) := by
        simp [List.replicate_succ]
      rw [e0]
      simp only [oneByOne, run, step, g, st]
      have hr' := hr
      simp only [List.length_append, List.length_cons, List.length_nil, List.append_assoc, List.cons_append, List.nil_append,
        Nat.zero_add] at hr'
      rw [hr', cut_shrink]
      simp
    · intro j hj
      cases j with
      | zero => rfl
      | succ j =>
        rw [List.getElem?_cons_succ, hl j (by omega), cut_shrink]

end Tmo

/-- C105, how bad it gets: if the searches run one after the other, the `j`-th (from 0) waits `t` cut `j` times. -/
theorem C105_worst (t : UInt64) (n : Nat) : ∃ s, run (request t n) (oneByOne 0 n) = some s ∧
    ∀ j, j < n → s.threads[j]? = some (.running (cut t j)) := by
  obtain ⟨l, hlen, hr, hl⟩ := oneByOne_run n [] t [] []
  simp only [List.nil_append, List.append_nil, List.length_nil] at hr
  exact ⟨_, hr, hl⟩

/-- Twenty data and a limit of one second: the last waits 131 milliseconds. -/
example : cut 1000 19 = 131 := by decide +kernel

/-! ### C106: from milliseconds to the timer -/

namespace Tmo

/-- data/search.go:162 and 255: `time.Duration(config.Timeout) * time.Millisecond`, in int64 nanoseconds. -/
def nanosOf (t : UInt64) : Int64 := t.toInt64 * 1000000

/-- `time.After(d)`: how long the timer runs; it fires at once if `d` is not positive. -/
def waits (t : UInt64) : Nat := (nanosOf t).toInt.toNat

end Tmo

/-- C106: a search with a time limit of `t` milliseconds waits at most and, if it has to, as long as that. -/
def C106_statement : Prop := ∀ t : UInt64, waits t = t.toNat * 1000000

/-- C106 fails: a limit of about 292 years or more overflows; the least such limit makes the timer fire at once. -/
theorem C106_fails : ¬ C106_statement := by
  intro h
  exact absurd (h 9223372036855) (by decide)

theorem C106_at_once : waits 9223372036855 = 0 ∧ waits (0 - 1) = 0 := by decide

/-- C106, exactly: the limits whose nanoseconds fit in an int64. -/
theorem C106_exact (t : UInt64) : waits t = t.toNat * 1000000 ↔ t.toNat * 1000000 < 2^63 := by
  have h64 := t.toNat_lt
  constructor
  · intro h
    have h1 : (nanosOf t).toInt < 2^63 := Int64.toInt_lt _
    unfold waits at h
    omega
  · intro h
    have h1 : t.toInt64.toInt = t.toNat := by
      rw [Store.toInt_toInt64, Int.bmod_eq_of_le] <;> omega
    unfold waits nanosOf
    rw [Int64.toInt_mul, h1]
    have h2 : Int.bmod ((t.toNat : Int) * Int64.toInt 1000000) (2^64) = t.toNat * 1000000 := by
      show Int.bmod (_ * 1000000) (2 ^ 64) = _
      rw [Int.bmod_eq_of_le] <;> omega
    rw [h2]
    omega

/-- C106 for limits below 292 years: longer limits never mean a shorter wait. -/
theorem C106_partial (t t' : UInt64) (h : t ≤ t') (h' : t'.toNat ≤ 9223372036854) : waits t = t.toNat * 1000000 ∧ waits t ≤ waits t' := by
  have hle := UInt64.le_iff_toNat_le.1 h
  have e := (C106_exact t).2 (by omega)
  have e' := (C106_exact t').2 (by omega)
  exact ⟨e, by omega⟩

/-- The default limit is one second. -/
example : waits 1000 = 1000000000 := by decide

end Veri
