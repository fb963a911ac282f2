import Verif.Float
/-
The vector functions of data/util.go and the score-function table of data/search.go.

Arithmetic is a parameter: `FOps S D` gives the operations on `float32` (`S`) and `float64` (`D`) that
the code uses.  The rest of the model uses it at `S = F32`, `D = F64` (bit patterns); the statistics
theorems also use it with exact rational arithmetic.
-/
set_option autoImplicit false
namespace Veri

structure FOps (S D : Type) where
  /-- the float32 constant 0 -/
  zero : S
  /-- Go `x == 0` -/
  isZero : S → Bool
  add : S → S → S
  sub : S → S → S
  mul : S → S → S
  div : S → S → S
  /-- `acc + x*y` as compiled: Go may or may not fuse it (the spec allows both). -/
  madd : S → S → S → S
  /-- `math32.Pow(x, 2)` -/
  sq : S → S
  abs : S → S
  sqrt : S → S
  /-- `float64(x)` -/
  widen : S → D
  zeroD : D
  oneD : D
  negOneD : D
  piD : D
  ltD : D → D → Bool
  addD : D → D → D
  subD : D → D → D
  mulD : D → D → D
  divD : D → D → D
  sqrtD : D → D
  acosD : D → D
  /-- `float64(n)` of a non-negative integer -/
  ofNatD : Nat → D

namespace Vec
variable {S D : Type} (o : FOps S D)

/-- data/util.go:162-169 `euclideanDistance`, the loop; both slices have the same length at the only
call site (line 41), the model zips them. -/
def euclideanLoop (ret : S) : List S → List S → S
  | a :: as, b :: bs => euclideanLoop (o.add ret (o.sq (o.sub a b))) as bs
  | _, _ => ret

/-- data/util.go:162-169 `euclideanDistance`. -/
def euclideanDistance (arr1 arr2 : List S) : D :=
  o.sqrtD (o.widen (euclideanLoop o o.zero arr1 arr2))

/-- data/util.go:39-43 `VectorDistance`. -/
def vectorDistance (arr1 arr2 : List S) : D :=
  let minLen := min arr1.length arr2.length
  euclideanDistance o (arr1.take minLen) (arr2.take minLen)

/-- data/util.go:28-36 `QuickVectorDistance`, the loop over the first `minLen` positions. -/
def quickLoop (ret : D) : List S → List S → D
  | a :: as, b :: bs => quickLoop (o.addD ret (o.widen (o.abs (o.sub a b)))) as bs
  | _, _ => ret

/-- data/util.go:28-36 `QuickVectorDistance`. -/
def quickVectorDistance (arr1 arr2 : List S) : D := quickLoop o o.zeroD arr1 arr2

/-- data/util.go:46-53 `VectorMultiplication`, the loop. -/
def multLoop (ret : S) : List S → List S → S
  | a :: as, b :: bs => multLoop (o.madd ret a b) as bs
  | _, _ => ret

/-- data/util.go:46-53 `VectorMultiplication`. -/
def vectorMultiplication (arr1 arr2 : List S) : D := o.widen (multLoop o o.zero arr1 arr2)

/-- data/util.go:70-85: the accumulators of `CosineSimilarity`. -/
structure CosAcc (S : Type) where
  sumA : S
  s1 : S
  s2 : S

/-- data/util.go:73-77: the part of the loop where only `b` has components left. -/
def cosTail (c : CosAcc S) : List S → CosAcc S
  | [] => c
  | b :: bs => cosTail { c with s2 := o.madd c.s2 b b } bs

/-- data/util.go:73-85 `CosineSimilarity`, the loop over `k < max(len a, len b)`. -/
def cosLoop (c : CosAcc S) : List S → List S → CosAcc S
  | [], bs => cosTail o c bs
  | a :: as, [] => cosLoop { c with s1 := o.madd c.s1 a a } as []
  | a :: as, b :: bs =>
    cosLoop { sumA := o.madd c.sumA a b, s1 := o.madd c.s1 a a, s2 := o.madd c.s2 b b } as bs

/-- data/util.go:61-96 `CosineSimilarity`. -/
def cosineSimilarity (a b : List S) : D :=
  let c := cosLoop o ⟨o.zero, o.zero, o.zero⟩ a b
  if o.isZero c.s1 || o.isZero c.s2 then o.zeroD
  else
    let similarity := o.widen (o.div c.sumA (o.mul (o.sqrt c.s1) (o.sqrt c.s2)))
    if o.ltD o.oneD similarity then o.oneD
    else if o.ltD similarity o.negOneD then o.negOneD
    else similarity

/-- data/util.go:56-58 `AngularDistance`. -/
def angularDistance (a b : List S) : D :=
  o.subD o.oneD (o.divD (o.acosD (cosineSimilarity o a b)) o.piD)

/-- The functions the table of data/search.go:111-120 refers to. -/
inductive ScoreFn where
  | vectorDistance
  | cosineSimilarity
  | vectorMultiplication
  | quickVectorDistance
  | angularDistance
  deriving DecidableEq, Repr

def ScoreFn.eval : ScoreFn → List S → List S → D
  | .vectorDistance => Vec.vectorDistance o
  | .cosineSimilarity => Vec.cosineSimilarity o
  | .vectorMultiplication => Vec.vectorMultiplication o
  | .quickVectorDistance => Vec.quickVectorDistance o
  | .angularDistance => Vec.angularDistance o

/-- data/search.go:111-120 `vectorComparisonFuncs`. -/
def vectorComparisonFuncs : List (String × ScoreFn) :=
  [("AnnoyVectorDistance", .vectorDistance),
   ("AnnoyCosineSimilarity", .cosineSimilarity),
   ("VectorDistance", .vectorDistance),
   ("VectorMultiplication", .vectorMultiplication),
   ("CosineSimilarity", .cosineSimilarity),
   ("QuickVectorDistance", .quickVectorDistance),
   ("AngularDistance", .angularDistance),
   ("AnnoyAngularDistance", .angularDistance)]

/-- data/search.go:122-127 `GetVectorComparisonFunction`. -/
def getVectorComparisonFunction (name : String) : ScoreFn :=
  match vectorComparisonFuncs.lookup name with
  | some f => f
  | none => .vectorDistance

/-- data/search.go:136 `strings.HasPrefix(config.ScoreFuncName, "Annoy")`: index search requested. -/
def isAnnoyName (name : String) : Bool := "Annoy".toList.isPrefixOf name.toList

end Vec

/-- The laws of IEEE-754 arithmetic (round to nearest) that the vector theorems use.  `same` identifies
results that the program cannot tell apart (in hardware, NaNs with different payloads). -/
structure FLaws {S D : Type} (o : FOps S D) where
  same : S → S → Prop
  same_refl : ∀ x, same x x
  sq_sub : ∀ acc acc' a b, same acc acc' → same (o.add acc (o.sq (o.sub a b))) (o.add acc' (o.sq (o.sub b a)))
  abs_sub : ∀ a b, same (o.abs (o.sub a b)) (o.abs (o.sub b a))
  madd_comm : ∀ acc acc' a b, same acc acc' → same (o.madd acc a b) (o.madd acc' b a)
  madd_congr : ∀ acc acc' a b, same acc acc' → same (o.madd acc a b) (o.madd acc' a b)
  mul_comm_sqrt : ∀ n n' a a' b b', same n n' → same a a' → same b b' →
    same (o.div n (o.mul (o.sqrt a) (o.sqrt b))) (o.div n' (o.mul (o.sqrt b') (o.sqrt a')))
  widen_congr : ∀ a b, same a b → o.widen a = o.widen b
  isZero_congr : ∀ a b, same a b → o.isZero a = o.isZero b
  /-- finite numbers -/
  finite : S → Prop
  sub_self : ∀ x, finite x → o.sq (o.sub x x) = o.zero ∧ o.abs (o.sub x x) = o.zero
  add_zero_zero : o.add o.zero o.zero = o.zero
  sqrtD_zero : o.sqrtD (o.widen o.zero) = o.zeroD
  addD_zero : o.addD o.zeroD (o.widen o.zero) = o.zeroD
  isZero_zero : o.isZero o.zero = true
  /-- zeros contribute nothing -/
  madd_isZero : ∀ acc x, o.isZero acc = true → o.isZero x = true → o.isZero (o.madd acc x x) = true
  /-- values reachable by summing up from +0 (everything but -0) -/
  sum : S → Prop
  sum_zero : sum o.zero
  sum_madd : ∀ acc a b, sum acc → sum (o.madd acc a b)
  madd_zero : ∀ acc x, sum acc → finite x → o.madd acc x o.zero = acc ∧ o.madd acc o.zero x = acc
  finite_zero : finite o.zero

/-- The parts of the operations that are fixed on bit patterns. -/
structure Bits (o : FOps F32 F64) : Prop where
  zero : o.zero = 0
  isZero : ∀ x, o.isZero x = F32.isZero x
  zeroD : o.zeroD = 0
  oneD : o.oneD = F64.one
  negOneD : o.negOneD = F64.negOne
  ltD : ∀ a b, o.ltD a b = F64.lt a b

end Veri
