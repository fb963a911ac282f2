import Verif.Vector.Rounding
/-
The native index: annoyindex/annoylib.h (`AnnoyIndex<int32_t, float, Angular, Kiss64Random, AnnoyIndexSingleThreadedBuildPolicy>`,
annoyindex/annoygomodule.h:70-77) and annoyindex/kissrandom.h.  Modelled: adding items, building the trees, searching.
`save` and `load` are in Annoy/Loaded.lean.  Not modelled: `unbuild` and the other metrics (veri does not use them).  The buffer behind the nodes and its growth
(`_nodes_size`, `_reallocate_nodes`; new nodes are zero) and the file behind it are in Annoy/Buffer.lean.  Indexes and sizes are natural numbers (`int32_t` in
the code, so fewer than 2^31 nodes).
-/
set_option autoImplicit false
namespace Veri

namespace F32
/-- Sign bit set? -/
def neg (x : F32) : Bool := decide (2^31 ≤ x.toNat)
/-- Position on the ordered line of non-NaN values: both zeros are 0. -/
def key (x : F32) : Int := if neg x then -(mag x : Int) else (mag x : Int)
/-- `a < b` on float32: false if either is NaN, otherwise by value. -/
def lt (a b : F32) : Bool := !isNaN a && !isNaN b && decide (key a < key b)
/-- `-x` -/
def negate (x : F32) : F32 := x ^^^ 0x80000000
end F32

namespace Annoy

/-- What a call of the library comes to: a value, a crash of the process, or no end within the given number of rounds. -/
inductive Out (α : Type) where
  | ok (a : α)
  | crash
  | running
  deriving Repr, DecidableEq

def Out.bind {α β : Type} (x : Out α) (g : α → Out β) : Out β :=
  match x with
  | .ok a => g a
  | .crash => .crash
  | .running => .running

def Out.ofOption {α : Type} : Option α → Out α
  | some a => .ok a
  | none => .crash

/-- annoyindex/kissrandom.h:67-72 `Kiss64Random`. -/
structure Kiss where
  x : UInt64
  y : UInt64
  z : UInt64
  c : UInt64
  deriving DecidableEq, Repr

/-- kissrandom.h:74, 80-85; annoylib.h:888, 1160 (`_seed + 0`). -/
def Kiss.new : Kiss := ⟨1234567890987654321, 362436362436362436, 1066149217761810, 123456123456123456⟩

/-- kissrandom.h:87-103 `kiss`. -/
def Kiss.kiss (k : Kiss) : UInt64 × Kiss :=
  let z := 6906969069 * k.z + 1234567
  let y := k.y ^^^ (k.y <<< 13)
  let y := y ^^^ (y >>> 17)
  let y := y ^^^ (y <<< 43)
  let t := (k.x <<< 58) + k.c
  let c := k.x >>> 6
  let x := k.x + t
  let c := c + (if x < t then 1 else 0)
  (x + y + z, ⟨x, y, z, c⟩)

/-- kissrandom.h:104-107 `flip`. -/
def Kiss.flip (k : Kiss) : Bool × Kiss := (decide (k.kiss.1 &&& 1 = 1), k.kiss.2)

/-- kissrandom.h:108-111 `index`; a division by zero ends the process. -/
def Kiss.index (k : Kiss) (n : Nat) : Out (Nat × Kiss) :=
  if n = 0 then .crash else .ok (k.kiss.1.toNat % n, k.kiss.2)

/-- The arithmetic the library is compiled to.  The theorems hold for any of these. -/
structure Lib where
  /-- annoylib.h:172-181, 213-233, 288-309 `dot` (the order of summation depends on the processor) -/
  dot : List F32 → List F32 → F32
  add : F32 → F32 → F32
  sub : F32 → F32 → F32
  mul : F32 → F32 → F32
  div : F32 → F32 → F32
  sqrt : F32 → F32
  /-- an `int` as a float -/
  ofNat : Nat → F32
  /-- annoylib.h:473: `2.0 - 2.0 * pq / sqrt(ppqq)` -/
  angle : F32 → F32 → F32
  /-- annoylib.h:1235-1240, 1300: `_split_imbalance(l, r) < 0.95` for lists of these lengths -/
  under95 : Nat → Nat → Bool
  /-- annoylib.h:1306: `_split_imbalance(l, r) > 0.99` -/
  over99 : Nat → Nat → Bool
  /-- annoylib.h:1396 `std::partial_sort` (of all elements) -/
  sort : List (F32 × Nat) → List (F32 × Nat)

/-- annoylib.h:442-463 `Node`: the number of descendants, and the children or the norm (these share their memory), and the vector
(which the list of children of a small node runs into).  A node without a list of children has `[]` here. -/
structure Node where
  desc : Nat
  children : List Nat
  norm : F32
  v : List F32
  deriving DecidableEq, Repr

/-- Memory the library has not written to. -/
def Node.zero : Node := ⟨0, [], 0, []⟩

/-- annoylib.h:889, 892: `_K`, from `_s = 12 + 4 * f` and the offset 4 of `children`. -/
def maxChildren (f : Nat) : Nat := f + 2

section
variable (A : Lib)

/-- annoylib.h:362-365 `get_norm`. -/
def getNorm (v : List F32) : F32 := A.sqrt (A.dot v v)

/-- annoylib.h:430-437 `normalize`. -/
def normalize (v : List F32) : List F32 :=
  let norm := getNorm A v
  if F32.lt 0 norm then v.map fun x => A.div x norm else v

/-- annoylib.h:464-475 `distance`, from the norms and vectors of the two nodes. -/
def distance (xn : F32) (xv : List F32) (yn : F32) (yv : List F32) : F32 :=
  let pp := if F32.isZero xn then A.dot xv xv else xn
  let qq := if F32.isZero yn then A.dot yv yv else yn
  let pq := A.dot xv yv
  let ppqq := A.mul pp qq
  if F32.lt 0 ppqq then A.angle pq ppqq else 0x40000000

/-- The state of `two_means`: two centroids with their norms and weights. -/
structure Means where
  p : List F32
  pn : F32
  q : List F32
  qn : F32
  ic : Nat
  jc : Nat

/-- annoylib.h:399-400, 404-405: the centroid moves towards a vector. -/
def towards (p : List F32) (ic : Nat) (v : List F32) (norm : F32) : List F32 :=
  List.zipWith (fun x y => A.div (A.add (A.mul x (A.ofNat ic)) (A.div y norm)) (A.ofNat (ic + 1))) p v

/-- annoylib.h:391-408, the body of the loop for the chosen node. -/
def meansStep (m : Means) (n : Node) : Means :=
  let di := A.mul (A.ofNat m.ic) (distance A m.pn m.p n.norm n.v)
  let dj := A.mul (A.ofNat m.jc) (distance A m.qn m.q n.norm n.v)
  let norm := getNorm A n.v
  if !F32.lt 0 norm then m
  else if F32.lt di dj then
    let p := towards A m.p m.ic n.v norm
    { m with p := p, pn := A.dot p p, ic := m.ic + 1 }
  else if F32.lt dj di then
    let q := towards A m.q m.jc n.v norm
    { m with q := q, qn := A.dot q q, jc := m.jc + 1 }
  else m

/-- annoylib.h:390-409: the loop. -/
def meansLoop (nodes : List Node) : Nat → Means → Kiss → Out (Means × Kiss)
  | 0, m, k => .ok (m, k)
  | l + 1, m, k =>
    (k.index nodes.length).bind fun (i, k) =>
    (Out.ofOption nodes[i]?).bind fun n =>
    meansLoop nodes l (meansStep A m n) k

/-- annoylib.h:367-410 `two_means`. -/
def twoMeans (nodes : List Node) (k : Kiss) : Out (Means × Kiss) :=
  (k.index nodes.length).bind fun (i, k) =>
  (k.index (nodes.length - 1)).bind fun (j, k) =>
  let j := if j ≥ i then j + 1 else j
  (Out.ofOption nodes[i]?).bind fun a =>
  (Out.ofOption nodes[j]?).bind fun b =>
  let p := normalize A a.v
  let q := normalize A b.v
  meansLoop A nodes 200 ⟨p, A.dot p p, q, A.dot q q, 1, 1⟩ k

/-- annoylib.h:488-496 `create_split`: the normal of the plane. -/
def createSplit (nodes : List Node) (k : Kiss) : Out (List F32 × Kiss) :=
  (twoMeans A nodes k).bind fun (m, k) => .ok (normalize A (List.zipWith A.sub m.p m.q), k)

/-- annoylib.h:480-487 `side`: true is the right side. -/
def side (n : List F32) (y : List F32) (k : Kiss) : Bool × Kiss :=
  let dot := A.dot n y
  if F32.isZero dot then k.flip else (F32.lt 0 dot, k)

/-- annoylib.h:1289-1298: the sides of the items for the plane `n`. -/
def sides (nodes : List Node) (n : List F32) : List Nat → Kiss → Out (List Nat × List Nat × Kiss)
  | [], k => .ok ([], [], k)
  | j :: js, k =>
    (Out.ofOption nodes[j]?).bind fun x =>
    let (s, k) := side A n x.v k
    (sides nodes n js k).bind fun (l, r, k) => .ok (if s then (l, j :: r, k) else (j :: l, r, k))

/-- annoylib.h:1318-1322: random sides. -/
def randomSides : List Nat → Kiss → List Nat × List Nat × Kiss
  | [], k => ([], [], k)
  | j :: js, k =>
    let (s, k) := k.flip
    let (l, r, k) := randomSides js k
    if s then (l, j :: r, k) else (j :: l, r, k)

/-- A split: the normal of the plane, the items on its left and right side. -/
structure Split where
  v : List F32
  l : List Nat
  r : List Nat

/-- annoylib.h:1284-1302: up to three planes (`n + 1` more). -/
def attempts (nodes : List Node) (indices : List Nat) : Nat → Kiss → Out (Split × Kiss)
  | n, k =>
    (Out.ofOption (indices.mapM fun j => nodes[j]?)).bind fun children =>
    (createSplit A children k).bind fun (v, k) =>
    (sides A nodes v indices k).bind fun (l, r, k) =>
    match n with
    | 0 => .ok (⟨v, l, r⟩, k)
    | n + 1 => if A.under95 l.length r.length then .ok (⟨v, l, r⟩, k) else attempts nodes indices n k

/-- annoylib.h:1306-1323: random sides until these are balanced. -/
def balance (f : Nat) (indices : List Nat) : Nat → Split → Kiss → Out (Split × Kiss)
  | 0, s, k => if A.over99 s.l.length s.r.length then .running else .ok (s, k)
  | fuel + 1, s, k =>
    if A.over99 s.l.length s.r.length then
      let (l, r, k) := randomSides indices k
      balance f indices fuel ⟨List.replicate f 0, l, r⟩ k
    else .ok (s, k)

/-- annoylib.h:1242-1343 `_make_tree`: the index of the root of the tree, the nodes, and the state of the generator.
`indices.length ≤ _K` in the second case, so the list of children fits into the node; what follows it is zero. -/
def makeTree (f nItems : Nat) : Nat → List Node → Kiss → List Nat → Bool → Out (Nat × List Node × Kiss)
  | 0, _, _, _, _ => .running
  | fuel + 1, nodes, k, indices, isRoot =>
    if indices.length = 1 ∧ isRoot = false then
      (Out.ofOption indices[0]?).bind fun i => .ok (i, nodes, k)
    else
      let desc := if isRoot then nItems else indices.length
      if indices.length ≤ maxChildren f ∧ (isRoot = false ∨ nItems ≤ maxChildren f ∨ indices.length = 1) then
        .ok (nodes.length, nodes ++ [⟨desc, indices ++ List.replicate (maxChildren f - indices.length) 0, 0, []⟩], k)
      else
        (attempts A nodes indices 2 k).bind fun (s, k) =>
        (balance A f indices fuel s k).bind fun (s, k) =>
        if s.l.length > s.r.length then
          (makeTree f nItems fuel nodes k s.r false).bind fun (b, nodes, k) =>
          (makeTree f nItems fuel nodes k s.l false).bind fun (a, nodes, k) =>
          .ok (nodes.length, nodes ++ [⟨desc, [a, b], 0, s.v⟩], k)
        else
          (makeTree f nItems fuel nodes k s.l false).bind fun (a, nodes, k) =>
          (makeTree f nItems fuel nodes k s.r false).bind fun (b, nodes, k) =>
          .ok (nodes.length, nodes ++ [⟨desc, [a, b], 0, s.v⟩], k)

/-- annoylib.h:1181-1185: the items there are. -/
def itemsOf (nItems : Nat) (nodes : List Node) : List Nat :=
  (List.range nItems).filter fun i => decide (1 ≤ (nodes[i]?.getD Node.zero).desc)

/-- annoylib.h:1158-1194 `thread_build` with `q == -1`. -/
def threadBuild (f nItems : Nat) : Nat → List Node → List Nat → Kiss → Out (List Node × List Nat)
  | 0, nodes, roots, _ => if nodes.length ≥ 2 * nItems then .ok (nodes, roots) else .running
  | fuel + 1, nodes, roots, k =>
    if nodes.length ≥ 2 * nItems then .ok (nodes, roots)
    else
      (makeTree A f nItems fuel nodes k (itemsOf nItems nodes) true).bind fun (root, nodes, k) =>
      threadBuild f nItems fuel nodes (roots ++ [root]) k

/-- A built index. -/
structure Index where
  f : Nat
  nItems : Nat
  nodes : List Node
  roots : List Nat
  deriving DecidableEq, Repr

/-- annoylib.h:908-931 `add_item_impl`: the node for an item. -/
def itemNode (v : List F32) : Node := ⟨1, [], A.dot v v, v⟩

/-- annoylib.h:954-992 `build(-1)`, for items 0, 1, ... with the given vectors of dimension `f`. -/
def build (f : Nat) (fuel : Nat) (vs : List (List F32)) : Out Index :=
  (threadBuild A f vs.length fuel (vs.map (itemNode A)) [] Kiss.new).bind fun (nodes, roots) =>
  (Out.ofOption (roots.mapM fun i => nodes[i]?)).bind fun copies =>
  .ok ⟨f, vs.length, nodes ++ copies, roots⟩

/-! ### Search -/

/-- `operator<` of `pair<float, int32_t>`. -/
def pairLt (a b : F32 × Nat) : Bool := F32.lt a.1 b.1 || (!F32.lt b.1 a.1 && decide (a.2 < b.2))

/-- annoylib.h:1351, 1363-1367: the greatest element of the queue, and the others. -/
def popMax : List (F32 × Nat) → Option ((F32 × Nat) × List (F32 × Nat))
  | [] => none
  | x :: xs =>
    match popMax xs with
    | none => some (x, [])
    | some (y, ys) => if pairLt x y then some (y, x :: ys) else some (x, y :: ys)

/-- annoylib.h:504-509 `pq_distance`. -/
def pqDistance (d margin : F32) (right : Bool) : F32 :=
  let margin := if right then margin else margin.negate
  if F32.lt margin d then margin else d

/-- annoylib.h:1361-1378: the loop over the queue.  A node outside the array, or a list of children longer than a node, would be a
read of foreign memory. -/
def collect (ix : Index) (v : List F32) (searchK : Nat) : Nat → List (F32 × Nat) → List Nat → Out (List Nat)
  | 0, q, nns => if nns.length < searchK ∧ q ≠ [] then .running else .ok nns
  | fuel + 1, q, nns =>
    if nns.length < searchK then
      match popMax q with
      | none => .ok nns
      | some ((d, i), q) =>
        (Out.ofOption ix.nodes[i]?).bind fun nd =>
        if nd.desc = 1 ∧ i < ix.nItems then collect ix v searchK fuel q (nns ++ [i])
        else if nd.desc ≤ maxChildren ix.f then
          if nd.desc ≤ nd.children.length then collect ix v searchK fuel q (nns ++ nd.children.take nd.desc)
          else .crash
        else
          match nd.children with
          | a :: b :: _ =>
            let margin := A.dot nd.v v
            collect ix v searchK fuel ((pqDistance d margin false, a) :: (pqDistance d margin true, b) :: q) nns
          | _ => .crash
    else .ok nns

/-- Insertion into a sorted list, for `std::sort` on integers. -/
def insertNat (x : Nat) : List Nat → List Nat
  | [] => [x]
  | y :: ys => if x ≤ y then x :: y :: ys else y :: insertNat x ys

/-- annoylib.h:1382: `std::sort(nns)`. -/
def sortNat : List Nat → List Nat
  | [] => []
  | x :: xs => insertNat x (sortNat xs)

/-- annoylib.h:1383-1392: the distances of the collected items, each once (`last` starts as -1). -/
def measure (ix : Index) (v : List F32) (norm : F32) : Option Nat → List Nat → Out (List (F32 × Nat))
  | _, [] => .ok []
  | last, j :: js =>
    if last = some j then measure ix v norm last js
    else
      (Out.ofOption ix.nodes[j]?).bind fun nd =>
      (measure ix v norm (some j) js).bind fun rest =>
      .ok (if nd.desc = 1 then (distance A norm v nd.norm nd.v, j) :: rest else rest)

/-- annoylib.h:1353-1355, 1362: the number of items to collect, from `int search_k`, given as the `uint32` it is made of
(data/search.go:318).  A negative number becomes a large `size_t`; -1 stands for `n * _roots.size()`, which is an `int` again. -/
def budget (limit : UInt32) (n roots : Nat) : Nat :=
  let size (k : Nat) : Nat := if k < 2^31 then k else 2^64 - 2^32 + k
  if limit = 0xFFFFFFFF then size (n * roots % 2^32) else size limit.toNat

/-- annoylib.h:1345-1402 `_get_all_nns`: the items found with their distances, nearest first.  `n` is the number asked for. -/
def getAllNns (fuel : Nat) (ix : Index) (v : List F32) (n : Nat) (limit : UInt32) : Out (List (F32 × Nat)) :=
  (collect A ix v (budget limit n ix.roots.length) fuel (ix.roots.map fun r => (0x7F800000, r)) []).bind fun nns =>
  (measure A ix v (A.dot v v) none (sortNat nns)).bind fun dist =>
  .ok ((A.sort dist).take n)

end

/-! ### A concrete instance -/

open SF in
/-- The float32 nearest to a float64. -/
def narrow (x : F64) : F32 :=
  let a := un64 x
  pk32 (if a.isNaN f64 then nanN f32 else if a.isInf f64 then ⟨a.neg, f32.inf⟩
    else ⟨a.neg, roundRat f32 (val f64 a.mag) (2^(f64.unit - f32.unit))⟩)

open SF in
/-- annoylib.h:1235-1240 `_split_imbalance`. -/
def imbalance (l r : Nat) : F64 :=
  let o := ops id
  let size (n : Nat) : F64 := o.widen (pk32 ⟨false, roundRat f32 (n * 2^f32.unit) 1⟩)
  let f := narrow (o.divD (size l) (o.addD (o.addD (size l) (size r)) 0x3E112E0BE826D695))
  let g := o.sub 0x3F800000 f
  o.widen (if F32.lt f g then g else f)

/-- Sequential sums, IEEE arithmetic, insertion sort. -/
def soft : Lib :=
  let o := SF.ops id
  { dot := fun x y => (List.zipWith o.mul x y).foldl o.add 0
    add := o.add
    sub := o.sub
    mul := o.mul
    div := o.div
    sqrt := o.sqrt
    ofNat := fun n => SF.pk32 ⟨false, SF.roundRat SF.f32 (n * 2^SF.f32.unit) 1⟩
    angle := fun pq ppqq =>
      narrow (o.subD 0x4000000000000000 (o.divD (o.mulD 0x4000000000000000 (o.widen pq)) (o.sqrtD (o.widen ppqq))))
    under95 := fun l r => F64.lt (imbalance l r) 0x3FEE666666666666
    over99 := fun l r => F64.lt 0x3FEFAE147AE147AE (imbalance l r)
    sort := fun l => l.foldr (fun x acc =>
      let rec ins : List (F32 × Nat) → List (F32 × Nat)
        | [] => [x]
        | y :: ys => if pairLt y x then y :: ins ys else x :: y :: ys
      ins acc) [] }

end Annoy
end Veri
