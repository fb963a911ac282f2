import Verif.Annoy.Props
/-
C159: the memory and the file behind the nodes of the native index (annoyindex/annoylib.h:149-163, 907-992, 1197-1233), and what
happens if the operating system refuses something.  The functions of Annoy/Model.lean once more, with every access to a node checked
against the memory there is.
-/
set_option autoImplicit false
namespace Veri
namespace Annoy

/-- What the operating system answers while one index is built.  Answers are given by the size in bytes that is asked for. -/
structure Sys where
  /-- data/newsync.go:173 `ioutil.TempFile` succeeds -/
  temp : Bool
  /-- annoylib.h:935 `open` -/
  opened : Bool
  /-- annoylib.h:942, 152 `ftruncate` -/
  cut : Nat → Bool
  /-- annoylib.h:947 `mmap` -/
  mapped : Bool
  /-- annoylib.h:151 `mremap` -/
  moved : Nat → Bool
  /-- annoylib.h:1209 `realloc` -/
  heap : Nat → Bool
  /-- the number of bytes of the file that there is room for: growing a file by `ftruncate` takes no room, writing to it does -/
  room : Nat
  /-- the size of a page -/
  page : Nat

/-- The memory behind the nodes. -/
structure Buf where
  /-- `_on_disk` -/
  disk : Bool
  /-- `_nodes_size` -/
  size : Nat
  /-- the bytes that can be addressed at `_nodes`; none if that is NULL or MAP_FAILED -/
  map : Option Nat
  /-- the length of the file in bytes -/
  file : Nat
  deriving DecidableEq, Repr

/-- annoylib.h:889 `_s`, the size of a node. -/
def nodeSize (f : Nat) : Nat := 12 + 4 * f

/-- Node `i` can be read and written: its bytes are mapped and, for a file, no page of it is behind the end of the file (SIGBUS)
and there is room for it on the disk (SIGBUS again). -/
def Buf.has (S : Sys) (s : Nat) (b : Buf) (i : Nat) : Bool :=
  match b.map with
  | none => false
  | some m => decide ((i + 1) * s ≤ m) &&
      (!b.disk || (decide (((i + 1) * s - 1) / S.page * S.page < b.file) && decide ((i + 1) * s ≤ S.room)))

/-- annoylib.h:1231-1233 `_get`, and the access to the node. -/
def touch (S : Sys) (s : Nat) (b : Buf) (i : Nat) : Out Unit := if b.has S s i then .ok () else .crash

def touchAll (S : Sys) (s : Nat) (b : Buf) : List Nat → Out Unit
  | [] => .ok ()
  | i :: is => (touch S s b i).bind fun _ => touchAll S s b is

/-- annoylib.h:149-163 `remap_memory_and_truncate` on Linux: first the memory, then the file.  A result of `mremap` that is
MAP_FAILED is stored like any other, and `mremap` of NULL or of MAP_FAILED fails. -/
def remap (S : Sys) (b : Buf) (bytes : Nat) : Buf :=
  { b with
    map := match b.map with
      | none => none
      | some _ => if S.moved bytes then some bytes else none
    file := if S.cut bytes then bytes else b.file }

/-- annoylib.h:1198-1199: `(S)((_nodes_size + 1) * 1.3)`.  (The product is not an integer by rounding unless it is one, as the
numbers are below 2^31.) -/
def grow (size : Nat) : Nat := 13 * (size + 1) / 10

/-- annoylib.h:1197-1215 `_reallocate_nodes`.  The result of `remap_memory_and_truncate` is only used for a message; NULL from
`realloc` is written to by `memset`.  A factor above `int32_t` is a negative number on amd64, so that `n` is the larger one. -/
def reallocate (S : Sys) (s : Nat) (b : Buf) (n : Nat) : Out Buf :=
  let size := if grow b.size < 2^31 then max n (grow b.size) else n
  if b.disk then .ok { remap S b (s * size) with size := size }
  else if S.heap (s * size) then .ok { b with map := some (s * size), size := size }
  else .crash

/-- annoylib.h:1217-1229 `_allocate_size`. -/
def allocate (S : Sys) (s : Nat) (b : Buf) (n : Nat) : Out Buf :=
  if n > b.size then reallocate S s b n else .ok b

/-- data/newsync.go:170-178, annoylib.h:888-894, 933-952 `on_disk_build`, the result of which veri ignores: the memory before the
first item. -/
def newBuf (S : Sys) (s : Nat) : Buf :=
  if !S.temp then ⟨false, 0, none, 0⟩
  else if !S.opened then ⟨true, 0, none, 0⟩
  else if !S.cut s then ⟨true, 1, none, 0⟩
  else ⟨true, 1, if S.mapped then some s else none, s⟩

/-- annoylib.h:907-931 `add_item_impl`, for items `i`, `i + 1`, ... -/
def addItems (S : Sys) (s : Nat) : Nat → Nat → Buf → Out Buf
  | _, 0, b => .ok b
  | i, n + 1, b =>
    (allocate S s b (i + 1)).bind fun b =>
    (touch S s b i).bind fun _ =>
    addItems S s (i + 1) n b

section
variable (A : Lib) (S : Sys)

/-- annoylib.h:1242-1343 `_make_tree`, as `makeTree`. -/
def makeTreeB (f nItems : Nat) : Nat → Buf → List Node → Kiss → List Nat → Bool → Out (Nat × Buf × List Node × Kiss)
  | 0, _, _, _, _, _ => .running
  | fuel + 1, b, nodes, k, indices, isRoot =>
    if indices.length = 1 ∧ isRoot = false then
      (Out.ofOption indices[0]?).bind fun i => .ok (i, b, nodes, k)
    else
      let desc := if isRoot then nItems else indices.length
      if indices.length ≤ maxChildren f ∧ (isRoot = false ∨ nItems ≤ maxChildren f ∨ indices.length = 1) then
        (allocate S (nodeSize f) b (nodes.length + 1)).bind fun b =>
        (touch S (nodeSize f) b nodes.length).bind fun _ =>
        .ok (nodes.length, b, nodes ++ [⟨desc, indices ++ List.replicate (maxChildren f - indices.length) 0, 0, []⟩], k)
      else
        (touchAll S (nodeSize f) b indices).bind fun _ =>
        (attempts A nodes indices 2 k).bind fun (s, k) =>
        (balance A f indices fuel s k).bind fun (s, k) =>
        if s.l.length > s.r.length then
          (makeTreeB f nItems fuel b nodes k s.r false).bind fun (r, b, nodes, k) =>
          (makeTreeB f nItems fuel b nodes k s.l false).bind fun (l, b, nodes, k) =>
          (allocate S (nodeSize f) b (nodes.length + 1)).bind fun b =>
          (touch S (nodeSize f) b nodes.length).bind fun _ =>
          .ok (nodes.length, b, nodes ++ [⟨desc, [l, r], 0, s.v⟩], k)
        else
          (makeTreeB f nItems fuel b nodes k s.l false).bind fun (l, b, nodes, k) =>
          (makeTreeB f nItems fuel b nodes k s.r false).bind fun (r, b, nodes, k) =>
          (allocate S (nodeSize f) b (nodes.length + 1)).bind fun b =>
          (touch S (nodeSize f) b nodes.length).bind fun _ =>
          .ok (nodes.length, b, nodes ++ [⟨desc, [l, r], 0, s.v⟩], k)

/-- annoylib.h:1158-1194 `thread_build`, as `threadBuild`. -/
def threadBuildB (f nItems : Nat) : Nat → Buf → List Node → List Nat → Kiss → Out (Buf × List Node × List Nat)
  | 0, b, nodes, roots, _ => if nodes.length ≥ 2 * nItems then .ok (b, nodes, roots) else .running
  | fuel + 1, b, nodes, roots, k =>
    if nodes.length ≥ 2 * nItems then .ok (b, nodes, roots)
    else
      (touchAll S (nodeSize f) b (List.range nItems)).bind fun _ =>
      (makeTreeB A S f nItems fuel b nodes k (itemsOf nItems nodes) true).bind fun (root, b, nodes, k) =>
      threadBuildB f nItems fuel b nodes (roots ++ [root]) k

/-- annoylib.h:980-989: the end of `build`.  `_nodes_size` stays if the file cannot be shortened. -/
def finish (f : Nat) (b : Buf) (n : Nat) : Buf :=
  if b.disk then
    let b' := remap S b (nodeSize f * n)
    if S.cut (nodeSize f * n) then { b' with size := n } else b'
  else b

/-- data/newsync.go:165-209, annoylib.h:954-992: the items are added and the index is built, as `build`. -/
def buildB (f : Nat) (fuel : Nat) (vs : List (List F32)) : Out (Index × Buf) :=
  (addItems S (nodeSize f) 0 vs.length (newBuf S (nodeSize f))).bind fun b =>
  (threadBuildB A S f vs.length fuel b (vs.map (itemNode A)) [] Kiss.new).bind fun (b, nodes, roots) =>
  (allocate S (nodeSize f) b (nodes.length + roots.length)).bind fun b =>
  (touchAll S (nodeSize f) b (roots ++ (List.range roots.length).map (nodes.length + ·))).bind fun _ =>
  (Out.ofOption (roots.mapM fun i => nodes[i]?)).bind fun copies =>
  .ok (⟨f, vs.length, nodes ++ copies, roots⟩, finish S f b (nodes.length + roots.length))

end

/-- The operating system refuses nothing, and there is room for `n` nodes of this size. -/
structure Sys.Grants (S : Sys) (s n : Nat) : Prop where
  opened : S.opened = true
  cut : ∀ k, S.cut k = true
  mapped : S.mapped = true
  moved : ∀ k, S.moved k = true
  heap : ∀ k, S.heap k = true
  page : 0 < S.page
  room : s * n ≤ S.room

/-- The memory is there for all nodes up to `size`, at least `n` and at most a third more than are needed. -/
structure Buf.Fits (s : Nat) (b : Buf) (n : Nat) : Prop where
  map : b.size = 0 ∨ b.map = some (s * b.size)
  file : b.disk = true → b.file = s * b.size ∧ 1 ≤ b.size
  le : n ≤ b.size
  bound : b.size ≤ max 1 (13 * n / 10)

theorem Buf.Fits.has {S : Sys} {s N : Nat} (hS : S.Grants s N) {b : Buf} {n : Nat} (h : b.Fits s n) (hs : 0 < s) {i : Nat} (hi : i < n)
    (hN : n ≤ N) : b.has S s i = true := by
  have hsz : b.size ≠ 0 := by have := h.le; omega
  have hm := h.map.resolve_left hsz
  have h1 : (i + 1) * s ≤ s * b.size := by
    rw [Nat.mul_comm]
    exact Nat.mul_le_mul_left _ (by have := h.le; omega)
  have h2 : (i + 1) * s ≤ S.room := by
    refine Nat.le_trans ?_ hS.room
    rw [Nat.mul_comm]
    exact Nat.mul_le_mul_left _ (by omega)
  have h0 : 0 < (i + 1) * s := Nat.mul_pos (by omega) hs
  unfold Buf.has
  rw [hm]
  simp only [Bool.and_eq_true, decide_eq_true_eq, Bool.or_eq_true, Bool.not_eq_true']
  refine ⟨h1, ?_⟩
  cases hd : b.disk with
  | false => exact Or.inl rfl
  | true =>
    refine Or.inr ⟨?_, h2⟩
    rw [(h.file hd).1]
    have := Nat.div_mul_le_self ((i + 1) * s - 1) S.page
    omega

theorem touch_ok {S : Sys} {s N : Nat} (hS : S.Grants s N) {b : Buf} {n : Nat} (h : b.Fits s n) (hs : 0 < s) {i : Nat} (hi : i < n)
    (hN : n ≤ N) : touch S s b i = .ok () := by
  unfold touch
  rw [h.has hS hs hi hN]
  rfl

theorem touchAll_ok {S : Sys} {s N : Nat} (hS : S.Grants s N) {b : Buf} {n : Nat} (h : b.Fits s n) (hs : 0 < s) (hN : n ≤ N) {is : List Nat}
    (hi : ∀ i ∈ is, i < n) : touchAll S s b is = .ok () := by
  induction is with
  | nil => rfl
  | cons i is ih =>
    show (touch S s b i).bind _ = _
    rw [touch_ok hS h hs (hi i List.mem_cons_self) hN, Out.ok_bind]
    exact ih fun j hj => hi j (List.mem_cons_of_mem _ hj)

theorem allocate_ok {S : Sys} {s N : Nat} (hS : S.Grants s N) {b : Buf} {n m : Nat} (h : b.Fits s n) (hn : n ≤ m) :
    ∃ b', allocate S s b m = .ok b' ∧ b'.Fits s m ∧ b'.disk = b.disk := by
  unfold allocate
  by_cases hm : m > b.size
  · rw [if_pos hm]
    unfold reallocate
    simp only
    have hg : ∀ z, z = (if grow b.size < 2^31 then max m (grow b.size) else m) → m ≤ z ∧ z ≤ max 1 (13 * m / 10) := by
      intro z hz
      have : grow b.size ≤ 13 * m / 10 := by unfold grow; omega
      split at hz <;> omega
    generalize (if grow b.size < 2^31 then max m (grow b.size) else m) = z at *
    obtain ⟨hz1, hz2⟩ := hg z rfl
    by_cases hd : b.disk = true
    · rw [if_pos hd]
      have hm' := h.map.resolve_left (by have := (h.file hd).2; omega)
      refine ⟨_, rfl, ⟨?_, ?_, hz1, hz2⟩, rfl⟩
      · right
        simp only [remap, hm', hS.moved, if_true]
      · intro _
        simp only [remap, hS.cut, if_true]
        exact ⟨trivial, by omega⟩
    · rw [if_neg hd, hS.heap, if_pos rfl]
      exact ⟨_, rfl, ⟨Or.inr rfl, fun h' => absurd h' hd, hz1, hz2⟩, rfl⟩
  · rw [if_neg hm]
    refine ⟨b, rfl, ⟨h.map, h.file, by omega, ?_⟩, rfl⟩
    have := h.bound
    omega


section
variable {A : Lib} {S : Sys}

theorem makeTree_len {f nItems fuel : Nat} {nodes nodes' : List Node} {k k' : Kiss} {indices : List Nat} {isRoot : Bool} {i : Nat}
    (h : makeTree A f nItems fuel nodes k indices isRoot = .ok (i, nodes', k')) : nodes.length ≤ nodes'.length := by
  induction fuel generalizing nodes k indices isRoot i nodes' k' with
  | zero => cases h
  | succ fuel ih =>
    unfold makeTree at h
    split at h
    · obtain ⟨j, _, h⟩ := Out.bind_ok h
      cases h
      exact Nat.le_refl _
    · simp only at h
      split at h
      · cases h
        simp
      · obtain ⟨⟨s, k1⟩, _, h⟩ := Out.bind_ok h
        obtain ⟨⟨s', k2⟩, _, h⟩ := Out.bind_ok h
        simp only at h
        split at h
        · obtain ⟨⟨r, nodes1, k3⟩, hr, h⟩ := Out.bind_ok h
          obtain ⟨⟨l, nodes2, k4⟩, hl, h⟩ := Out.bind_ok h
          cases h
          have q1 : nodes.length ≤ nodes1.length := ih hr
          have q2 : nodes1.length ≤ nodes2.length := ih hl
          simp only [List.length_append]
          omega
        · obtain ⟨⟨l, nodes1, k3⟩, hl, h⟩ := Out.bind_ok h
          obtain ⟨⟨r, nodes2, k4⟩, hr, h⟩ := Out.bind_ok h
          cases h
          have q1 : nodes.length ≤ nodes1.length := ih hl
          have q2 : nodes1.length ≤ nodes2.length := ih hr
          simp only [List.length_append]
          omega

theorem mapM_lt {α : Type} {l : List α} {is : List Nat} {xs : List α} (h : (is.mapM fun j => l[j]?) = some xs) :
    (∀ j ∈ is, j < l.length) ∧ xs.length = is.length := by
  induction is generalizing xs with
  | nil => cases h; simp
  | cons i is ih =>
    rw [List.mapM_cons] at h
    cases hi : l[i]? with
    | none => rw [hi] at h; cases h
    | some x =>
      rw [hi] at h
      cases hm : (is.mapM fun j => l[j]?) with
      | none =>
        simp only [hm] at h
        cases h
      | some ys =>
        simp only [hm] at h
        cases h
        obtain ⟨h1, h2⟩ := ih hm
        refine ⟨?_, by simp [h2]⟩
        intro j hj
        rcases List.mem_cons.1 hj with rfl | hj
        · exact (List.getElem?_eq_some_iff.1 hi).1
        · exact h1 j hj

theorem attempts_lt {nodes : List Node} {indices : List Nat} {n : Nat} {k : Kiss} {r : Split × Kiss}
    (h : attempts A nodes indices n k = .ok r) : ∀ j ∈ indices, j < nodes.length := by
  unfold attempts at h
  obtain ⟨xs, h, _⟩ := Out.bind_ok h
  cases hm : (indices.mapM fun j => nodes[j]?) with
  | none => rw [hm] at h; cases h
  | some ys => exact (mapM_lt hm).1

theorem makeTreeB_ok {f nItems fuel N : Nat} (hS : S.Grants (nodeSize f) N) {b : Buf} {nodes nodes' : List Node} {k k' : Kiss}
    {indices : List Nat} {isRoot : Bool} {i : Nat} (hb : b.Fits (nodeSize f) nodes.length)
    (h : makeTree A f nItems fuel nodes k indices isRoot = .ok (i, nodes', k')) (hN : nodes'.length ≤ N) :
    ∃ b', makeTreeB A S f nItems fuel b nodes k indices isRoot = .ok (i, b', nodes', k') ∧ b'.Fits (nodeSize f) nodes'.length ∧
      b'.disk = b.disk := by
  have hpos : 0 < nodeSize f := by unfold nodeSize; omega
  -- a node is appended
  have app : ∀ {b : Buf} {nodes : List Node}, b.Fits (nodeSize f) nodes.length → nodes.length + 1 ≤ N →
      ∀ {α : Type} (g : Buf → Out α), ∃ b', ((allocate S (nodeSize f) b (nodes.length + 1)).bind fun b =>
        (touch S (nodeSize f) b nodes.length).bind fun _ => g b) = g b' ∧ b'.Fits (nodeSize f) (nodes.length + 1) ∧ b'.disk = b.disk := by
    intro b nodes hb hN α g
    obtain ⟨b', h1, h2, h3⟩ := allocate_ok hS hb (Nat.le_succ _)
    refine ⟨b', ?_, h2, h3⟩
    rw [h1, Out.ok_bind, touch_ok hS h2 hpos (Nat.lt_succ_self _) hN, Out.ok_bind]
  induction fuel generalizing b nodes k indices isRoot i nodes' k' with
  | zero => cases h
  | succ fuel ih =>
    unfold makeTree at h
    unfold makeTreeB
    by_cases h1 : indices.length = 1 ∧ isRoot = false
    · rw [if_pos h1] at h ⊢
      obtain ⟨j, hj, h⟩ := Out.bind_ok h
      cases h
      rw [hj, Out.ok_bind]
      exact ⟨b, rfl, hb, rfl⟩
    · rw [if_neg h1] at h ⊢
      simp only at h ⊢
      by_cases h2 : indices.length ≤ maxChildren f ∧ (isRoot = false ∨ nItems ≤ maxChildren f ∨ indices.length = 1)
      · rw [if_pos h2] at h ⊢
        cases h
        simp only [List.length_append, List.length_cons, List.length_nil] at hN
        obtain ⟨b', g1, g2, g3⟩ := app hb hN (fun b => Out.ok (nodes.length, b, nodes ++ [⟨(if isRoot then nItems else indices.length),
          indices ++ List.replicate (maxChildren f - indices.length) 0, 0, []⟩], k))
        exact ⟨b', g1, by simpa using g2, g3⟩
      · rw [if_neg h2] at h ⊢
        obtain ⟨⟨s, k1⟩, ha, h⟩ := Out.bind_ok h
        obtain ⟨⟨s', k2⟩, hbal, h⟩ := Out.bind_ok h
        simp only at h
        have hlt := attempts_lt ha
        have hmono : nodes.length ≤ N := by
          split at h
          · obtain ⟨⟨r, nodes1, k3⟩, hr, h⟩ := Out.bind_ok h
            obtain ⟨⟨l, nodes2, k4⟩, hl, h⟩ := Out.bind_ok h
            cases h
            have q1 : nodes.length ≤ nodes1.length := makeTree_len hr
            have q2 : nodes1.length ≤ nodes2.length := makeTree_len hl
            simp only [List.length_append] at hN
            omega
          · obtain ⟨⟨r, nodes1, k3⟩, hr, h⟩ := Out.bind_ok h
            obtain ⟨⟨l, nodes2, k4⟩, hl, h⟩ := Out.bind_ok h
            cases h
            have q1 : nodes.length ≤ nodes1.length := makeTree_len hr
            have q2 : nodes1.length ≤ nodes2.length := makeTree_len hl
            simp only [List.length_append] at hN
            omega
        rw [touchAll_ok hS hb hpos hmono hlt, Out.ok_bind, ha, Out.ok_bind, hbal, Out.ok_bind]
        simp only
        split at h
        · rename_i hc
          rw [if_pos hc]
          obtain ⟨⟨r, nodes1, k3⟩, hr, h⟩ := Out.bind_ok h
          obtain ⟨⟨l, nodes2, k4⟩, hl, h⟩ := Out.bind_ok h
          cases h
          simp only [List.length_append, List.length_cons, List.length_nil] at hN
          have hl1 : nodes1.length ≤ nodes2.length := makeTree_len hl
          obtain ⟨b1, g1, g2, g3⟩ := ih hb hr (by omega)
          obtain ⟨b2, g4, g5, g6⟩ := ih g2 hl (by omega)
          rw [g1, Out.ok_bind]
          simp only
          rw [g4, Out.ok_bind]
          obtain ⟨b3, e1, e2, e3⟩ := app g5 hN (fun b => Out.ok (nodes2.length, b, nodes2 ++ [⟨(if isRoot then nItems else indices.length),
            [l, r], 0, s'.v⟩], k4))
          exact ⟨b3, e1, by simpa using e2, by rw [e3, g6, g3]⟩
        · rename_i hc
          rw [if_neg hc]
          obtain ⟨⟨l, nodes1, k3⟩, hl, h⟩ := Out.bind_ok h
          obtain ⟨⟨r, nodes2, k4⟩, hr, h⟩ := Out.bind_ok h
          cases h
          simp only [List.length_append, List.length_cons, List.length_nil] at hN
          have hl1 : nodes1.length ≤ nodes2.length := makeTree_len hr
          obtain ⟨b1, g1, g2, g3⟩ := ih hb hl (by omega)
          obtain ⟨b2, g4, g5, g6⟩ := ih g2 hr (by omega)
          rw [g1, Out.ok_bind]
          simp only
          rw [g4, Out.ok_bind]
          obtain ⟨b3, e1, e2, e3⟩ := app g5 hN (fun b => Out.ok (nodes2.length, b, nodes2 ++ [⟨(if isRoot then nItems else indices.length),
            [l, r], 0, s'.v⟩], k4))
          exact ⟨b3, e1, by simpa using e2, by rw [e3, g6, g3]⟩

theorem threadBuild_len {f nItems fuel : Nat} {nodes nodes' : List Node} {roots roots' : List Nat} {k : Kiss}
    (h : threadBuild A f nItems fuel nodes roots k = .ok (nodes', roots')) : nodes.length ≤ nodes'.length := by
  induction fuel generalizing nodes roots k with
  | zero =>
    unfold threadBuild at h
    split at h
    · cases h; exact Nat.le_refl _
    · cases h
  | succ fuel ih =>
    unfold threadBuild at h
    split at h
    · cases h; exact Nat.le_refl _
    · obtain ⟨⟨r, nodes1, k1⟩, hm, h⟩ := Out.bind_ok h
      exact Nat.le_trans (makeTree_len hm) (ih h)

theorem threadBuildB_ok {f nItems fuel N : Nat} (hS : S.Grants (nodeSize f) N) {b : Buf} {nodes nodes' : List Node} {roots roots' : List Nat}
    {k : Kiss} (hb : b.Fits (nodeSize f) nodes.length) (hi : nItems ≤ nodes.length)
    (h : threadBuild A f nItems fuel nodes roots k = .ok (nodes', roots')) (hN : nodes'.length ≤ N) :
    ∃ b', threadBuildB A S f nItems fuel b nodes roots k = .ok (b', nodes', roots') ∧ b'.Fits (nodeSize f) nodes'.length ∧
      b'.disk = b.disk := by
  have hpos : 0 < nodeSize f := by unfold nodeSize; omega
  induction fuel generalizing b nodes roots k with
  | zero =>
    unfold threadBuild at h
    unfold threadBuildB
    split at h
    · rename_i hc
      cases h
      rw [if_pos hc]
      exact ⟨b, rfl, hb, rfl⟩
    · cases h
  | succ fuel ih =>
    have hlen := threadBuild_len h
    unfold threadBuild at h
    unfold threadBuildB
    split at h
    · rename_i hc
      cases h
      rw [if_pos hc]
      exact ⟨b, rfl, hb, rfl⟩
    · rename_i hc
      rw [if_neg hc]
      obtain ⟨⟨r, nodes1, k1⟩, hm, h⟩ := Out.bind_ok h
      have hl1 : nodes.length ≤ nodes1.length := makeTree_len hm
      have hl2 : nodes1.length ≤ nodes'.length := threadBuild_len h
      obtain ⟨b1, g1, g2, g3⟩ := makeTreeB_ok hS hb hm (by omega)
      rw [touchAll_ok hS hb hpos (by omega) (fun j hj => by have := List.mem_range.1 hj; omega), Out.ok_bind, g1, Out.ok_bind]
      obtain ⟨b2, e1, e2, e3⟩ := ih g2 (by omega) h
      exact ⟨b2, e1, e2, by rw [e3, g3]⟩

theorem addItems_ok {s N : Nat} (hs : 0 < s) (hS : S.Grants s N) {i n : Nat} {b : Buf} (hb : b.Fits s i) (hN : i + n ≤ N) :
    ∃ b', addItems S s i n b = .ok b' ∧ b'.Fits s (i + n) ∧ b'.disk = b.disk := by
  induction n generalizing i b with
  | zero => exact ⟨b, rfl, hb, rfl⟩
  | succ n ih =>
    unfold addItems
    obtain ⟨b1, h1, h2, h3⟩ := allocate_ok hS hb (Nat.le_succ i)
    rw [h1, Out.ok_bind, touch_ok hS h2 hs (Nat.lt_succ_self i) (by omega), Out.ok_bind]
    obtain ⟨b2, e1, e2, e3⟩ := ih (i := i + 1) h2 (by omega)
    exact ⟨b2, e1, by rw [show i + (n + 1) = i + 1 + n by omega]; exact e2, by rw [e3, h3]⟩

theorem newBuf_fits {s N : Nat} (hS : S.Grants s N) : (newBuf S s).Fits s 0 ∧ (newBuf S s).disk = S.temp := by
  unfold newBuf
  rw [hS.opened, hS.cut, hS.mapped]
  cases S.temp with
  | false => exact ⟨⟨Or.inl rfl, (fun h => by cases h), Nat.le_refl _, (by simp)⟩, rfl⟩
  | true => exact ⟨⟨Or.inr (by simp), (fun _ => by simp), (by simp), (by simp)⟩, rfl⟩

/-! ### Whatever is refused: the same index or a crash -/

theorem makeTreeB_sound {f nItems fuel : Nat} {b b' : Buf} {nodes nodes' : List Node} {k k' : Kiss} {indices : List Nat} {isRoot : Bool}
    {i : Nat} (h : makeTreeB A S f nItems fuel b nodes k indices isRoot = .ok (i, b', nodes', k')) :
    makeTree A f nItems fuel nodes k indices isRoot = .ok (i, nodes', k') := by
  induction fuel generalizing b nodes k indices isRoot i nodes' k' b' with
  | zero => cases h
  | succ fuel ih =>
    unfold makeTreeB at h
    unfold makeTree
    by_cases h1 : indices.length = 1 ∧ isRoot = false
    · rw [if_pos h1] at h ⊢
      obtain ⟨j, hj, h⟩ := Out.bind_ok h
      cases h
      rw [hj, Out.ok_bind]
    · rw [if_neg h1] at h ⊢
      simp only at h ⊢
      by_cases h2 : indices.length ≤ maxChildren f ∧ (isRoot = false ∨ nItems ≤ maxChildren f ∨ indices.length = 1)
      · rw [if_pos h2] at h ⊢
        obtain ⟨b1, _, h⟩ := Out.bind_ok h
        obtain ⟨_, _, h⟩ := Out.bind_ok h
        cases h
        rfl
      · rw [if_neg h2] at h ⊢
        obtain ⟨_, _, h⟩ := Out.bind_ok h
        obtain ⟨⟨s, k1⟩, ha, h⟩ := Out.bind_ok h
        obtain ⟨⟨s', k2⟩, hbal, h⟩ := Out.bind_ok h
        rw [ha, Out.ok_bind, hbal, Out.ok_bind]
        simp only at h ⊢
        split at h
        · rename_i hc
          rw [if_pos hc]
          obtain ⟨⟨r, b1, nodes1, k3⟩, hr, h⟩ := Out.bind_ok h
          obtain ⟨⟨l, b2, nodes2, k4⟩, hl, h⟩ := Out.bind_ok h
          obtain ⟨b3, _, h⟩ := Out.bind_ok h
          obtain ⟨_, _, h⟩ := Out.bind_ok h
          cases h
          rw [ih hr, Out.ok_bind]
          simp only
          rw [ih hl, Out.ok_bind]
        · rename_i hc
          rw [if_neg hc]
          obtain ⟨⟨r, b1, nodes1, k3⟩, hr, h⟩ := Out.bind_ok h
          obtain ⟨⟨l, b2, nodes2, k4⟩, hl, h⟩ := Out.bind_ok h
          obtain ⟨b3, _, h⟩ := Out.bind_ok h
          obtain ⟨_, _, h⟩ := Out.bind_ok h
          cases h
          rw [ih hr, Out.ok_bind]
          simp only
          rw [ih hl, Out.ok_bind]

theorem threadBuildB_sound {f nItems fuel : Nat} {b b' : Buf} {nodes nodes' : List Node} {roots roots' : List Nat} {k : Kiss}
    (h : threadBuildB A S f nItems fuel b nodes roots k = .ok (b', nodes', roots')) :
    threadBuild A f nItems fuel nodes roots k = .ok (nodes', roots') := by
  induction fuel generalizing b nodes roots k with
  | zero =>
    unfold threadBuildB at h
    unfold threadBuild
    split at h
    · rename_i hc
      cases h
      rw [if_pos hc]
    · cases h
  | succ fuel ih =>
    unfold threadBuildB at h
    unfold threadBuild
    split at h
    · rename_i hc
      cases h
      rw [if_pos hc]
    · rename_i hc
      rw [if_neg hc]
      obtain ⟨_, _, h⟩ := Out.bind_ok h
      obtain ⟨⟨r, b1, nodes1, k1⟩, hm, h⟩ := Out.bind_ok h
      rw [makeTreeB_sound hm, Out.ok_bind]
      exact ih h

theorem addItems_touched {s i n : Nat} {b b' : Buf} (h : addItems S s i (n + 1) b = .ok b') :
    ∃ (b1 : Buf) (j : Nat), i + n = j ∧ b1.has S s j = true ∧ (b.disk = true → b1.disk = true) := by
  have hdisk : ∀ {b b1 : Buf} {m : Nat}, allocate S s b m = .ok b1 → b.disk = true → b1.disk = true := by
    intro b b1 m h hd
    unfold allocate reallocate at h
    simp only [if_pos hd] at h
    split at h <;> cases h
    · exact hd
    · exact hd
  induction n generalizing i b with
  | zero =>
    unfold addItems at h
    obtain ⟨b1, ha, h⟩ := Out.bind_ok h
    obtain ⟨_, ht, h⟩ := Out.bind_ok h
    refine ⟨b1, i, rfl, ?_, hdisk ha⟩
    unfold touch at ht
    split at ht
    · assumption
    · cases ht
  | succ n ih =>
    unfold addItems at h
    obtain ⟨b1, ha, h⟩ := Out.bind_ok h
    obtain ⟨_, ht, h⟩ := Out.bind_ok h
    obtain ⟨b2, j, h1, h2, h3⟩ := ih h
    exact ⟨b2, j, by omega, h2, fun hd => h3 (hdisk ha hd)⟩

theorem addItems_cases (s i n : Nat) (b : Buf) : (∃ b', addItems S s i n b = .ok b') ∨ addItems S s i n b = .crash := by
  induction n generalizing i b with
  | zero => exact Or.inl ⟨b, rfl⟩
  | succ n ih =>
    unfold addItems
    have ha : (∃ b', allocate S s b (i + 1) = .ok b') ∨ allocate S s b (i + 1) = .crash := by
      unfold allocate reallocate
      simp only
      generalize (if grow b.size < 2^31 then max (i + 1) (grow b.size) else i + 1) = z
      cases S.heap (s * z) <;> cases b.disk <;> by_cases hi : i + 1 > b.size <;> first | rw [if_pos hi] | rw [if_neg hi]
      all_goals first | exact Or.inl ⟨_, rfl⟩ | exact Or.inr rfl
    rcases ha with ⟨b1, ha⟩ | ha
    · rw [ha, Out.ok_bind]
      unfold touch
      split
      · exact ih _ _
      · exact Or.inr rfl
    · rw [ha]; exact Or.inr rfl

end
end Annoy

open Annoy

/-- C159, full statement: an index that can be built is built, or given up, without a crash of the process, whatever the operating
system refuses. -/
def C159_refusals_statement : Prop :=
  ∀ (S : Sys) (f fuel : Nat) (vs : List (List F32)), 0 < S.page → vs.length < 2^29 → (∃ ix, build soft f fuel vs = .ok ix) →
    buildB soft S f fuel vs ≠ .crash

/-- C159: the process crashes for all vectors (at least one) if the file cannot be opened, or cannot be grown to one node, or cannot
be mapped, or if the disk has no room for the items; and without a file if there is no memory. -/
theorem C159_refused (A : Lib) (S : Sys) (f fuel : Nat) (vs : List (List F32)) (hne : vs ≠ []) :
    (S.temp = true → S.opened = false → buildB A S f fuel vs = .crash) ∧
    (S.temp = true → S.cut (12 + 4 * f) = false → buildB A S f fuel vs = .crash) ∧
    (S.temp = true → S.mapped = false → buildB A S f fuel vs = .crash) ∧
    (S.temp = true → S.room < (12 + 4 * f) * vs.length → buildB A S f fuel vs = .crash) ∧
    (S.temp = false → (∀ k, S.heap k = false) → buildB A S f fuel vs = .crash) := by
  obtain ⟨n, hn⟩ : ∃ n, vs.length = n + 1 := ⟨vs.length - 1, by have := List.length_pos_iff.2 hne; omega⟩
  -- a failure of the first items is one of the whole
  have key : (∀ b', addItems S (nodeSize f) 0 (n + 1) (newBuf S (nodeSize f)) ≠ .ok b') → buildB A S f fuel vs = .crash := by
    intro h
    unfold buildB
    rw [hn]
    rcases addItems_cases (S := S) (nodeSize f) 0 (n + 1) (newBuf S (nodeSize f)) with ⟨b', hb⟩ | hb
    · exact absurd hb (h b')
    · rw [hb]; rfl
  -- nothing is mapped, ever
  have lost : (newBuf S (nodeSize f)).disk = true → (newBuf S (nodeSize f)).map = none → buildB A S f fuel vs = .crash := by
    intro hd hm
    refine key fun b' h => ?_
    unfold addItems at h
    obtain ⟨b1, ha, h⟩ := Out.bind_ok h
    obtain ⟨_, ht, h⟩ := Out.bind_ok h
    have : b1.map = none := by
      unfold allocate reallocate at ha
      simp only [hd, if_true] at ha
      split at ha <;> cases ha
      · simp only [remap, hm]
      · exact hm
    unfold touch Buf.has at ht
    rw [this] at ht
    cases ht
  refine ⟨fun ht ho => lost ?_ ?_, fun ht hc => lost ?_ ?_, fun ht hm => lost ?_ ?_, fun ht hr => key fun b' h => ?_, fun ht hh => key fun b' h => ?_⟩
  · simp [newBuf, ht, ho]
  · simp [newBuf, ht, ho]
  · have : S.cut (nodeSize f) = false := hc
    unfold newBuf
    rw [ht, this]
    cases S.opened <;> rfl
  · have : S.cut (nodeSize f) = false := hc
    unfold newBuf
    rw [ht, this]
    cases S.opened <;> rfl
  · unfold newBuf
    rw [ht]
    cases S.opened <;> cases S.cut (nodeSize f) <;> rfl
  · unfold newBuf
    rw [ht, hm]
    cases S.opened <;> cases S.cut (nodeSize f) <;> rfl
  · obtain ⟨b1, j, h1, h2, h3⟩ := addItems_touched h
    have hd : b1.disk = true := h3 (by unfold newBuf; rw [ht]; cases S.opened <;> cases S.cut (nodeSize f) <;> rfl)
    unfold Buf.has at h2
    split at h2
    · cases h2
    · simp only [hd, Bool.not_true, Bool.false_or, Bool.and_eq_true, decide_eq_true_eq] at h2
      have : (j + 1) * nodeSize f ≤ S.room := h2.2.2
      rw [← h1, Nat.zero_add, Nat.mul_comm] at this
      rw [hn] at hr
      exact absurd this (by unfold nodeSize; omega)
  · unfold addItems at h
    obtain ⟨b1, ha, h⟩ := Out.bind_ok h
    unfold newBuf allocate reallocate at ha
    simp [ht, hh] at ha

/-- An operating system that grants everything but room on the disk, except for this many bytes. -/
def full (room : Nat) : Sys := ⟨true, true, fun _ => true, true, fun _ => true, fun _ => true, room, 4096⟩

set_option maxRecDepth 100000 in
/-- C159 is not empty, and its limits matter: five vectors of one component take 13 nodes of 16 bytes; they are built if there is room
for these, and not with one byte less. -/
theorem C159_example : (buildB soft (full 208) 1 6 (exVs 5 2)).bind (fun r => .ok (r.1.nodes.length, r.2)) = .ok (13, ⟨true, 13, some 208, 208⟩) ∧
    buildB soft (full 207) 1 6 (exVs 5 2) = .crash := by
  constructor <;> decide +kernel

/-- C159 fails: a full disk ends the process. -/
theorem C159_refusals_fails : ¬ C159_refusals_statement := by
  intro h
  refine h (full 0) 1 6 (exVs 5 2) (by decide) (by decide) ?_ ?_
  · obtain ⟨ix, h, _⟩ := Out.bind_ok C115_example
    exact ⟨ix, h⟩
  · exact (C159_refused soft (full 0) 1 6 (exVs 5 2) (by decide)).2.2.2.1 rfl (by decide)

/-- C159: whatever is refused, if the process does not crash then the index is the one that is built when nothing is refused. -/
theorem C159_same (A : Lib) (S : Sys) (f fuel : Nat) (vs : List (List F32)) (ix : Index) (b : Buf) (h : buildB A S f fuel vs = .ok (ix, b)) :
    build A f fuel vs = .ok ix := by
  unfold buildB at h
  obtain ⟨b1, _, h⟩ := Out.bind_ok h
  obtain ⟨⟨b2, nodes, roots⟩, ht, h⟩ := Out.bind_ok h
  obtain ⟨b3, _, h⟩ := Out.bind_ok h
  obtain ⟨_, _, h⟩ := Out.bind_ok h
  obtain ⟨copies, hc, h⟩ := Out.bind_ok h
  cases h
  unfold build
  rw [threadBuildB_sound ht, Out.ok_bind]
  simp only
  rw [hc, Out.ok_bind]

/-- C159, partial: if nothing is refused and the disk has room for four nodes for each item, the index is built within its memory:
without a crash, as if memory had no end, and every node of the result is there for searches.  At the end the file has exactly the
size of the nodes; memory without a file has at most a third more than that. -/
theorem C159_granted_partial (A : Lib) (hA : A.Ok) (S : Sys) (f fuel : Nat) (vs : List (List F32)) (hmax : vs.length < 2^29)
    (hS : S.Grants (12 + 4 * f) (4 * vs.length)) (ix : Index) (h : build A f fuel vs = .ok ix) :
    ∃ b, buildB A S f fuel vs = .ok (ix, b) ∧ (∀ i, i < ix.nodes.length → b.has S (12 + 4 * f) i = true) ∧
      (S.temp = true → b.map = some ((12 + 4 * f) * ix.nodes.length) ∧ b.file = (12 + 4 * f) * ix.nodes.length) ∧
      (S.temp = false → b.size ≤ max 1 (13 * ix.nodes.length / 10)) := by
  have hsz := (C115_size A hA f fuel vs (by omega) ix h).2.1
  have hpos : 0 < nodeSize f := by unfold nodeSize; omega
  have hS : S.Grants (nodeSize f) (4 * vs.length) := hS
  unfold build at h
  obtain ⟨⟨nodes, roots⟩, ht, h⟩ := Out.bind_ok h
  obtain ⟨copies, hc, h⟩ := Out.bind_ok h
  cases h
  simp only [List.length_append] at hsz ⊢
  have hcl : (∀ j ∈ roots, j < nodes.length) ∧ copies.length = roots.length := by
    cases hm : (roots.mapM fun j => nodes[j]?) with
    | none => simp only [hm] at hc; cases hc
    | some ys =>
      simp only [hm] at hc
      cases hc
      exact mapM_lt hm
  have hle : nodes.length + roots.length ≤ 4 * vs.length := by omega
  obtain ⟨f0, d0⟩ := newBuf_fits hS
  obtain ⟨b1, a1, a2, a3⟩ := addItems_ok hpos hS f0 (n := vs.length) (by omega)
  rw [Nat.zero_add] at a2
  obtain ⟨b2, c1, c2, c3⟩ := threadBuildB_ok (A := A) hS (nodes := vs.map (itemNode A)) (by simpa using a2) (by simp) ht (by omega)
  obtain ⟨b3, e1, e2, e3⟩ := allocate_ok hS c2 (Nat.le_add_right nodes.length roots.length)
  have hdisk : b3.disk = S.temp := by rw [e3, c3, a3, d0]
  refine ⟨finish S f b3 (nodes.length + roots.length), ?_, ?_⟩
  · unfold buildB
    rw [a1, Out.ok_bind, c1, Out.ok_bind]
    simp only
    rw [e1, Out.ok_bind, touchAll_ok hS e2 hpos hle ?_, Out.ok_bind, hc, Out.ok_bind]
    intro i hi
    rcases List.mem_append.1 hi with hi | hi
    · have := hcl.1 i hi
      omega
    · obtain ⟨j, hj, rfl⟩ := List.mem_map.1 hi
      have := List.mem_range.1 hj
      omega
  · rw [hcl.2]
    have hfin : finish S f b3 (nodes.length + roots.length) =
        if b3.disk then ⟨true, nodes.length + roots.length, some (nodeSize f * (nodes.length + roots.length)), nodeSize f * (nodes.length + roots.length)⟩
        else b3 := by
      unfold finish
      split
      · rename_i hd
        have hm := e2.map.resolve_left (by have := (e2.file hd).2; omega)
        simp only [hS.cut, if_true, remap, hm, hS.moved, hd]
      · rfl
    rw [hfin]
    cases ht : S.temp with
    | false =>
      rw [hdisk, ht]
      exact ⟨fun i hi => e2.has hS hpos hi hle, (fun h => by cases h), fun _ => e2.bound⟩
    | true =>
      rw [hdisk, ht]
      refine ⟨fun i hi => ?_, fun _ => ⟨rfl, rfl⟩, (fun h => by cases h)⟩
      refine Buf.Fits.has hS (n := nodes.length + roots.length) ⟨Or.inr rfl, fun _ => ⟨rfl, ?_⟩, Nat.le_refl _, ?_⟩ hpos hi hle
      · show 1 ≤ nodes.length + roots.length
        omega
      · show nodes.length + roots.length ≤ max 1 (13 * (nodes.length + roots.length) / 10)
        omega

end Veri
