import Verif.Search.Model
/-
`EncodeSearchConfig`: the JSON text of a search configuration, which is half of the key of the query cache
(data/search.go:36-43, 151-158).  `encoding/json` is modelled for the shape of this struct; the escaping of strings is
left open (`JsonStr`).
-/
set_option autoImplicit false
namespace Veri.Json

/-- How `encoding/json` writes a string: anything that starts with a quote and can be told from what follows.
(The real encoder has this for valid UTF-8, which protobuf guarantees for `string` fields.) -/
structure JsonStr where
  enc : String → Bytes
  quote : ∀ s, ∃ t, enc s = 0x22 :: t
  inj : ∀ a b r s, enc a ++ r = enc b ++ s → a = b ∧ r = s

/-- Decimal digits of `n`, for `n < 10 ^ (fuel + 1)` (`strconv.AppendUint`). -/
def dec : Nat → Nat → Bytes
  | 0, n => [UInt8.ofNat (48 + n % 10)]
  | f + 1, n => if n < 10 then [UInt8.ofNat (48 + n)] else dec f (n / 10) ++ [UInt8.ofNat (48 + n % 10)]

/-- The kinds of fields of `pb.SearchConfig`. -/
inductive JVal where
  | str (s : String)
  | num (n : Nat)
  | bool (b : Bool)
  | strs (l : List String)
  deriving DecidableEq

namespace JVal

/-- `omitempty`. -/
def isZero : JVal → Bool
  | str s => s == ""
  | num n => n == 0
  | bool b => !b
  | strs l => l.isEmpty

def encTail (J : JsonStr) : List String → Bytes
  | [] => [0x5D]
  | s :: r => 0x2C :: (J.enc s ++ encTail J r)

def enc (J : JsonStr) : JVal → Bytes
  | str s => J.enc s
  | num n => dec 20 n
  | bool true => [0x74, 0x72, 0x75, 0x65]
  | bool false => [0x66, 0x61, 0x6C, 0x73, 0x65]
  | strs [] => [0x5B, 0x5D]
  | strs (s :: r) => 0x5B :: (J.enc s ++ encTail J r)

def SameKind : JVal → JVal → Prop
  | str _, str _ => True
  | num n, num m => n < 2 ^ 64 ∧ m < 2 ^ 64
  | bool _, bool _ => True
  | strs _, strs _ => True
  | _, _ => False

end JVal

/-- encoding/json `structEncoder.encode`: fields with `omitempty`; `next` is `{` before the first field written and `,`
after. -/
def encFields (J : JsonStr) (next : UInt8) : List (Bytes × JVal) → Bytes
  | [] => if next = 0x7B then [0x7B, 0x7D] else [0x7D]
  | (n, v) :: r =>
    if v.isZero then encFields J next r
    else next :: 0x22 :: (n ++ (0x22 :: 0x3A :: (v.enc J ++ encFields J 0x2C r)))

def name (s : String) : Bytes := s.toList.map fun c => UInt8.ofNat c.toNat

/-- The exported fields with their JSON names, in order (veriservice/veriservice.pb.go:101-113). -/
def fields (c : SearchConfig) : List (Bytes × JVal) :=
  [(name "scoreFuncName", .str c.scoreFuncName), (name "higherIsBetter", .bool c.higherIsBetter),
   (name "timestamp", .num c.timestamp.toNat), (name "timeout", .num c.timeout.toNat),
   (name "limit", .num c.limit.toNat), (name "cacheDuration", .num c.cacheDuration.toNat),
   (name "dataName", .str c.dataName), (name "groupLimit", .num c.groupLimit.toNat),
   (name "groupScoreFuncName", .str c.groupScoreFuncName), (name "filters", .strs c.filters),
   (name "resultLimit", .num c.resultLimit.toNat), (name "groupFilters", .strs c.groupFilters),
   (name "uuid", .str c.uuid)]

/-- data/search.go:36-43 `EncodeSearchConfig`. -/
def encodeSearchConfig (J : JsonStr) (sc : SearchConfig) : Bytes :=
  let config := { sc with uuid := "" }
  encFields J 0x7B (fields config)

/-- data/search.go:151-158 `GetSearchKey`; `EncodeToString` is the identity on bytes (util/util.go:9-14).  `none`: nil
dereference of a missing datum key.  The error branch is unreachable: `MarshalKey` returns no errors. -/
def getSearchKey (J : JsonStr) (datum : Datum) (config : SearchConfig) : Option Bytes :=
  match getKeyAsBytes datum with
  | none => none
  | some keyByte => some (keyByte ++ encodeSearchConfig J config)

/-! ### Injectivity -/

def isDigit (b : UInt8) : Bool := decide (48 ≤ b.toNat) && decide (b.toNat ≤ 57)

theorem dec_digits : ∀ (f n : Nat), ∀ b ∈ dec f n, isDigit b = true := by
  have key : ∀ k, k < 10 → isDigit (UInt8.ofNat (48 + k)) = true := by decide
  intro f
  induction f with
  | zero =>
    intro n b hb
    simp only [dec, List.mem_singleton] at hb
    subst hb
    exact key _ (Nat.mod_lt _ (by omega))
  | succ f ih =>
    intro n b hb
    simp only [dec] at hb
    split at hb
    · simp only [List.mem_singleton] at hb
      subst hb
      exact key _ (by assumption)
    · rcases List.mem_append.1 hb with h | h
      · exact ih _ b h
      · simp only [List.mem_singleton] at h
        subst h
        exact key _ (Nat.mod_lt _ (by omega))

def value (bs : Bytes) : Nat := bs.foldl (fun a b => 10 * a + (b.toNat - 48)) 0

theorem dec_value : ∀ (f n : Nat), n < 10 ^ (f + 1) → value (dec f n) = n := by
  have key : ∀ k, k < 10 → (UInt8.ofNat (48 + k)).toNat - 48 = k := by decide
  intro f
  induction f with
  | zero =>
    intro n hn
    simp only [dec, value, List.foldl]
    rw [key _ (Nat.mod_lt _ (by omega))]
    omega
  | succ f ih =>
    intro n hn
    simp only [dec]
    split
    · simp only [value, List.foldl]
      rw [key _ (by assumption)]
      omega
    · have h1 := ih (n / 10) (by
        rw [Nat.pow_succ] at hn
        exact Nat.div_lt_of_lt_mul (by omega))
      simp only [value, List.foldl_append, List.foldl] at h1 ⊢
      rw [h1, key _ (Nat.mod_lt _ (by omega))]
      omega

theorem dec_inj {n m : Nat} (hn : n < 2 ^ 64) (hm : m < 2 ^ 64) (h : dec 20 n = dec 20 m) : n = m := by
  have := dec_value 20 n (Nat.lt_trans hn (by decide))
  rw [h, dec_value 20 m (Nat.lt_trans hm (by decide))] at this
  exact this.symm

/-- Digits end where something else starts. -/
theorem digits_split : ∀ (a b r s : Bytes), (∀ x ∈ a, isDigit x = true) → (∀ x ∈ b, isDigit x = true) →
    (∀ x ∈ r.head?, isDigit x = false) → (∀ x ∈ s.head?, isDigit x = false) → a ++ r = b ++ s → a = b ∧ r = s := by
  intro a
  induction a with
  | nil =>
    intro b r s _ hb hr _ h
    cases b with
    | nil => exact ⟨rfl, h⟩
    | cons y b =>
      simp only [List.nil_append, List.cons_append] at h
      subst h
      have h1 := hr y (by simp)
      rw [hb y List.mem_cons_self] at h1
      cases h1
  | cons x a ih =>
    intro b r s ha hb hr hs h
    cases b with
    | nil =>
      simp only [List.nil_append, List.cons_append] at h
      subst h
      have h1 := hs x (by simp)
      rw [ha x List.mem_cons_self] at h1
      cases h1
    | cons y b =>
      simp only [List.cons_append, List.cons.injEq] at h
      obtain ⟨h1, h2⟩ := ih b r s (fun x hx => ha x (List.mem_cons_of_mem _ hx))
        (fun x hx => hb x (List.mem_cons_of_mem _ hx)) hr hs h.2
      exact ⟨by rw [h.1, h1], h2⟩

theorem encTail_inj (J : JsonStr) : ∀ (a b : List String) (r s : Bytes),
    JVal.encTail J a ++ r = JVal.encTail J b ++ s → a = b ∧ r = s := by
  intro a
  induction a with
  | nil =>
    intro b r s h
    cases b with
    | nil => simpa [JVal.encTail] using h
    | cons y b => simp [JVal.encTail] at h
  | cons x a ih =>
    intro b r s h
    cases b with
    | nil => simp [JVal.encTail] at h
    | cons y b =>
      simp only [JVal.encTail, List.cons_append, List.cons.injEq, true_and, List.append_assoc] at h
      obtain ⟨h1, h2⟩ := J.inj _ _ _ _ h
      obtain ⟨h3, h4⟩ := ih b r s h2
      exact ⟨by rw [h1, h3], h4⟩

theorem enc_inj (J : JsonStr) {v w : JVal} (hk : v.SameKind w) {r s : Bytes}
    (hr : ∀ x ∈ r.head?, isDigit x = false) (hs : ∀ x ∈ s.head?, isDigit x = false)
    (h : v.enc J ++ r = w.enc J ++ s) : v = w ∧ r = s := by
  cases v with
  | str a =>
    cases w with
    | str b =>
      obtain ⟨h1, h2⟩ := J.inj _ _ _ _ h
      exact ⟨by rw [h1], h2⟩
    | _ => exact absurd hk id
  | num a =>
    cases w with
    | num b =>
      obtain ⟨h1, h2⟩ := digits_split _ _ _ _ (dec_digits 20 a) (dec_digits 20 b) hr hs h
      exact ⟨by rw [dec_inj hk.1 hk.2 h1], h2⟩
    | _ => exact absurd hk id
  | bool a =>
    cases w with
    | bool b => cases a <;> cases b <;> simp_all [JVal.enc]
    | _ => exact absurd hk id
  | strs a =>
    cases w with
    | strs b =>
      cases a with
      | nil =>
        cases b with
        | nil => exact ⟨rfl, by simpa [JVal.enc] using h⟩
        | cons y b =>
          obtain ⟨t, ht⟩ := J.quote y
          simp [JVal.enc, ht] at h
      | cons x a =>
        cases b with
        | nil =>
          obtain ⟨t, ht⟩ := J.quote x
          simp [JVal.enc, ht] at h
        | cons y b =>
          simp only [JVal.enc, List.cons_append, List.cons.injEq, true_and, List.append_assoc] at h
          obtain ⟨h1, h2⟩ := J.inj _ _ _ _ h
          obtain ⟨h3, h4⟩ := encTail_inj J _ _ _ _ h2
          exact ⟨by rw [h1, h3], h4⟩
    | _ => exact absurd hk id

theorem quoted_inj : ∀ (n m r s : Bytes), (0x22 : UInt8) ∉ n → (0x22 : UInt8) ∉ m → n ++ 0x22 :: r = m ++ 0x22 :: s →
    n = m ∧ r = s := by
  intro n
  induction n with
  | nil =>
    intro m r s _ hm h
    cases m with
    | nil => simpa using h
    | cons y m =>
      simp only [List.nil_append, List.cons_append, List.cons.injEq] at h
      exact absurd (by rw [h.1]; exact List.mem_cons_self) hm
  | cons x n ih =>
    intro m r s hn hm h
    cases m with
    | nil =>
      simp only [List.nil_append, List.cons_append, List.cons.injEq] at h
      exact absurd (by rw [h.1]; exact List.mem_cons_self) hn
    | cons y m =>
      simp only [List.cons_append, List.cons.injEq] at h
      obtain ⟨h1, h2⟩ := ih m r s (fun hh => hn (List.mem_cons_of_mem _ hh)) (fun hh => hm (List.mem_cons_of_mem _ hh)) h.2
      exact ⟨by rw [h.1, h1], h2⟩

theorem encFields_head (J : JsonStr) : ∀ (fs : List (Bytes × JVal)), ∀ x ∈ (encFields J 0x2C fs).head?,
    isDigit x = false := by
  intro fs
  induction fs with
  | nil => intro x hx; simp [encFields] at hx; subst hx; rfl
  | cons f fs ih =>
    obtain ⟨n, v⟩ := f
    intro x hx
    simp only [encFields] at hx
    split at hx
    · exact ih x hx
    · simp at hx; subst hx; rfl

/-- What the text of some fields starts with. -/
theorem encFields_start (J : JsonStr) (next : UInt8) : ∀ (fs : List (Bytes × JVal)),
    encFields J next fs = (if next = 0x7B then [0x7B, 0x7D] else [0x7D]) ∨
    ∃ m ∈ fs.map (·.1), ∃ r, encFields J next fs = next :: 0x22 :: (m ++ (0x22 :: r)) := by
  intro fs
  induction fs with
  | nil => exact Or.inl rfl
  | cons f fs ih =>
    obtain ⟨n, v⟩ := f
    simp only [encFields]
    split
    · rcases ih with h | ⟨m, hm, r, h⟩
      · exact Or.inl h
      · exact Or.inr ⟨m, List.mem_cons_of_mem _ hm, r, h⟩
    · exact Or.inr ⟨n, List.mem_cons_self, _, rfl⟩

theorem zero_unique {v w : JVal} (hk : v.SameKind w) (hv : v.isZero = true) (hw : w.isZero = true) : v = w := by
  cases v <;> cases w <;> simp_all [JVal.SameKind, JVal.isZero]

/-- A written field cannot be mistaken for the text of other fields. -/
theorem no_confusion (J : JsonStr) {next : UInt8} (hnext : next = 0x7B ∨ next = 0x2C) (n t : Bytes)
    (hq : (0x22 : UInt8) ∉ n) (fs : List (Bytes × JVal)) (hfq : ∀ m ∈ fs.map (·.1), (0x22 : UInt8) ∉ m)
    (hn : n ∉ fs.map (·.1)) : next :: 0x22 :: (n ++ (0x22 :: t)) ≠ encFields J next fs := by
  intro h
  rcases encFields_start J next fs with h1 | ⟨m, hm, r, h1⟩
  · rw [h1] at h
    rcases hnext with rfl | rfl <;> simp at h
  · rw [h1] at h
    simp only [List.cons.injEq, true_and] at h
    obtain ⟨h2, _⟩ := quoted_inj _ _ _ _ hq (hfq m hm) h
    exact hn (by rw [h2]; exact hm)

/-- Two lists of fields with the same names and kinds. -/
inductive Same : List (Bytes × JVal) → List (Bytes × JVal) → Prop
  | nil : Same [] []
  | cons (n : Bytes) (v w : JVal) (fs gs : List (Bytes × JVal)) : v.SameKind w → Same fs gs →
      Same ((n, v) :: fs) ((n, w) :: gs)

theorem Same.names {fs gs : List (Bytes × JVal)} (h : Same fs gs) : fs.map (·.1) = gs.map (·.1) := by
  induction h with
  | nil => rfl
  | cons n v w fs gs _ _ ih => simp [ih]

theorem encFields_inj (J : JsonStr) {fs gs : List (Bytes × JVal)} (h : Same fs gs) : ∀ (next : UInt8),
    next = 0x7B ∨ next = 0x2C → (∀ m ∈ fs.map (·.1), (0x22 : UInt8) ∉ m) → (fs.map (·.1)).Nodup →
    encFields J next fs = encFields J next gs → fs = gs := by
  induction h with
  | nil => intros; rfl
  | cons n v w fs gs hk hs ih =>
    intro next hnext hq hnd heq
    have hq' : ∀ m ∈ fs.map (·.1), (0x22 : UInt8) ∉ m := fun m hm => hq m (List.mem_cons_of_mem _ hm)
    have hqn : (0x22 : UInt8) ∉ n := hq n List.mem_cons_self
    obtain ⟨hn, hnd'⟩ := List.nodup_cons.1 hnd
    simp only [encFields] at heq
    cases hv : v.isZero <;> cases hw : w.isZero <;> rw [hv, hw] at heq <;>
      simp only [if_true, if_false, Bool.false_eq_true] at heq
    · simp only [List.cons.injEq, true_and] at heq
      obtain ⟨_, h2⟩ := quoted_inj _ _ _ _ hqn hqn heq
      simp only [List.cons.injEq, true_and] at h2
      obtain ⟨h3, h4⟩ := enc_inj J hk (encFields_head J fs) (encFields_head J gs) h2
      rw [h3, ih 0x2C (Or.inr rfl) hq' hnd' h4]
    · exact absurd heq (no_confusion J hnext n _ hqn gs (hs.names ▸ hq') (hs.names ▸ hn))
    · exact absurd heq.symm (no_confusion J hnext n _ hqn fs hq' hn)
    · rw [zero_unique hk hv hw, ih next hnext hq' hnd' heq]

theorem fields_same (a b : SearchConfig) : Same (fields a) (fields b) := by
  have h64 : ∀ x : UInt64, x.toNat < 2 ^ 64 := fun x => x.toNat_lt
  have h32 : ∀ x : UInt32, x.toNat < 2 ^ 64 := fun x => Nat.lt_trans x.toNat_lt (by decide)
  unfold fields
  refine .cons _ _ _ _ _ trivial (.cons _ _ _ _ _ trivial (.cons _ _ _ _ _ ⟨h64 _, h64 _⟩
    (.cons _ _ _ _ _ ⟨h64 _, h64 _⟩ (.cons _ _ _ _ _ ⟨h32 _, h32 _⟩ (.cons _ _ _ _ _ ⟨h64 _, h64 _⟩
    (.cons _ _ _ _ _ trivial (.cons _ _ _ _ _ ⟨h32 _, h32 _⟩ (.cons _ _ _ _ _ trivial (.cons _ _ _ _ _ trivial
    (.cons _ _ _ _ _ ⟨h64 _, h64 _⟩ (.cons _ _ _ _ _ trivial (.cons _ _ _ _ _ trivial .nil))))))))))))

theorem fields_ok (a : SearchConfig) : (∀ m ∈ (fields a).map (·.1), (0x22 : UInt8) ∉ m) ∧ ((fields a).map (·.1)).Nodup := by
  have : (fields a).map (·.1) = [name "scoreFuncName", name "higherIsBetter", name "timestamp", name "timeout",
    name "limit", name "cacheDuration", name "dataName", name "groupLimit", name "groupScoreFuncName", name "filters",
    name "resultLimit", name "groupFilters", name "uuid"] := rfl
  rw [this]
  constructor <;> decide +kernel

theorem encodeSearchConfig_inj (J : JsonStr) (a b : SearchConfig) (h : encodeSearchConfig J a = encodeSearchConfig J b) :
    { a with uuid := "" } = { b with uuid := "" } := by
  have := encFields_inj J (fields_same _ _) 0x7B (Or.inl rfl) (fields_ok _).1 (fields_ok _).2 h
  simp only [fields, List.cons.injEq, Prod.mk.injEq, true_and, JVal.str.injEq, JVal.num.injEq, JVal.bool.injEq,
    JVal.strs.injEq, and_true, UInt64.toNat_inj, UInt32.toNat_inj] at this
  obtain ⟨h1, h2, h3, h4, h5, h6, h7, h8, h9, h10, h11, h12⟩ := this
  rw [h1, h2, h3, h4, h5, h6, h7, h8, h9, h10, h11, h12]

/-- A string encoder of the assumed kind: every character as a backslash and four bytes. -/
def exStr : JsonStr where
  enc s := 0x22 :: ((s.toList.flatMap fun c => 0x5C :: Gencoder.le32 c.val) ++ [0x22])
  quote s := ⟨_, rfl⟩
  inj := by
    have aux : ∀ (a b : List Char) (r s : Bytes),
        (a.flatMap fun c => 0x5C :: Gencoder.le32 c.val) ++ 0x22 :: r = (b.flatMap fun c => 0x5C :: Gencoder.le32 c.val) ++ 0x22 :: s →
        a = b ∧ r = s := by
      intro a
      induction a with
      | nil =>
        intro b r s h
        cases b with
        | nil => simpa using h
        | cons y b => simp at h
      | cons x a ih =>
        intro b r s h
        cases b with
        | nil => simp at h
        | cons y b =>
          simp only [List.flatMap_cons, List.cons_append, List.cons.injEq, true_and, List.append_assoc] at h
          obtain ⟨h1, h2⟩ := Gencoder.le32_append_inj _ _ _ _ h
          obtain ⟨h3, h4⟩ := ih b r s h2
          exact ⟨by rw [Char.ext h1, h3], h4⟩
    intro a b r s h
    simp only [List.cons_append, List.cons.injEq, true_and, List.append_assoc, List.nil_append] at h
    obtain ⟨h1, h2⟩ := aux _ _ _ _ h
    exact ⟨String.toList_inj.1 h1, h2⟩

end Veri.Json
