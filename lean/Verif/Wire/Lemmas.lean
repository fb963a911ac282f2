import Verif.Wire.Model
set_option autoImplicit false
namespace Veri
namespace Wire

/-! ### Numbers -/

theorem readVarintN_varintN (r : Bytes) : ∀ (k n : Nat), n < 2 ^ (7 * k + 1) → readVarintN (k + 1) (varintN (k + 1) n ++ r) = some (n, r)
  | 0, n, h => by
    have h2 : n < 2 := by simpa using h
    have : (UInt8.ofNat n).toNat = n := by simp; omega
    unfold varintN
    rw [if_pos (by omega)]
    simp only [List.cons_append, List.nil_append, readVarintN, this, h2, if_true]
  | k + 1, n, h => by
    unfold varintN
    by_cases hs : n < 128
    · have : (UInt8.ofNat n).toNat = n := by simp; omega
      rw [if_pos hs]
      simp only [List.cons_append, List.nil_append, readVarintN, this, hs, if_true]
    · rw [if_neg hs]
      have h1 : (UInt8.ofNat (n % 128 + 128)).toNat = n % 128 + 128 := by simp; omega
      have h2 : ¬ (n % 128 + 128 < 128) := by omega
      have hn : n / 128 < 2 ^ (7 * k + 1) := by
        rw [Nat.div_lt_iff_lt_mul (by decide)]
        rw [show 7 * (k + 1) + 1 = (7 * k + 1) + 7 by omega, Nat.pow_add] at h
        exact h
      simp only [List.cons_append, readVarintN, h1, h2, if_false, readVarintN_varintN r k (n / 128) hn, Option.map_some]
      congr 2
      omega

theorem readVarint_varint {n : Nat} (h : n < 2 ^ 64) (r : Bytes) : readVarint (varint n ++ r) = some (n, r) :=
  readVarintN_varintN r 9 n h

theorem varint_ne (n : Nat) : varint n ≠ [] := by
  unfold varint varintN
  split <;> simp

theorem le_length : ∀ (k n : Nat), (le k n).length = k
  | 0, _ => rfl
  | k + 1, n => by simp [le, le_length k]

theorem unle_le : ∀ (k n : Nat), n < 256 ^ k → unle (le k n) = n
  | 0, n, h => by simp at h; simp [le, unle, h]
  | k + 1, n, h => by
    have h1 : (UInt8.ofNat (n % 256)).toNat = n % 256 := by simp
    have h2 : n / 256 < 256 ^ k := by rw [Nat.div_lt_iff_lt_mul (by decide)]; rw [Nat.pow_succ] at h; exact h
    simp only [le, unle, h1, unle_le k (n / 256) h2]
    omega

theorem takeBytes_append (b r : Bytes) : takeBytes b.length (b ++ r) = some (b, r) := by
  unfold takeBytes
  simp

/-! ### Fields -/

/-- A field that can be sent. -/
def Tok.Ok (t : Tok) : Prop :=
  1 ≤ t.num ∧ t.num ≤ 536870911 ∧
    match t with
    | .varint _ n => n < 2 ^ 64
    | .fixed64 _ n => n < 2 ^ 64
    | .bytes _ b => b.length < 2 ^ 64
    | .fixed32 _ n => n < 2 ^ 32

theorem readTok_write {t : Tok} (h : t.Ok) (r : Bytes) : readTok (t.write ++ r) = some (t, r) := by
  obtain ⟨h1, h2, h3⟩ := h
  unfold readTok
  cases t with
  | varint k n =>
    simp only [Tok.num] at h1 h2 h3
    have e1 : (8 * k) / 8 = k := by omega
    have e2 : (8 * k) % 8 = 0 := by omega
    simp only [Tok.write, List.append_assoc]
    rw [readVarint_varint (by omega)]
    simp only [Option.bind_some, e1, e2, readVarint_varint h3]
    rw [if_neg (by omega)]
    rfl
  | fixed64 k n =>
    simp only [Tok.num] at h1 h2 h3
    have e1 : (8 * k + 1) / 8 = k := by omega
    have e2 : (8 * k + 1) % 8 = 1 := by omega
    have e3 := takeBytes_append (le 8 n) r
    rw [le_length] at e3
    simp only [Tok.write, List.append_assoc]
    rw [readVarint_varint (by omega)]
    simp only [Option.bind_some, e1, e2, e3, unle_le 8 n h3, Option.map_some]
    rw [if_neg (by omega)]
  | bytes k b =>
    simp only [Tok.num] at h1 h2 h3
    have e1 : (8 * k + 2) / 8 = k := by omega
    have e2 : (8 * k + 2) % 8 = 2 := by omega
    simp only [Tok.write, List.append_assoc]
    rw [readVarint_varint (by omega)]
    simp only [Option.bind_some, e1, e2, readVarint_varint h3, takeBytes_append, Option.map_some]
    rw [if_neg (by omega)]
  | fixed32 k n =>
    simp only [Tok.num] at h1 h2 h3
    have e1 : (8 * k + 5) / 8 = k := by omega
    have e2 : (8 * k + 5) % 8 = 5 := by omega
    have e3 := takeBytes_append (le 4 n) r
    rw [le_length] at e3
    simp only [Tok.write, List.append_assoc]
    rw [readVarint_varint (by omega)]
    simp only [Option.bind_some, e1, e2, e3, unle_le 4 n h3, Option.map_some]
    rw [if_neg (by omega)]

theorem write_ne (t : Tok) : t.write ≠ [] := by
  cases t <;> simp [Tok.write, varint_ne]

theorem writeAll_cons (t : Tok) (ts : List Tok) : writeAll (t :: ts) = t.write ++ writeAll ts := rfl

theorem writeAll_append (ts us : List Tok) : writeAll (ts ++ us) = writeAll ts ++ writeAll us := by
  simp [writeAll, List.flatMap_append]

theorem readAllN_writeAll : ∀ (ts : List Tok) (n : Nat), (∀ t ∈ ts, t.Ok) → (writeAll ts).length ≤ n → readAllN n (writeAll ts) = some ts
  | [], n, _, _ => by cases n <;> rfl
  | t :: ts, n, h, hn => by
    rw [writeAll_cons] at hn ⊢
    have hr := readTok_write (h t (by simp)) (writeAll ts)
    cases hw : t.write with
    | nil => exact absurd hw (write_ne t)
    | cons b w =>
      rw [hw] at hr hn
      simp only [List.cons_append, List.length_cons, List.length_append] at hr hn ⊢
      cases n with
      | zero => omega
      | succ n =>
        simp only [readAllN, hr, Option.bind_some]
        rw [readAllN_writeAll ts n (fun u hu => h u (by simp [hu])) (by omega)]
        rfl

theorem readAll_writeAll {ts : List Tok} (h : ∀ t ∈ ts, t.Ok) : readAll (writeAll ts) = some ts :=
  readAllN_writeAll ts _ h (Nat.le_refl _)

theorem write_le_writeAll {t : Tok} {ts : List Tok} (h : t ∈ ts) : t.write.length ≤ (writeAll ts).length := by
  induction ts with
  | nil => simp at h
  | cons u us ih =>
    rw [writeAll_cons, List.length_append]
    rcases List.mem_cons.1 h with rfl | h
    · omega
    · have := ih h; omega

theorem bytes_lt {k : Nat} {b : Bytes} {ts : List Tok} (h : Tok.bytes k b ∈ ts) : b.length < (writeAll ts).length := by
  have := write_le_writeAll h
  simp only [Tok.write, List.length_append] at this
  have := List.length_pos_iff.2 (varint_ne (8 * k + 2))
  omega

/-! ### Kinds -/

/-- What the fields of a value are, and that they give it back. -/
def Kind.Good {V : Type} (K : Kind V) : Prop :=
  ∀ k, 1 ≤ k → k ≤ 536870911 → ∀ v, (writeAll (K.toks k v)).length < 2 ^ 64 →
    (∀ t ∈ K.toks k v, t.num = k ∧ t.Ok) ∧ (K.toks k v).foldlM K.put K.zero = some v

theorem bool_good : bool.Good := by
  intro k h1 h2 v _
  cases v
  · exact ⟨by simp [bool], rfl⟩
  · refine ⟨?_, rfl⟩
    intro t ht
    simp only [bool, if_true, List.mem_singleton] at ht
    subst ht
    exact ⟨rfl, h1, h2, by simp⟩

theorem uint32_good : uint32.Good := by
  intro k h1 h2 v _
  simp only [uint32]
  split
  · rename_i h
    exact ⟨by simp, by rw [h]; rfl⟩
  · refine ⟨?_, ?_⟩
    · intro t ht
      rw [List.mem_singleton.1 ht]
      have := v.toNat_lt
      exact ⟨rfl, h1, h2, by simp only; omega⟩
    · simp

theorem uint64_good : uint64.Good := by
  intro k h1 h2 v _
  simp only [uint64]
  split
  · rename_i h
    exact ⟨by simp, by rw [h]; rfl⟩
  · refine ⟨?_, ?_⟩
    · intro t ht
      rw [List.mem_singleton.1 ht]
      exact ⟨rfl, h1, h2, v.toNat_lt⟩
    · simp

theorem int32_bits (v : Int32) : (UInt32.ofNat v.toInt64.toUInt64.toNat).toInt32 = v := by
  apply Int32.toBitVec_inj.1
  have : (UInt32.ofNat v.toInt64.toUInt64.toNat).toInt32.toBitVec = (v.toInt64.toBitVec).setWidth 32 := by
    apply BitVec.eq_of_toNat_eq
    simp
  rw [this, Int32.toBitVec_toInt64]
  ext i hi
  have h64 : i < 64 := by omega
  simp [h64, BitVec.getElem_signExtend, hi]

theorem int32_good : int32.Good := by
  intro k h1 h2 v _
  simp only [int32]
  split
  · rename_i h
    exact ⟨by simp, by rw [h]; rfl⟩
  · refine ⟨?_, ?_⟩
    · intro t ht
      rw [List.mem_singleton.1 ht]
      exact ⟨rfl, h1, h2, (v.toInt64.toUInt64).toNat_lt⟩
    · simp only [List.foldlM_cons, List.foldlM_nil, Option.bind_eq_bind, Option.bind_some, Option.pure_def]
      congr 1
      exact int32_bits v

theorem double_good : double.Good := by
  intro k h1 h2 v _
  simp only [double]
  split
  · rename_i h
    exact ⟨by simp, by rw [h]; rfl⟩
  · refine ⟨?_, ?_⟩
    · intro t ht
      rw [List.mem_singleton.1 ht]
      exact ⟨rfl, h1, h2, v.toNat_lt⟩
    · simp

theorem bytes_good : bytes.Good := by
  intro k h1 h2 v hs
  simp only [bytes] at hs ⊢
  split
  · rename_i h
    exact ⟨by simp, by rw [h]; rfl⟩
  · rename_i h
    rw [if_neg h] at hs
    refine ⟨?_, by simp⟩
    intro t ht
    rw [List.mem_singleton.1 ht]
    exact ⟨rfl, h1, h2, Nat.lt_trans (bytes_lt (List.mem_singleton.2 rfl)) hs⟩

theorem toString_ofString (s : String) : toString? (ofString s) = some s := by
  unfold toString? ofString
  rw [Array.toArray_toList]
  unfold String.fromUTF8?
  rw [dif_pos (show ByteArray.IsValidUTF8 ⟨s.toUTF8.data⟩ from s.isValidUTF8)]
  rfl

theorem string_good : string.Good := by
  intro k h1 h2 v hs
  simp only [string] at hs ⊢
  split
  · rename_i h
    exact ⟨by simp, by rw [h]; rfl⟩
  · rename_i h
    rw [if_neg h] at hs
    refine ⟨?_, by simp [toString_ofString]⟩
    intro t ht
    rw [List.mem_singleton.1 ht]
    exact ⟨rfl, h1, h2, Nat.lt_trans (bytes_lt (List.mem_singleton.2 rfl)) hs⟩

theorem strings_good : strings.Good := by
  intro k h1 h2 v hs
  refine ⟨?_, ?_⟩
  · intro t ht
    have ht' := ht
    simp only [strings, List.mem_map] at ht
    obtain ⟨s, -, rfl⟩ := ht
    exact ⟨rfl, h1, h2, Nat.lt_trans (bytes_lt ht') hs⟩
  · clear hs
    have : ∀ (v acc : List String), (strings.toks k v).foldlM strings.put acc = some (acc ++ v) := by
      intro v
      induction v with
      | nil => intro acc; simp [strings]
      | cons s v ih =>
        intro acc
        have e : strings.toks k (s :: v) = .bytes k (ofString s) :: strings.toks k v := rfl
        rw [e, List.foldlM_cons]
        have e2 : strings.put acc (.bytes k (ofString s)) = some (acc ++ [s]) := by simp [strings, toString_ofString]
        rw [e2]
        simp only [Option.bind_eq_bind, Option.bind_some, ih]
        simp
    exact this v []

theorem readFloats_write : ∀ (v : List F32), readFloats (v.flatMap fun x => le 4 x.toNat) = some v
  | [] => rfl
  | x :: v => by
    have h : le 4 x.toNat = [UInt8.ofNat (x.toNat % 256), UInt8.ofNat (x.toNat / 256 % 256), UInt8.ofNat (x.toNat / 256 / 256 % 256),
      UInt8.ofNat (x.toNat / 256 / 256 / 256 % 256)] := rfl
    have hu := unle_le 4 x.toNat x.toNat_lt
    rw [h] at hu
    simp only [List.flatMap_cons, h, List.cons_append, List.nil_append, readFloats, readFloats_write v, Option.map_some, hu]
    simp

theorem floats_good : floats.Good := by
  intro k h1 h2 v hs
  simp only [floats] at hs ⊢
  split
  · rename_i h
    exact ⟨by simp, by rw [h]; rfl⟩
  · rename_i h
    rw [if_neg h] at hs
    refine ⟨?_, by simp [readFloats_write]⟩
    intro t ht
    rw [List.mem_singleton.1 ht]
    exact ⟨rfl, h1, h2, Nat.lt_trans (bytes_lt (List.mem_singleton.2 rfl)) hs⟩

/-! ### Messages -/

variable {α : Type}

/-- What is sent is what is received. -/
def Msg.Good (M : Msg α) : Prop :=
  ∀ a, (M.write a).length < 2 ^ 64 → (∀ t ∈ M.toks a, t.Ok ∧ t.num ∈ M.fields.map (·.num)) ∧ (M.toks a).foldlM M.put M.empty = some a

theorem Msg.Good.read {M : Msg α} (h : M.Good) {a : α} (hs : (M.write a).length < 2 ^ 64) : M.read (M.write a) = some a := by
  obtain ⟨h1, h2⟩ := h a hs
  unfold Msg.read Msg.merge Msg.write
  rw [readAll_writeAll fun t ht => (h1 t ht).1]
  exact h2

theorem Msg.Good.opt {M : Msg α} (h : M.Good) : M.opt.Good := by
  intro k h1 h2 v hs
  cases v with
  | none => exact ⟨by simp [Msg.opt], rfl⟩
  | some a =>
    have hl : (M.write a).length < 2 ^ 64 := Nat.lt_trans (bytes_lt (k := k) (by simp [Msg.opt])) hs
    refine ⟨?_, ?_⟩
    · intro t ht
      simp only [Msg.opt, List.mem_singleton] at ht
      subst ht
      exact ⟨rfl, h1, h2, hl⟩
    · have := h.read hl
      unfold Msg.read at this
      simp [Msg.opt, this]

theorem Msg.Good.rep {M : Msg α} (h : M.Good) : M.rep.Good := by
  intro k h1 h2 v hs
  have hl : ∀ a ∈ v, (M.write a).length < 2 ^ 64 := fun a ha =>
    Nat.lt_trans (bytes_lt (k := k) (by simp only [Msg.rep, List.mem_map]; exact ⟨a, ha, rfl⟩)) hs
  refine ⟨?_, ?_⟩
  · intro t ht
    simp only [Msg.rep, List.mem_map] at ht
    obtain ⟨a, ha, rfl⟩ := ht
    exact ⟨rfl, h1, h2, hl a ha⟩
  · clear hs
    have : ∀ (v acc : List α), (∀ a ∈ v, (M.write a).length < 2 ^ 64) → (M.rep.toks k v).foldlM M.rep.put acc = some (acc ++ v) := by
      intro v
      induction v with
      | nil => intro acc _; simp [Msg.rep]
      | cons a v ih =>
        intro acc hv
        have e : M.rep.toks k (a :: v) = .bytes k (M.write a) :: M.rep.toks k v := rfl
        rw [e, List.foldlM_cons]
        have e2 : M.rep.put acc (.bytes k (M.write a)) = some (acc ++ [a]) := by simp [Msg.rep, h.read (hv a (by simp))]
        rw [e2]
        simp only [Option.bind_eq_bind, Option.bind_some, ih _ fun b hb => hv b (by simp [hb])]
        simp
    exact this v [] hl

/-- A field of a structure. -/
structure Field.Lens (f : Field α) : Prop where
  get_set : ∀ a v, f.get (f.set a v) = v
  set_set : ∀ a v w, f.set (f.set a v) w = f.set a w
  set_get : ∀ a, f.set a (f.get a) = a

theorem Field.fold {f : Field α} (hf : f.Lens) : ∀ (ts : List Tok) (a : α),
    ts.foldlM f.put a = (ts.foldlM f.kind.put (f.get a)).map (f.set a)
  | [], a => by simp [hf.set_get]
  | t :: ts, a => by
    simp only [List.foldlM_cons, Field.put, Option.bind_eq_bind]
    cases f.kind.put (f.get a) t with
    | none => rfl
    | some v =>
      simp only [Option.map_some, Option.bind_some, Field.fold hf ts, hf.get_set]
      congr 1
      funext w
      exact hf.set_set a v w

/-- The fields one after the other make `m` the message. -/
def Fills (a : α) : List (Field α) → α → Prop
  | [], m => m = a
  | f :: fs, m => f.get m = f.kind.zero ∧ Fills a fs (f.set m (f.get a))

theorem Msg.good {M : Msg α} (hn : (M.fields.map (·.num)).Nodup)
    (hf : ∀ f ∈ M.fields, 1 ≤ f.num ∧ f.num ≤ 536870911 ∧ f.Lens ∧ f.kind.Good) (hfill : ∀ a, Fills a M.fields M.empty) : M.Good := by
  intro a hs
  have hfind : ∀ f ∈ M.fields, ∀ t : Tok, t.num = f.num → ∀ m, M.put m t = f.put m t := by
    intro f hm t ht m
    have : M.fields.find? (fun g => g.num == t.num) = some f := by
      rw [ht]
      generalize M.fields = l at hn hm
      induction l with
      | nil => simp at hm
      | cons g l ih =>
        simp only [List.map_cons, List.nodup_cons] at hn
        rcases List.mem_cons.1 hm with rfl | hm
        · simp
        · have : g.num ≠ f.num := fun e => hn.1 (List.mem_map.2 ⟨f, hm, e.symm⟩)
          rw [List.find?_cons]
          simp only [beq_eq_false_iff_ne.2 this]
          exact ih hn.2 hm
    unfold Msg.put
    rw [this]
  have hlen : ∀ f ∈ M.fields, (writeAll (f.toks a)).length ≤ (M.write a).length := by
    intro f hm
    unfold Msg.write Msg.toks
    generalize M.fields = l at hm
    induction l with
    | nil => simp at hm
    | cons g l ih =>
      rw [List.flatMap_cons, writeAll_append, List.length_append]
      rcases List.mem_cons.1 hm with rfl | hm
      · omega
      · have := ih hm; omega
  have hgood : ∀ f ∈ M.fields, (∀ t ∈ f.toks a, t.num = f.num ∧ t.Ok) ∧ (f.toks a).foldlM f.kind.put f.kind.zero = some (f.get a) := by
    intro f hm
    obtain ⟨h1, h2, -, h3⟩ := hf f hm
    exact h3 f.num h1 h2 (f.get a) (Nat.lt_of_le_of_lt (hlen f hm) hs)
  refine ⟨?_, ?_⟩
  · intro t ht
    obtain ⟨f, hm, ht⟩ := List.mem_flatMap.1 ht
    obtain ⟨h1, h2⟩ := (hgood f hm).1 t ht
    exact ⟨h2, h1 ▸ List.mem_map.2 ⟨f, hm, rfl⟩⟩
  · have key : ∀ (fs : List (Field α)), (∀ f ∈ fs, f ∈ M.fields) → ∀ m, Fills a fs m →
        (fs.flatMap fun f => f.toks a).foldlM M.put m = some a := by
      intro fs
      induction fs with
      | nil => intro _ m h; unfold Fills at h; subst h; rfl
      | cons f fs ih =>
        intro hsub m h
        obtain ⟨h1, h2⟩ := h
        have hm := hsub f (by simp)
        rw [List.flatMap_cons, List.foldlM_append]
        have hc : ∀ (ts : List Tok) (m : α), (∀ t ∈ ts, t.num = f.num) → ts.foldlM M.put m = ts.foldlM f.put m := by
          intro ts
          induction ts with
          | nil => intro m _; rfl
          | cons t ts ih =>
            intro m ht
            rw [List.foldlM_cons, List.foldlM_cons, hfind f hm t (ht t (by simp))]
            congr 1
            funext m'
            exact ih m' fun u hu => ht u (by simp [hu])
        rw [hc _ m fun t ht => ((hgood f hm).1 t ht).1, Field.fold (hf f hm).2.2.1, h1, (hgood f hm).2]
        simp only [Option.map_some, Option.bind_eq_bind, Option.bind_some]
        exact ih (fun g hg => hsub g (by simp [hg])) _ h2
    exact key M.fields (fun _ h => h) M.empty (hfill a)

/-- Fields that are not known are skipped. -/
theorem Msg.skip {M : Msg α} : ∀ (ts : List Tok) (a : α),
    ts.foldlM M.put a = (ts.filter fun t => decide (t.num ∈ M.fields.map (·.num))).foldlM M.put a
  | [], _ => rfl
  | t :: ts, a => by
    by_cases h : t.num ∈ M.fields.map (·.num)
    · rw [List.filter_cons_of_pos (by simpa using h), List.foldlM_cons, List.foldlM_cons]
      congr 1
      funext b
      exact Msg.skip ts b
    · rw [List.filter_cons_of_neg (by simpa using h), List.foldlM_cons]
      have : M.put a t = some a := by
        unfold Msg.put
        rw [List.find?_eq_none.2 fun f hf e => h (List.mem_map.2 ⟨f, hf, by simpa using e⟩)]
      rw [this]
      exact Msg.skip ts a

end Wire
end Veri
