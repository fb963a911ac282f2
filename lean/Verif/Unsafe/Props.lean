import Verif.Store.Model
import Verif.Gencoder.Spec
/-
C130: util/util.go, the string that is made from a byte slice without copying, and the garbage collector.
-/
set_option autoImplicit false
namespace Veri
open Gencoder Store

namespace Unsafe

/-- Where `EncodeToString` is; the address is where the bytes are, the number is `len(b)`. -/
inductive Pc where
  /-- util/util.go:9-10: the slice `b` is in use -/
  | slice (addr len : Nat)
  /-- util/util.go:11, `sh` has been made; `reflect.StringHeader.Data` is a `uintptr`, and `b` is used no more: nothing the
  garbage collector knows of points to the bytes -/
  | header (addr len : Nat)
  /-- util/util.go:12, the string -/
  | str (addr len : Nat)
  deriving DecidableEq, Repr

/-- The address through which the function keeps its bytes alive. -/
def Pc.live : Pc → Option Nat
  | .slice a _ => some a
  | .header _ _ => none
  | .str a _ => some a

/-- Memory: the byte arrays by address, and the addresses that other goroutines (or the caller) have slices of. -/
structure St where
  mem : AMap Nat Bytes
  roots : List Nat
  pc : Pc

inductive Label where
  /-- this goroutine runs on -/
  | run
  /-- the garbage collector frees the array at an address -/
  | gc (a : Nat)
  /-- another goroutine makes a slice -/
  | alloc (a : Nat) (bs : Bytes)
  /-- another goroutine writes to a slice it has -/
  | write (a : Nat) (bs : Bytes)
  /-- another goroutine gives up a slice -/
  | drop (a : Nat)

/-- util/util.go:9-14 `EncodeToString` and everything else.  `copies = true` is the commented-out line 13, `string(b)`: the
bytes are copied to a new array in one step (the slice stays in use until then).  Simplified: an array is freed or reused as
a whole, a string or slice starts at its beginning. -/
inductive Step (copies : Bool) : Label → St → St → Prop where
  | header {m r a n} : copies = false → Step copies .run ⟨m, r, .slice a n⟩ ⟨m, r, .header a n⟩
  | str {m r a n} : copies = false → Step copies .run ⟨m, r, .header a n⟩ ⟨m, r, .str a n⟩
  | copy {m r a n bs} (c : Nat) : copies = true → m.get? c = none → m.get? a = some bs →
      Step copies .run ⟨m, r, .slice a n⟩ ⟨m.set c (bs.take n), r, .str c n⟩
  | gc {m r pc} (a : Nat) : a ∉ r → pc.live ≠ some a → Step copies (.gc a) ⟨m, r, pc⟩ ⟨m.erase a, r, pc⟩
  | alloc {m r pc} (a : Nat) (bs : Bytes) : m.get? a = none → Step copies (.alloc a bs) ⟨m, r, pc⟩ ⟨m.set a bs, a :: r, pc⟩
  | write {m r pc} (a : Nat) (bs : Bytes) : a ∈ r → Step copies (.write a bs) ⟨m, r, pc⟩ ⟨m.set a bs, r, pc⟩
  | drop {m r pc} (a : Nat) : Step copies (.drop a) ⟨m, r, pc⟩ ⟨m, r.filter (· ≠ a), pc⟩

/-- A run of the program. -/
inductive Run (copies : Bool) : St → List Label → St → Prop where
  | nil (s : St) : Run copies s [] s
  | snoc {s t u : St} {tr : List Label} {l : Label} : Run copies s tr t → Step copies l t u → Run copies s (tr ++ [l]) u

/-- The bytes of the string, none if the memory has been given back. -/
def St.string (s : St) : Option Bytes :=
  match s.pc with
  | .str a n => (s.mem.get? a).map (·.take n)
  | _ => none

/-- The call begins: the slice of the caller (the encoding just made by `GetKeyAsBytes`) is at `a`, nobody else has it. -/
def Begins (s : St) (a : Nat) (bs : Bytes) : Prop :=
  s.mem.get? a = some bs ∧ a ∉ s.roots ∧ s.pc = .slice a bs.length

/-- The call has returned. -/
def Returned (s : St) : Prop := ∃ a n, s.pc = .str a n

end Unsafe
open Unsafe

/-- C130, full statement: the string that stands for a datum's key in the map of the store has, from then on, the bytes of the
encoded key.  FALSE of the code. -/
def C130_key_string_statement : Prop :=
  ∀ (k : DatumKey) (s t : St) (a : Nat) (tr : List Label), Begins s a (encKey k) → Run false s tr t → Returned t →
    t.string = some (encKey k)

namespace Unsafe

/-- A collection between the two lines, after which the memory is used for the key of another goroutine. -/
def badRun (k k' : DatumKey) : List Label := [.run, .gc 0, .alloc 0 (encKey k'), .run]

theorem badRun_run (k k' : DatumKey) :
    Run false ⟨[(0, encKey k)], [], .slice 0 (encKey k).length⟩ (badRun k k')
      ⟨[(0, encKey k')], [0], .str 0 (encKey k).length⟩ := by
  have h1 := (Run.nil (copies := false) ⟨[(0, encKey k)], [], .slice 0 (encKey k).length⟩).snoc (.header rfl)
  have h2 := h1.snoc (.gc 0 (by simp) (by simp [Pc.live]))
  have h3 := h2.snoc (.alloc 0 (encKey k') (by simp [AMap.erase]))
  have h4 := h3.snoc (.str rfl)
  exact h4

end Unsafe

/-- C130, what happens then: the string has the bytes of the key of ANOTHER datum, of the same encoded length, under which the
datum is then stored. -/
theorem C130_other_key (k k' : DatumKey) (h : (encKey k').length = (encKey k).length) :
    ∃ (s t : St) (tr : List Label), Begins s 0 (encKey k) ∧ Run false s tr t ∧ Returned t ∧
      t.string = some (encKey k') := by
  refine ⟨_, _, _, ⟨by simp [AMap.get?], by simp, rfl⟩, badRun_run k k', ⟨_, _, rfl⟩, ?_⟩
  simp [St.string, AMap.get?, ← h]

namespace Unsafe

def keyA : DatumKey := ⟨[0], [1], 0, 0, 0, 0⟩
def keyB : DatumKey := ⟨[0], [2], 0, 0, 0, 0⟩

end Unsafe

/-- C130, counterexample. -/
theorem C130_key_string_fails : ¬ C130_key_string_statement := by
  intro h
  have := h keyA _ _ 0 _ ⟨by simp [AMap.get?], by simp, rfl⟩ (badRun_run keyA keyB) ⟨_, _, rfl⟩
  revert this
  decide +kernel

namespace Unsafe

/-- The array at the address of the call is as it was, and nobody else has it. -/
def Good (a : Nat) (bs : Bytes) (s : St) : Prop :=
  s.mem.get? a = some bs ∧ a ∉ s.roots ∧
    (s.pc = .slice a bs.length ∨ s.pc = .header a bs.length ∨ s.pc = .str a bs.length)

/-- Only a collection of the array between the two lines spoils it. -/
theorem good_step {a : Nat} {bs : Bytes} {s t : St} {l : Label} (h : Good a bs s)
    (hl : ¬ (l = .gc a ∧ s.pc = .header a bs.length)) (hs : Step false l s t) : Good a bs t := by
  obtain ⟨h1, h2, h3⟩ := h
  cases hs with
  | header _ => simp at h3; exact ⟨h1, h2, by simp [h3]⟩
  | str _ => simp at h3; exact ⟨h1, h2, by simp [h3]⟩
  | copy c hc => simp at hc
  | gc b hb hlive =>
    have hne : b ≠ a := by
      rintro rfl
      rcases h3 with h3 | h3 | h3
      · simp at h3; rw [h3] at hlive; simp [Pc.live] at hlive
      · exact hl ⟨rfl, h3⟩
      · simp at h3; rw [h3] at hlive; simp [Pc.live] at hlive
    exact ⟨by simp only [AMap.get?_erase_ne _ hne]; exact h1, h2, h3⟩
  | alloc b bs' hb =>
    have hne : b ≠ a := by rintro rfl; simp only [] at h1; rw [h1] at hb; cases hb
    exact ⟨by simp only [AMap.get?_set_ne _ _ hne]; exact h1, by simp only [List.mem_cons]; grind, h3⟩
  | write b bs' hb =>
    have hne : b ≠ a := by rintro rfl; exact h2 hb
    exact ⟨by simp only [AMap.get?_set_ne _ _ hne]; exact h1, h2, h3⟩
  | drop b => exact ⟨h1, by simp only [List.mem_filter]; grind, h3⟩

/-- The run collects the array of the call while it is between the two lines. -/
def CollectedBetween (a : Nat) : St → List Label → Prop := fun s tr =>
  ∃ tr1 tr2 u n, tr = tr1 ++ .gc a :: tr2 ∧ Run false s tr1 u ∧ u.pc = .header a n

end Unsafe

/-- C130, partial: unless the garbage collector frees the bytes between lines 11 and 12, the string has the bytes of the encoded key
when it is returned and ever after, whatever other goroutines do. -/
theorem C130_key_string_partial (k : DatumKey) (s t : St) (a : Nat) (tr : List Label) (hb : Begins s a (encKey k))
    (hr : Run false s tr t) (hg : ¬ CollectedBetween a s tr) (hret : Returned t) : t.string = some (encKey k) := by
  have hgood : Good a (encKey k) t := by
    clear hret
    induction hr with
    | nil => exact ⟨hb.1, hb.2.1, .inl hb.2.2⟩
    | @snoc t u tr l hr hs ih =>
      refine good_step (ih fun ⟨tr1, tr2, u, n, e, r, p⟩ => hg ⟨tr1, tr2 ++ [l], u, n, by simp [e], r, p⟩) ?_ hs
      rintro ⟨rfl, hpc⟩
      exact hg ⟨tr, [], t, _, rfl, hr, hpc⟩
  obtain ⟨b, n, hpc⟩ := hret
  obtain ⟨h1, -, h3⟩ := hgood
  rw [hpc] at h3
  simp at h3
  simp [St.string, hpc, h3.1, h3.2, h1]

namespace Unsafe

/-- With the copy: before it the slice is as it was, after it the copy is. -/
def GoodCopy (bs : Bytes) (s : St) : Prop :=
  ∃ a, s.mem.get? a = some bs ∧ a ∉ s.roots ∧ (s.pc = .slice a bs.length ∨ s.pc = .str a bs.length)

theorem goodCopy_step {bs : Bytes} {s t : St} {l : Label} (h : GoodCopy bs s) (hi : ∀ b ∈ s.roots, s.mem.get? b ≠ none)
    (hs : Step true l s t) : GoodCopy bs t := by
  obtain ⟨a, h1, h2, h3⟩ := h
  cases hs with
  | header hc => simp at hc
  | str hc => simp at hc
  | @copy m r a' n bs' c _ hc hm =>
    simp at h3
    obtain ⟨rfl, rfl⟩ := h3
    rw [show m.get? a' = some bs from h1] at hm
    injection hm with hm
    subst hm
    exact ⟨c, by simp, fun hr => hi c hr hc, .inr rfl⟩
  | gc b hb hlive =>
    have hne : b ≠ a := by
      rintro rfl
      rcases h3 with h3 | h3 <;> (simp at h3; rw [h3] at hlive; simp [Pc.live] at hlive)
    exact ⟨a, by simp only [AMap.get?_erase_ne _ hne]; exact h1, h2, h3⟩
  | alloc b bs' hb =>
    have hne : b ≠ a := by rintro rfl; simp only [] at h1; rw [h1] at hb; cases hb
    exact ⟨a, by simp only [AMap.get?_set_ne _ _ hne]; exact h1, by simp only [List.mem_cons]; grind, h3⟩
  | write b bs' hb =>
    have hne : b ≠ a := by rintro rfl; exact h2 hb
    exact ⟨a, by simp only [AMap.get?_set_ne _ _ hne]; exact h1, h2, h3⟩
  | drop b => exact ⟨a, h1, by simp only [List.mem_filter]; grind, h3⟩

theorem roots_step {c : Bool} {s t : St} {l : Label} (hi : ∀ b ∈ s.roots, s.mem.get? b ≠ none) (hs : Step c l s t) :
    ∀ b ∈ t.roots, t.mem.get? b ≠ none := by
  cases hs with
  | header _ => exact hi
  | str _ => exact hi
  | copy c _ hc hm =>
    intro b hb; simp only [AMap.get?_set]; split
    · simp
    · exact hi b hb
  | gc a ha _ => intro b hb; rw [AMap.get?_erase_ne _ (by rintro rfl; exact ha hb)]; exact hi b hb
  | alloc a bs ha =>
    intro b hb
    simp only [AMap.get?_set]
    split
    · simp
    · rename_i hne; rcases List.mem_cons.1 hb with rfl | hb
      · exact absurd rfl hne
      · exact hi b hb
  | write a bs ha =>
    intro b hb; simp only [AMap.get?_set]; split
    · simp
    · exact hi b hb
  | drop a => intro b hb; exact hi b (List.mem_filter.1 hb).1

end Unsafe

/-- C130, with line 13, `string(b)`, which is commented out: always right. -/
theorem C130_copy_right (k : DatumKey) (s t : St) (a : Nat) (tr : List Label) (hb : Begins s a (encKey k))
    (hroots : ∀ b ∈ s.roots, s.mem.get? b ≠ none) (hr : Run true s tr t) (hret : Returned t) :
    t.string = some (encKey k) := by
  have hgood : GoodCopy (encKey k) t ∧ ∀ b ∈ t.roots, t.mem.get? b ≠ none := by
    clear hret
    induction hr with
    | nil => exact ⟨⟨a, hb.1, hb.2.1, .inl hb.2.2⟩, hroots⟩
    | snoc _ hs ih =>
      obtain ⟨g1, g2⟩ := ih
      exact ⟨goodCopy_step g1 g2 hs, roots_step g2 hs⟩
  obtain ⟨b, n, hpc⟩ := hret
  obtain ⟨⟨c, h1, -, h3⟩, -⟩ := hgood
  rw [hpc] at h3
  simp at h3
  simp [St.string, hpc, h3.1, h3.2, h1]

/-- C130_key_string_partial is not vacuous: another goroutine makes and fills slices meanwhile, other memory is collected. -/
theorem C130_example : ∃ (s t : St) (tr : List Label), Begins s 0 (encKey keyA) ∧ Run false s tr t ∧ Returned t ∧
    ¬ CollectedBetween 0 s tr ∧ t.string = some (encKey keyA) := by
  have h1 := (Run.nil (copies := false) ⟨[(0, encKey keyA)], [], .slice 0 (encKey keyA).length⟩).snoc
    (.alloc 1 (encKey keyB) (by decide))
  have h2 := h1.snoc (.header rfl)
  have h3 := h2.snoc (.drop 1)
  have h4 := h3.snoc (.gc 1 (by simp) (by simp [Pc.live]))
  have h5 := h4.snoc (.str rfl)
  have hb : Begins ⟨[(0, encKey keyA)], [], .slice 0 (encKey keyA).length⟩ 0 (encKey keyA) :=
    ⟨by simp [AMap.get?], by simp, rfl⟩
  have hn : ¬ CollectedBetween 0 ⟨[(0, encKey keyA)], [], .slice 0 (encKey keyA).length⟩
      (([] ++ [Label.alloc 1 (encKey keyB)] ++ [.run] ++ [.drop 1] ++ [.gc 1] ++ [.run])) := by
    rintro ⟨tr1, tr2, u, n, e, -⟩
    have : Label.gc 0 ∈ [] ++ [Label.alloc 1 (encKey keyB)] ++ [.run] ++ [.drop 1] ++ [.gc 1] ++ [.run] := by
      rw [e]; simp
    simp at this
  exact ⟨_, _, _, hb, h5, ⟨_, _, rfl⟩, hn, C130_key_string_partial keyA _ _ 0 _ hb h5 hn ⟨_, _, rfl⟩⟩

end Veri
