import Verif.Process.Limits
/-
C103: what the native index reads of the vectors it is given.
-/
set_option autoImplicit false
namespace Veri
namespace Idx
open Gencoder Proc Store

/-- annoyindex/annoygomodule_wrap.cxx:722-742, annoyindex/annoylib.h:922-923 (`AddItem`) and annoylib.h:1348
(`GetNnsByVector`: `memcpy(v_node->v, v, sizeof(T) * _f)`): the library copies `f` floats from the vector it is given, whatever the
length of that is.  `none`: it reads past the end. -/
def readVector : Nat → List F32 → Option (List F32)
  | 0, _ => some []
  | _ + 1, [] => none
  | f + 1, x :: v => (readVector f v).map (x :: ·)

/-- data/newsync.go:172: the dimension `f` of an index is the length of the first vector added (items are listed latest first). -/
def dimension (items : List (Nat × List F32)) : Option Nat := items.getLast?.map fun it => it.2.length

/-- A read is within bounds if and only if the vector is long enough. -/
theorem readVector_iff (f : Nat) (v : List F32) : (readVector f v).isSome = true ↔ f ≤ v.length := by
  induction f generalizing v with
  | zero => simp [readVector]
  | succ f ih =>
    cases v with
    | nil => simp [readVector]
    | cons x v => simp [readVector, ih]

/-- The vectors of the items have length `n`. -/
def Items (n : Nat) (items : List (Nat × List F32)) : Prop := ∀ it ∈ items, it.2.length = n

def HasLength (n : Nat) (d : Datum) : Prop := ∀ k, d.key = some k → k.feature.length = n

theorem indexItems_length {n : Nat} {i : Inst} (h : ∀ p ∈ i.slots, HasLength n p.2) : Items n (indexItems i) := by
  intro it hit
  simp only [indexItems, List.mem_filterMap, Option.map_eq_some_iff] at hit
  obtain ⟨p, hp, k, hk, rfl⟩ := hit
  exact h p hp k hk

theorem dimension_eq {n f : Nat} {items : List (Nat × List F32)} (h : Items n items) (hf : dimension items = some f) : f = n := by
  simp only [dimension, Option.map_eq_some_iff] at hf
  obtain ⟨it, hit, rfl⟩ := hf
  exact h it (List.mem_of_getLast? hit)

/-- Inserts of vectors of length `n` only. -/
def LabelOk (n : Nat) : Proc.Label → Prop
  | .write d _ => HasLength n d
  | _ => True

structure LInv (n : Nat) (s : PS) : Prop where
  init : s.dt.initialized = true
  store : ∀ p ∈ s.dt.dbMap, HasLength n p.2.datum
  slots : ∀ i ∈ s.insts, ∀ p ∈ i.slots, HasLength n p.2
  index : ∀ a, s.dt.annoyer = some a → Items n a.items

theorem linv_step {n : Nat} {P : PEnv} {W : Bool} {s s' : PS} {l : Proc.Label} (h : LInv n s) (hl : LabelOk n l)
    (hs : SStep P W s l s') : LInv n s' := by
  have hid : s.dt.initData = s.dt := Data.initData_of_initialized h.init
  have hini := (sstep_alive hs h.init).1
  have hfresh : ∀ i : Inst, i.slots = [] → ∀ x ∈ s.insts ++ [i], ∀ p ∈ x.slots, HasLength n p.2 := by
    intro i h0 x hx p hp
    rcases List.mem_append.1 hx with hx | hx
    · exact h.slots x hx p hp
    · rw [List.mem_singleton.1 hx, h0] at hp; cases hp
  cases hs with
  | setSources => exact ⟨hini, by rw [hid]; exact h.store, h.slots, by rw [hid]; exact h.index⟩
  | run _ hf => exact ⟨hini, h.store, hfresh _ hf.slots, h.index⟩
  | closeRun _ _ _ hf => exact ⟨hini, h.store, hfresh _ hf.slots, h.index⟩
  | @act j i i' a dt' acks hj hist =>
    have hmem := List.mem_of_getElem? hj
    have hset : (∀ p ∈ i'.slots, HasLength n p.2) → ∀ x ∈ s.insts.set j i', ∀ p ∈ x.slots, HasLength n p.2 := by
      intro hh x hx p hp
      rcases mem_set_list hx with rfl | hx
      · exact hh p hp
      · exact h.slots x hx p hp
    cases hist with
    | @meet k e key hp he hns hx hk =>
      refine ⟨hini, h.store, hset ?_, h.index⟩
      intro p hp
      simp only [meetEntry] at hp
      split at hp
      · rcases List.mem_cons.1 hp with rfl | hp
        · exact h.store (k, e) (AMap.mem_of_get? he)
        · exact h.slots i hmem p hp
      · exact h.slots i hmem p hp
    | endScan hp hall =>
      refine ⟨hini, h.store, hset (h.slots i hmem), ?_⟩
      intro a ha
      simp only [finish] at ha
      split at ha
      · exact h.index a ha
      · cases ha
        exact indexItems_length (h.slots i hmem)
    | purge =>
      exact ⟨hini, fun p hp => h.store p ((AMap.mem_erase _ _ _).1 hp).1, hset (h.slots i hmem), h.index⟩
    | evict =>
      exact ⟨hini, fun p hp => h.store p ((AMap.mem_erase _ _ _).1 hp).1, hset (h.slots i hmem), h.index⟩
    | _ => exact ⟨hini, h.store, hset (h.slots i hmem), h.index⟩
  | @write datum config out hW ho =>
    rcases Data.insert_cases _ _ _ _ _ _ _ _ ho with ⟨_, rfl⟩ | ⟨_, d, _, m, b, hdd, _, hm, hd, _⟩
    · exact ⟨hini, h.store, h.slots, h.index⟩
    · cases hdd
      refine ⟨hini, ?_, h.slots, ?_⟩
      · simp only [hd]
        rcases insertBDMap_shape hm with ⟨rfl, _⟩ | ⟨k, hk, rfl, _⟩
        · exact h.store
        · intro p hp
          rcases (AMap.mem_set _ _ _ _).1 hp with rfl | hp
          · exact hl
          · exact h.store p hp.1
      · intro a ha
        simp only [hd, hid] at ha
        exact h.index a ha
  | @delete datum dt' hW ho =>
    obtain ⟨m, hd⟩ := delete_frame ho
    refine ⟨hini, ?_, h.slots, ?_⟩
    · have hm : ∃ k, dt'.dbMap = s.dt.dbMap.erase k := by
        unfold Data.delete deleteBDMap at ho
        simp only [Res.ofOption_some, Res.bind_eq, Res.bind_ok, Res.pure_eq] at ho
        cases hk : getKeyAsBytes datum with
        | none => rw [hk] at ho; cases ho
        | some k => rw [hk] at ho; cases ho; exact ⟨k, rfl⟩
      obtain ⟨k, hk⟩ := hm
      intro p hp
      simp only [hk] at hp
      exact h.store p ((AMap.mem_erase _ _ _).1 hp).1
    · intro a ha
      simp only [hd] at ha
      exact h.index a ha
  | _ => exact ⟨hini, h.store, h.slots, h.index⟩

theorem linv_exec {n : Nat} {P : PEnv} {W : Bool} : ∀ (ls : List Proc.Label) {s s' : PS}, LInv n s → (∀ l ∈ ls, LabelOk n l) →
    Proc.exec P W s ls = some s' → LInv n s' := by
  intro ls
  induction ls with
  | nil => intro s s' h _ he; simp only [Proc.exec, Option.some.injEq] at he; exact he ▸ h
  | cons l ls ih =>
    intro s s' h hl he
    simp only [Proc.exec] at he
    cases hs : Proc.step P W s l with
    | none => simp [hs] at he
    | some t =>
      rw [hs] at he
      exact ih (linv_step h (hl l List.mem_cons_self) (sstep_of hs)) (fun l h => hl l (List.mem_cons_of_mem _ h)) he

end Idx

open Gencoder Proc Store

/-! ### C103 -/

/-- C103, full statement for building: adding the items of a run to the native index reads no vector past its end.
FALSE of the code. -/
def C103_build_statement : Prop :=
  ∀ (P : PEnv) (c : DataConfig) (now : Int64) (s : PS), Reach P true (initial (Data.newData c) now) s →
    ∀ i ∈ s.insts, ∀ f, Idx.dimension (indexItems i) = some f → ∀ it ∈ indexItems i, (Idx.readVector f it.2).isSome = true

/-- C103, full statement for searching: no query makes the native index read past the end of its vector.  FALSE of the code. -/
def C103_search_statement : Prop :=
  ∀ (P : PEnv) (c : DataConfig) (now : Int64) (s : PS), Reach P true (initial (Data.newData c) now) s →
    ∀ a, s.dt.annoyer = some a → ∀ f, Idx.dimension a.items = some f → ∀ q : DatumKey, (Idx.readVector f q.feature).isSome = true

/-- C103.  Exactly: a read is in bounds iff the vector is at least as long as the first one that the run met. -/
theorem C103_exact (items : List (Nat × List F32)) (f : Nat) (v : List F32) (hf : Idx.dimension items = some f) :
    (Idx.readVector f v).isSome = true ↔ ∃ it, items.getLast? = some it ∧ it.2.length ≤ v.length := by
  rw [Idx.readVector_iff]
  simp only [Idx.dimension, Option.map_eq_some_iff] at hf
  obtain ⟨it, h1, rfl⟩ := hf
  simp [h1]

/-- C103.  If all inserts carry vectors of one length, whatever else happens, neither building nor searching with vectors of that
length reads past an end. -/
theorem C103_one_length_partial (n : Nat) (P : PEnv) (c : DataConfig) (now : Int64) (ls : List Proc.Label)
    (hl : ∀ l ∈ ls, Idx.LabelOk n l) (s : PS) (he : Proc.exec P true (initial (Data.newData c) now) ls = some s) :
    (∀ i ∈ s.insts, ∀ f, Idx.dimension (indexItems i) = some f → ∀ it ∈ indexItems i, (Idx.readVector f it.2).isSome = true) ∧
    ∀ a, s.dt.annoyer = some a → ∀ f, Idx.dimension a.items = some f → ∀ q : DatumKey, q.feature.length = n →
      (Idx.readVector f q.feature).isSome = true := by
  have h := Idx.linv_exec (n := n) ls (s := initial (Data.newData c) now)
    ⟨rfl, (by intro p hp; cases hp), (by intro i hi; cases hi), (by intro a ha; cases ha)⟩ hl he
  constructor
  · intro i hi f hf it hit
    have hit' := Idx.indexItems_length (h.slots i hi)
    rw [Idx.readVector_iff, Idx.dimension_eq hit' hf, hit' it hit]
    exact Nat.le_refl _
  · intro a ha f hf q hq
    rw [Idx.readVector_iff, Idx.dimension_eq (h.index a ha) hf, hq]
    exact Nat.le_refl _

/-- A datum whose vector has two components, and one without components. -/
def Idx.exLong : Datum := ⟨some ⟨[0x3F800000, 0x3F800000], [65], 7, 0, 2, 1⟩, some (exVal 1)⟩

/-- Two inserts with vectors of lengths two and one, and a run that meets them in this order. -/
def Idx.exMixed : List Proc.Label :=
  [.write Idx.exLong none, .write (exD 1 1) none, .setSources (exSources ["a"]), .run (fun _ => some exInfo) ["a"],
   .act 0 (.meet (encKey ⟨[0x3F800000, 0x3F800000], [65], 7, 0, 2, 1⟩)), .act 0 (.offer 0),
   .act 0 (.meet (exK 1)), .act 0 (.offer 0), .act 0 .endScan]

theorem C103_build_fails : ¬ C103_build_statement := by
  intro h
  have ht : (Proc.exec softP true (exStart 0) Idx.exMixed).map (fun s =>
      s.insts.map fun i => (Idx.dimension (indexItems i), (indexItems i).map fun it => (Idx.readVector 2 it.2).isSome)) =
      some [(some 2, [false, true])] := by decide +kernel
  obtain ⟨s, hr, hf⟩ := exec_reach ht
  cases hi : s.insts with
  | nil => rw [hi] at hf; cases hf
  | cons i is =>
    rw [hi] at hf
    simp only [List.map_cons, List.cons.injEq, Prod.mk.injEq] at hf
    obtain ⟨⟨h1, h2⟩, -⟩ := hf
    cases hx : indexItems i with
    | nil => rw [hx] at h2; cases h2
    | cons it its =>
      have := h softP _ _ s hr i (by rw [hi]; exact List.mem_cons_self) 2 h1 it (by rw [hx]; exact List.mem_cons_self)
      rw [hx] at h2
      simp only [List.map_cons, List.cons.injEq] at h2
      rw [h2.1] at this
      cases this

theorem C103_search_fails : ¬ C103_search_statement := by
  intro h
  have ht : (Proc.exec softP true (exStart 0) Idx.exMixed).map (fun s => s.dt.annoyer.map fun a => Idx.dimension a.items) =
      some (some (some 2)) := by decide +kernel
  obtain ⟨s, hr, hf⟩ := exec_reach ht
  cases ha : s.dt.annoyer with
  | none => rw [ha] at hf; cases hf
  | some a =>
    rw [ha] at hf
    simp only [Option.map_some, Option.some.injEq] at hf
    have := h softP _ _ s hr a ha 2 hf (exKey 1)
    exact absurd this (by decide)

/-- C103 is not empty: an index of one dimension, built from one insert. -/
theorem C103_example : (∀ l ∈ exFirst ["a"] 0, Idx.LabelOk 1 l) ∧
    (Proc.exec softP true (exStart 0) (exFirst ["a"] 0)).map (fun s => s.dt.annoyer.map fun a => Idx.dimension a.items) =
      some (some (some 1)) := by
  constructor
  · intro l hl
    simp only [exFirst, List.mem_cons, List.not_mem_nil, or_false] at hl
    rcases hl with rfl | rfl | rfl | rfl | rfl | rfl <;> try exact trivial
    intro k hk
    cases hk
    rfl
  · decide +kernel

end Veri
