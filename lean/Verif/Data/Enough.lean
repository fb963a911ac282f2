import Verif.Node.Contents
/-
C193: an insert is accepted if enough nodes take it.
-/
set_option autoImplicit false
namespace Veri
namespace Data
open Ref

/-- Each of these sources takes the insert or refuses it, whenever it is asked. -/
def Decided {σ : Type} (call : RemoteInsert σ) (d : Datum) (c : InsertConfig) (order : List SourceId) (willing : SourceId → Bool) : Prop :=
  ∀ s ∈ order, ∀ w, (call s d c w).2 = none ↔ willing s = true

theorem acks_decided {σ : Type} {call : RemoteInsert σ} {d : Datum} {c : InsertConfig} {willing : SourceId → Bool} :
    ∀ (l : List SourceId) (w : σ) (n : Nat), Decided call d c l willing → l.length ≤ n → acks (contact call d c l w).2 n = l.countP willing
  | [], w, n, _, _ => by simp [contact, acks]
  | s :: l, w, n, h, hn => by
    have hs := h s (by simp) w
    match n, hn with
    | n + 1, hn =>
      have ih := acks_decided l (call s d c w).1 n (fun s' hs' => h s' (by simp [hs'])) (by simpa using hn)
      simp only [contact, acks, List.take_succ_cons, List.countP_cons] at ih ⊢
      rw [ih]
      congr 1
      cases hw : willing s with
      | true => rw [hw] at hs; simp [hs.2 rfl]
      | false =>
        rw [hw] at hs
        have : (call s d c w).2 ≠ none := fun h => by simpa using hs.1 h
        cases hc : (call s d c w).2 with
        | none => exact absurd hc this
        | some e => simp

theorem take_count {p : SourceId → Bool} {l : List SourceId} {j k : Nat} (h : j ≤ k) : (l.take j).countP p ≤ (l.take k).countP p :=
  (List.take_sublist_take_left h).countP_le

end Data
open Ref Data Store

/-- C193, exactly: of an insert that a data set has to pass on, and for which it has room, those six sources decide that it happens to ask
first. -/
theorem C193_exact {σ : Type} (now : Int64) (order : List SourceId) (call : RemoteInsert σ) (dt : Data) (w : σ) (k : DatumKey) (v : DatumValue)
    (config : Option InsertConfig) (dc : DataConfig) (hwf : WF dt.dbMap) (hdc : dt.config = some dc) (hs : dt.initData.sources.isSome = true)
    (hfull : ¬ full dt) (hfw : forwards dt config) (willing : SourceId → Bool)
    (hd : Decided call ⟨some k, some v⟩ ⟨(config.getD ⟨0, 0⟩).ttl, 1⟩ order willing) :
    ∃ out, Data.insert now order call dt w (some ⟨some k, some v⟩) config = .ok out ∧ (∃ x, abs out.data.dbMap k = some x ∧ x.value = v) ∧
      (out.err = none ↔ dc.replicationOnInsert.toNat ≤ 1 + (order.take 6).countP willing) ∧
      (out.err ≠ none → out.err = some .tooFewReplicas) := by
  have hp := C71_wellformed_insert_partial now order call dt w k v config hwf (by rw [hdc]; rfl) hs
  cases hi : Data.insert now order call dt w (some ⟨some k, some v⟩) config with
  | panic => exact absurd hi hp
  | err e => exact absurd hi Iso.insert_no_err
  | ok out =>
    refine ⟨out, rfl, ?_, ?_⟩
    · rcases insert_cases now order call dt w _ config out hi with ⟨h, -⟩ | ⟨-, d, dc', m, b, h1, -, h3, hdata, -⟩
      · exact absurd h hfull
      · obtain ⟨m', b', hm, _, habs⟩ := insertBDMap_spec hwf now k v config
        rw [hm] at h3
        simp only [Res.ok.injEq, Prod.mk.injEq] at h3
        obtain ⟨rfl, -⟩ := h3
        rw [hdata]
        simp only [habs]
        rw [ref_insert_self]
        split
        · rename_i old ho
          split
          · rename_i hc; exact ⟨old, rfl, hc.1⟩
          · exact ⟨_, rfl, rfl⟩
        · exact ⟨_, rfl, rfl⟩
    · rcases insert_cases now order call dt w _ config out hi with ⟨h, -⟩ | ⟨-, d, dc', m, b, h1, h2, h3, -, h4⟩
      · exact absurd h hfull
      · simp only [Option.some.injEq] at h1
        subst h1
        rw [hdc] at h2
        injection h2 with h2
        subst h2
        rcases h4 with ⟨h, -⟩ | ⟨-, -, n, g1, g2, -, -, g5, g6⟩
        · exact absurd hfw h
        · have hdk : ∀ j, Decided call ⟨some k, some v⟩ ⟨(config.getD ⟨0, 0⟩).ttl, 1⟩ (order.take j) willing :=
            fun j s hs => hd s (List.mem_of_mem_take hs)
          have hak := acks_decided (order.take n) w n (hdk n) (by rw [List.length_take]; omega)
          rw [hak] at g5 g6
          rw [g6]
          have hmin : min 6 order.length = n → (order.take 6).countP willing = (order.take n).countP willing := by
            intro h
            congr 1
            by_cases hl : order.length ≤ 6
            · rw [List.take_of_length_le hl, List.take_of_length_le (by omega)]
            · rw [show n = 6 by omega]
          have hle := take_count (p := willing) (l := order) g1
          constructor
          · constructor
            · intro h
              split at h
              · cases h
              · omega
            · intro h
              rw [if_neg]
              rcases g5 with g5 | ⟨-, g5⟩
              · rw [hmin g5.symm] at h; omega
              · omega
          · intro h
            split at h
            · rename_i h'; rw [if_pos h']
            · exact absurd rfl h

/-- C193 at full strength: an insert is accepted if enough of the sources take it. -/
def C193_statement : Prop :=
  ∀ (now : Int64) (order : List SourceId) (call : RemoteInsert Unit) (dt : Data) (k : DatumKey) (v : DatumValue) (dc : DataConfig)
    (willing : SourceId → Bool), WF dt.dbMap → dt.config = some dc → dt.initData.sources.isSome = true → ¬ full dt → forwards dt none → order.Nodup →
    Decided call ⟨some k, some v⟩ ⟨0, 1⟩ order willing → dc.replicationOnInsert.toNat ≤ 1 + order.countP willing →
    ∃ out, Data.insert now order call dt () (some ⟨some k, some v⟩) none = .ok out ∧ out.err = none

/-- C193 for data sets with at most six sources: it is accepted, and stored, exactly if enough of them take it. -/
theorem C193_partial {σ : Type} (now : Int64) (order : List SourceId) (call : RemoteInsert σ) (dt : Data) (w : σ) (k : DatumKey) (v : DatumValue)
    (config : Option InsertConfig) (dc : DataConfig) (hwf : WF dt.dbMap) (hdc : dt.config = some dc) (hs : dt.initData.sources.isSome = true)
    (hfull : ¬ full dt) (hfw : forwards dt config) (willing : SourceId → Bool)
    (hd : Decided call ⟨some k, some v⟩ ⟨(config.getD ⟨0, 0⟩).ttl, 1⟩ order willing) (h6 : order.length ≤ 6) :
    ∃ out, Data.insert now order call dt w (some ⟨some k, some v⟩) config = .ok out ∧ (∃ x, abs out.data.dbMap k = some x ∧ x.value = v) ∧
      (out.err = none ↔ dc.replicationOnInsert.toNat ≤ 1 + order.countP willing) := by
  obtain ⟨out, h1, h2, h3, -⟩ := C193_exact now order call dt w k v config dc hwf hdc hs hfull hfw willing hd
  rw [List.take_of_length_le h6] at h3
  exact ⟨out, h1, h2, h3⟩

namespace Data

/-- Two copies are asked for. -/
def exTwoCopies : DataConfig := ⟨"a", 0, 1000, 0, true, 2, true, 0⟩

/-- Only the source `z` takes inserts. -/
def exOnlyZ : RemoteInsert Unit := fun s _ _ _ => ((), if s = "z" then none else some .drain)

theorem exTwoCopies_open {c : DataConfig} (h1 : (newData exTwoCopies).config = some c) (h2 : c.noTarget = false) : False := by
  have : some exTwoCopies = some c := h1
  cases this
  cases h2

theorem exOnlyZ_decided (d : Datum) (c : InsertConfig) (order : List SourceId) : Decided exOnlyZ d c order (fun s => decide (s = "z")) := by
  intro s _ w
  simp only [exOnlyZ]
  split <;> simp_all

end Data

/-- Six draining nodes are asked, the seventh would have taken it. -/
theorem C193_fails : ¬ C193_statement := by
  intro h
  have hfull : ¬ full (newData exTwoCopies) := by
    rintro ⟨c, h1, h2, -⟩
    exact exTwoCopies_open h1 h2
  have hfw : forwards (newData exTwoCopies) none := ⟨⟨exTwoCopies, rfl, rfl⟩, by simp⟩
  have hd := exOnlyZ_decided ⟨some (exKey 1), some (exVal 1)⟩ ⟨0, 1⟩ ["a", "b", "c", "d", "e", "f", "z"]
  obtain ⟨out, h1, h2⟩ := h 0 ["a", "b", "c", "d", "e", "f", "z"] exOnlyZ (newData exTwoCopies) (exKey 1) (exVal 1) exTwoCopies
    (fun s => decide (s = "z")) wf_nil rfl rfl hfull hfw (by decide) hd (by decide)
  obtain ⟨out', g1, -, g3, -⟩ := C193_exact 0 ["a", "b", "c", "d", "e", "f", "z"] exOnlyZ (newData exTwoCopies) () (exKey 1) (exVal 1) none exTwoCopies
    wf_nil rfl rfl hfull hfw _ hd
  rw [h1] at g1
  simp only [Res.ok.injEq] at g1
  subst g1
  exact absurd (g3.1 h2) (by decide)

/-- With one draining node less it is accepted. -/
theorem C193_example : ∃ out, Data.insert 0 ["b", "c", "d", "e", "f", "z"] exOnlyZ (newData exTwoCopies) () (some ⟨some (exKey 1), some (exVal 1)⟩) none =
    .ok out ∧ out.err = none := by
  obtain ⟨out, h1, -, h2⟩ := C193_partial 0 ["b", "c", "d", "e", "f", "z"] exOnlyZ (newData exTwoCopies) () (exKey 1) (exVal 1) none exTwoCopies
    wf_nil rfl rfl (by
      rintro ⟨c, h1, h2, -⟩
      exact exTwoCopies_open h1 h2) ⟨⟨exTwoCopies, rfl, rfl⟩, by simp⟩ _ (exOnlyZ_decided _ _ _) (by decide)
  exact ⟨out, h1, h2.2 (by decide)⟩

end Veri
