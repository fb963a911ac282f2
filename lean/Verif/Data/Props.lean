import Verif.Data.Model
/-
C15, C17, C18, C19 (one node), C20, C21, C71.
-/
set_option autoImplicit false
namespace Veri
open Gencoder Store

namespace Ref

/-- Independent description of replication: ask the listed peers one after the other; the world afterwards and
their answers (`none` = accepted). -/
def contact {σ : Type} (call : SourceId → Datum → InsertConfig → σ → σ × Option Err) (d : Datum) (c : InsertConfig) :
    List SourceId → σ → σ × List (Option Err)
  | [], w => (w, [])
  | s :: ss, w =>
    let r := call s d c w
    let rest := contact call d c ss r.1
    (rest.1, r.2 :: rest.2)

/-- How many of the first `j` answers are acceptances. -/
def acks (answers : List (Option Err)) (j : Nat) : Nat := (answers.take j).countP fun e => e.isNone

/-- The data set is full: it has a target and its last computed size has reached it. -/
def full (dt : Data) : Prop := ∃ c, dt.config = some c ∧ c.noTarget = false ∧ c.targetN ≤ dt.n

/-- The data set forwards this insert to peers. -/
def forwards (dt : Data) (config : Option InsertConfig) : Prop :=
  (∃ c, dt.config = some c ∧ c.enforceReplicationOnInsert = true) ∧ (∀ c, config = some c → c.count = 0)

end Ref

namespace Data
open Ref

theorem contact_length {σ : Type} (call : RemoteInsert σ) (d : Datum) (c : InsertConfig) :
    ∀ (l : List SourceId) (w : σ), (contact call d c l w).2.length = l.length
  | [], _ => rfl
  | s :: ss, w => by simp [contact, contact_length call d c ss]

theorem acks_le (l : List (Option Err)) (j : Nat) : acks l j ≤ j := by
  unfold acks
  exact Nat.le_trans List.countP_le_length (by simp; omega)

theorem acks_cons_succ (e : Option Err) (l : List (Option Err)) (j : Nat) :
    acks (e :: l) (j + 1) = (if e = none then 1 else 0) + acks l j := by
  unfold acks
  rw [List.take_succ_cons, List.countP_cons]
  cases e <;> simp [Nat.add_comm]

theorem runOnSources_replicate {σ : Type} (call : RemoteInsert σ) (d : Datum) (c : InsertConfig) (r : UInt32) :
    ∀ (order : List SourceId) (m : Nat) (w : σ) (cnt : UInt32), cnt.toNat + m < 2^32 →
    ∃ k, k ≤ m ∧ k ≤ order.length ∧
      (runOnSources (replicate call d c r) ((m : Int) - 1) order (w, cnt)).1.1 = (contact call d c (order.take k) w).1 ∧
      (runOnSources (replicate call d c r) ((m : Int) - 1) order (w, cnt)).1.2.toNat =
        cnt.toNat + acks (contact call d c (order.take k) w).2 k ∧
      (∀ j, 1 ≤ j → j < k → cnt.toNat + acks (contact call d c (order.take k) w).2 j < r.toNat) ∧
      (k = min m order.length ∨
        (1 ≤ k ∧ r.toNat ≤ cnt.toNat + acks (contact call d c (order.take k) w).2 k)) := by
  intro order
  induction order with
  | nil => intro m w cnt h; exact ⟨0, by omega, by simp, rfl, by simp [runOnSources, acks], by omega, Or.inl (by simp)⟩
  | cons s ss ih =>
    intro m w cnt hm
    cases m with
    | zero =>
      refine ⟨0, by omega, by simp, ?_, ?_, by omega, Or.inl (by simp)⟩ <;> simp [runOnSources, contact, acks]
    | succ m =>
      have hlim : ¬ ((m + 1 : Nat) : Int) - 1 < 0 := by omega
      simp only [runOnSources, if_neg hlim]
      generalize hc : call s d c w = res
      obtain ⟨w', e⟩ := res
      have hcnt : (if e = none then cnt + 1 else cnt).toNat = cnt.toNat + (if e = none then 1 else 0) := by
        split
        · rw [UInt32.toNat_add]
          have : (1 : UInt32).toNat = 1 := rfl
          omega
        · rfl
      by_cases hr : (if e = none then cnt + 1 else cnt) ≥ r
      · refine ⟨1, by omega, by simp, ?_, ?_, by omega, Or.inr ⟨by omega, ?_⟩⟩
        · simp only [replicate, hc, if_pos hr, List.take_succ_cons, List.take_zero, contact]
        · simp only [replicate, hc, if_pos hr, List.take_succ_cons, List.take_zero, contact, hcnt]
          rw [acks_cons_succ]; simp [acks]
        · rw [List.take_succ_cons]
          simp only [contact, hc, List.take_zero]
          rw [acks_cons_succ]
          have := UInt32.le_iff_toNat_le.1 hr
          rw [hcnt] at this
          simpa [acks] using this
      · have hrun : replicate call d c r s (w, cnt) = ((w', if e = none then cnt + 1 else cnt), none) := by
          simp only [replicate, hc, if_neg hr]
        rw [hrun]
        simp only []
        have hlim' : ((m + 1 : Nat) : Int) - 1 - 1 = (m : Int) - 1 := by omega
        rw [hlim']
        obtain ⟨k, h1, h2, h3, h4, h5, h6⟩ := ih m w' (if e = none then cnt + 1 else cnt) (by
          rw [hcnt]; split <;> omega)
        have hlt : cnt.toNat + (if e = none then 1 else 0) < r.toNat := by
          have : ¬ r ≤ (if e = none then cnt + 1 else cnt) := hr
          rw [UInt32.le_iff_toNat_le, hcnt] at this
          omega
        refine ⟨k + 1, by omega, by simp; omega, ?_, ?_, ?_, ?_⟩
        · rw [h3]; simp [contact, hc]
        · rw [h4, hcnt]; simp only [List.take_succ_cons, contact, hc]; rw [acks_cons_succ]; omega
        · intro j hj1 hj2
          simp only [List.take_succ_cons, contact, hc]
          cases j with
          | zero => omega
          | succ j =>
            rw [acks_cons_succ]
            cases j with
            | zero => simp only [acks, List.take_zero, List.countP_nil]; omega
            | succ j =>
              have := h5 (j + 1) (by omega) (by omega)
              rw [hcnt] at this
              omega
        · rcases h6 with h6 | ⟨h6, h7⟩
          · left; simp only [List.length_cons]; omega
          · right
            refine ⟨by omega, ?_⟩
            simp only [List.take_succ_cons, contact, hc]
            rw [acks_cons_succ]
            rw [hcnt] at h7
            omega

/-- The refusal test of data/insert.go:12. -/
theorem full_iff (dt : Data) :
    dt.overTarget = true ↔ full dt := by
  unfold full overTarget
  cases dt.config with
  | none => simp
  | some c => simp

theorem initData_config (dt : Data) : dt.initData.config = dt.config := by
  unfold initData; split <;> rfl

theorem initData_dbMap (dt : Data) : dt.initData.dbMap = dt.dbMap := by
  unfold initData; split <;> rfl

theorem initData_of_initialized {dt : Data} (h : dt.initialized = true) : dt.initData = dt := by
  unfold initData; rw [if_pos h]

/-- Everything about an accepted-or-failed (not refused) insert, in one place. -/
theorem insert_unfold {σ : Type} (now : Int64) (order : List SourceId) (call : RemoteInsert σ) (dt : Data) (w : σ)
    (datum : Option Datum) (config : Option InsertConfig) (hf : ¬ full dt) :
    insert now order call dt w datum config =
      (Store.insertBDMap now dt.dbMap datum config).bind fun p =>
        let dt' : Data := { dt.initData with
          dbMap := p.1
          recentInsertCount := if p.2 then dt.initData.recentInsertCount + 1 else dt.initData.recentInsertCount
          dirty := true }
        let c := config.getD ⟨0, 0⟩
        (Res.ofOption dt.config).bind fun dc =>
        if dc.enforceReplicationOnInsert = true ∧ c.count = 0 then
          (Res.ofOption dt.initData.sources).bind fun _ =>
          (Res.ofOption datum).bind fun d =>
          let out := runOnSources (replicate call d { c with count := c.count + 1 } dc.replicationOnInsert) 5 order (w, 1)
          .ok ⟨dt', out.1.1, config.map fun _ => { c with count := c.count + 1 },
            if out.1.2 < dc.replicationOnInsert then some .tooFewReplicas else none⟩
        else .ok ⟨dt', w, config, none⟩ := by
  unfold insert
  rw [if_neg (fun h => hf ((full_iff dt).1 h))]
  simp only [initData_dbMap, initData_config]

theorem forwards_iff (dt : Data) (config : Option InsertConfig) (dc : DataConfig) (h : dt.config = some dc) :
    (dc.enforceReplicationOnInsert = true ∧ (config.getD ⟨0, 0⟩).count = 0) ↔ forwards dt config := by
  unfold forwards
  rw [h]
  cases config with
  | none => simp
  | some c => simp

/-- A returned insert: refused, stored only, or stored and replicated. -/
theorem insert_cases {σ : Type} (now : Int64) (order : List SourceId) (call : RemoteInsert σ) (dt : Data) (w : σ)
    (datum : Option Datum) (config : Option InsertConfig) (out : InsertOut σ)
    (h : insert now order call dt w datum config = .ok out) :
    (full dt ∧ out = ⟨dt, w, config, some .overTarget⟩) ∨
    (¬ full dt ∧ ∃ d dc m b, datum = some d ∧ dt.config = some dc ∧
      Store.insertBDMap now dt.dbMap datum config = .ok (m, b) ∧
      out.data = { dt.initData with dbMap := m
                                    recentInsertCount := if b then dt.initData.recentInsertCount + 1
                                      else dt.initData.recentInsertCount
                                    dirty := true } ∧
      ((¬ forwards dt config ∧ out.world = w ∧ out.config = config ∧ out.err = none) ∨
       (forwards dt config ∧
        let c : InsertConfig := ⟨(config.getD ⟨0, 0⟩).ttl, 1⟩
        out.config = config.map (fun _ => c) ∧
        ∃ k, k ≤ 6 ∧ k ≤ order.length ∧
          out.world = (contact call d c (order.take k) w).1 ∧
          (∀ j, 1 ≤ j → j < k → 1 + acks (contact call d c (order.take k) w).2 j < dc.replicationOnInsert.toNat) ∧
          (k = min 6 order.length ∨
            (1 ≤ k ∧ dc.replicationOnInsert.toNat ≤ 1 + acks (contact call d c (order.take k) w).2 k)) ∧
          out.err = if 1 + acks (contact call d c (order.take k) w).2 k < dc.replicationOnInsert.toNat
            then some .tooFewReplicas else none))) := by
  by_cases hf : full dt
  · left
    refine ⟨hf, ?_⟩
    unfold insert at h
    rw [if_pos ((full_iff dt).2 hf)] at h
    injection h with h
    exact h.symm
  · right
    refine ⟨hf, ?_⟩
    rw [insert_unfold _ _ _ _ _ _ _ hf] at h
    cases datum with
    | none => unfold Store.insertBDMap at h; simp at h
    | some d =>
      cases hi : Store.insertBDMap now dt.dbMap (some d) config with
      | panic => rw [hi] at h; cases h
      | err e => rw [hi] at h; cases h
      | ok p =>
        rw [hi] at h
        cases hdc : dt.config with
        | none => rw [hdc] at h; simp at h
        | some dc =>
          rw [hdc] at h
          simp only [Res.bind_ok, Res.ofOption_some] at h
          refine ⟨d, dc, p.1, p.2, rfl, rfl, rfl, ?_⟩
          by_cases hfw : dc.enforceReplicationOnInsert = true ∧ (config.getD ⟨0, 0⟩).count = 0
          · rw [if_pos hfw] at h
            cases hs : Res.ofOption dt.initData.sources with
            | panic => rw [hs] at h; simp at h
            | err e => rw [hs] at h; simp at h
            | ok ss =>
              rw [hs] at h
              simp only [Res.bind_ok] at h
              injection h with h
              subst h
              refine ⟨rfl, Or.inr ⟨(forwards_iff dt config dc hdc).1 hfw, ?_⟩⟩
              have hc : ({ config.getD ⟨0, 0⟩ with count := (config.getD ⟨0, 0⟩).count + 1 } : InsertConfig) =
                  ⟨(config.getD ⟨0, 0⟩).ttl, 1⟩ := by rw [hfw.2]; rfl
              rw [hc]
              refine ⟨rfl, ?_⟩
              obtain ⟨k, h1, h2, h3, h4, h5, h6⟩ := runOnSources_replicate call d ⟨(config.getD ⟨0, 0⟩).ttl, 1⟩
                dc.replicationOnInsert order 6 w 1 (by decide)
              rw [show ((6 : Nat) : Int) - 1 = 5 from rfl] at h3 h4
              have h11 : (1 : UInt32).toNat = 1 := rfl
              rw [h11] at h4 h5 h6
              refine ⟨k, h1, h2, h3, h5, h6, ?_⟩
              simp only [UInt32.lt_iff_toNat_lt, h4]
          · rw [if_neg hfw] at h
            injection h with h
            subst h
            exact ⟨rfl, Or.inl ⟨fun hh => hfw ((forwards_iff dt config dc hdc).2 hh), rfl, rfl, rfl⟩⟩

end Data

open Data Ref

/-- C15.  An insert is refused with the over-target error exactly when the data set is full, and then nothing
changes: not the data set, not the world (no peer is contacted), not the caller's configuration. -/
theorem C15_over_target_refused {σ : Type} (now : Int64) (order : List SourceId) (call : RemoteInsert σ) (dt : Data)
    (w : σ) (datum : Option Datum) (config : Option InsertConfig) :
    (full dt → Data.insert now order call dt w datum config = .ok ⟨dt, w, config, some .overTarget⟩) ∧
    (∀ out, Data.insert now order call dt w datum config = .ok out → out.err = some .overTarget → full dt) := by
  constructor
  · intro hf
    unfold Data.insert
    rw [if_pos ((full_iff dt).2 hf)]
  · intro out h he
    rcases insert_cases now order call dt w datum config out h with ⟨hf, _⟩ | ⟨_, d, dc, m, b, _, _, _, _, h2⟩
    · exact hf
    · exfalso
      rcases h2 with ⟨_, _, _, h3⟩ | ⟨_, _, k, _, _, _, _, _, h3⟩
      · rw [he] at h3; cases h3
      · rw [he] at h3; split at h3 <;> cases h3

/-- C17.  If a forwarded insert succeeds, then this node holds the datum and enough of the (distinct) peers it
asked accepted it: together at least the replication number. -/
theorem C17_success_means_replicas {σ : Type} (now : Int64) (order : List SourceId) (call : RemoteInsert σ)
    (dt : Data) (w : σ) (k : DatumKey) (v : DatumValue) (config : Option InsertConfig) (out : InsertOut σ)
    (dc : DataConfig) (hwf : WF dt.dbMap) (hdc : dt.config = some dc) (hfw : forwards dt config) (hnd : order.Nodup)
    (h : Data.insert now order call dt w (some ⟨some k, some v⟩) config = .ok out) (hok : out.err = none) :
    (∃ x, abs out.data.dbMap k = some x ∧ x.value = v) ∧
    ∃ contacted, contacted.Nodup ∧ (∀ s ∈ contacted, s ∈ order) ∧
      let c : InsertConfig := ⟨(config.getD ⟨0, 0⟩).ttl, 1⟩
      out.world = (contact call ⟨some k, some v⟩ c contacted w).1 ∧
      dc.replicationOnInsert.toNat ≤
        1 + acks (contact call ⟨some k, some v⟩ c contacted w).2 contacted.length := by
  rcases insert_cases now order call dt w _ config out h with ⟨_, rfl⟩ | ⟨_, d, dc', m, b, hd, hdc', hi, hdata, h2⟩
  · simp at hok
  · injection hd with hd
    subst hd
    have hdcc : dc' = dc := by rw [hdc'] at hdc; injection hdc
    subst hdcc
    constructor
    · obtain ⟨m', b', hm, _, habs⟩ := insertBDMap_spec hwf now k v config
      rw [hm] at hi
      injection hi with hi
      injection hi with hi1 hi2
      subst hi1
      rw [hdata]
      simp only [habs]
      rw [ref_insert_self]
      split
      · rename_i old ho
        split
        · rename_i hc; exact ⟨old, rfl, hc.1⟩
        · exact ⟨_, rfl, rfl⟩
      · exact ⟨_, rfl, rfl⟩
    · rcases h2 with ⟨hn, _⟩ | ⟨_, _, n, _, hn, hw, _, _, he⟩
      · exact absurd hfw hn
      · refine ⟨order.take n, hnd.sublist (List.take_sublist _ _), fun s hs => List.mem_of_mem_take hs, hw, ?_⟩
        rw [hok] at he
        rw [List.length_take, Nat.min_eq_left hn]
        split at he
        · cases he
        · omega

/-- C18, full statement: after an insert that returned an error, the key shows what it showed before.
FALSE of the code. -/
def C18_failed_insert_invisible_statement : Prop :=
  ∀ (now : Int64) (order : List SourceId) (call : RemoteInsert Unit) (dt : Data) (k : DatumKey) (v : DatumValue)
    (config : Option InsertConfig) (out : InsertOut Unit) (e : Err),
    WF dt.dbMap → Data.insert now order call dt () (some ⟨some k, some v⟩) config = .ok out → out.err = some e →
    abs out.data.dbMap k = abs dt.dbMap k

namespace Data
/-- A configuration with enforced replication on two nodes. -/
def exConfig : DataConfig := ⟨"example", 0, 1000, 0, false, 2, true, 0⟩
/-- A peer that refuses everything. -/
def exRefuse : RemoteInsert Unit := fun _ _ _ w => (w, some .connection)
end Data

/-- C18, partial: a failed insert leaves the store untouched when it was refused (over target); the only other
error is "too few replicas", and then the datum is stored. -/
theorem C18_failed_insert_partial {σ : Type} (now : Int64) (order : List SourceId) (call : RemoteInsert σ) (dt : Data)
    (w : σ) (k : DatumKey) (v : DatumValue) (config : Option InsertConfig) (out : InsertOut σ) (e : Err)
    (hwf : WF dt.dbMap)
    (h : Data.insert now order call dt w (some ⟨some k, some v⟩) config = .ok out) (he : out.err = some e) :
    (e = .overTarget ∧ out.data = dt ∧ out.world = w) ∨
    (e = .tooFewReplicas ∧ (∃ x, abs out.data.dbMap k = some x ∧ x.value = v) ∧
      ∀ k', k' ≠ k → abs out.data.dbMap k' = abs dt.dbMap k') := by
  rcases insert_cases now order call dt w _ config out h with ⟨_, rfl⟩ | ⟨_, d, dc, m, b, hd, hdc, hi, hdata, h2⟩
  · left; simp at he; exact ⟨he.symm, rfl, rfl⟩
  · right
    obtain ⟨m', b', hm, _, habs⟩ := insertBDMap_spec hwf now k v config
    rw [hm] at hi
    injection hi with hi
    injection hi with hi1 hi2
    subst hi1
    refine ⟨?_, ?_, ?_⟩
    · rcases h2 with ⟨_, _, _, h3⟩ | ⟨_, _, _, _, _, _, _, _, h3⟩
      · rw [he] at h3; cases h3
      · rw [he] at h3
        split at h3
        · injection h3
        · cases h3
    · rw [hdata]
      simp only [habs]
      rw [ref_insert_self]
      split
      · rename_i old ho
        split
        · rename_i hc; exact ⟨old, rfl, hc.1⟩
        · exact ⟨_, rfl, rfl⟩
      · exact ⟨_, rfl, rfl⟩
    · intro k' hk'
      rw [hdata]
      simp only [habs]
      exact ref_insert_ne _ _ _ _ _ _ hk'

/-- C19 (one node).  A forwarded insert contacts a prefix of the sources, at most six of them, in order, each
with the same datum, the same TTL and the replica mark 1; it stops after the first contacted peer that brings the
number of copies to the replication number.  An insert that carries a replica mark contacts nobody. -/
theorem C19_fanout_bounded {σ : Type} (now : Int64) (order : List SourceId) (call : RemoteInsert σ) (dt : Data)
    (w : σ) (d : Datum) (config : Option InsertConfig) (out : InsertOut σ)
    (h : Data.insert now order call dt w (some d) config = .ok out) :
    (¬ forwards dt config → out.world = w) ∧
    ∃ n, n ≤ 6 ∧ n ≤ order.length ∧
      let r := contact call d ⟨(config.getD ⟨0, 0⟩).ttl, 1⟩ (order.take n) w
      out.world = r.1 ∧
      ∀ dc, dt.config = some dc → ∀ j, 1 ≤ j → j < n → 1 + acks r.2 j < dc.replicationOnInsert.toNat := by
  rcases insert_cases now order call dt w _ config out h with ⟨_, rfl⟩ | ⟨_, d', dc, m, b, hd, hdc, hi, hdata, h2⟩
  · exact ⟨fun _ => rfl, 0, by omega, by omega, rfl, by intros; omega⟩
  · injection hd with hd
    subst hd
    rcases h2 with ⟨hn, hw, _⟩ | ⟨hfw, _, n, h6, hn, hw, hstop, _⟩
    · exact ⟨fun _ => hw, 0, by omega, by omega, hw, by intros; omega⟩
    · refine ⟨fun hh => absurd hfw hh, n, h6, hn, hw, ?_⟩
      intro dc' hdc' j hj1 hj2
      rw [hdc] at hdc'
      injection hdc' with hdc'
      subst hdc'
      exact hstop j hj1 hj2

/-- An insert marked as a replica (count ≠ 0) is never forwarded. -/
theorem C19_replica_not_forwarded {σ : Type} (now : Int64) (order : List SourceId) (call : RemoteInsert σ) (dt : Data)
    (w : σ) (d : Datum) (c : InsertConfig) (hc : c.count ≠ 0) (out : InsertOut σ)
    (h : Data.insert now order call dt w (some d) (some c) = .ok out) : out.world = w :=
  (C19_fanout_bounded now order call dt w d (some c) out h).1 fun hf => hc (hf.2 c rfl)

/-- C19: seven peers, replication 9, all accept: six are contacted. -/
example : (runOnSources (replicate (fun s _ _ (w : List SourceId) => (w ++ [s], none)) ⟨some (exKey 1), none⟩ ⟨0, 1⟩ 9) 5
    ["a", "b", "c", "d", "e", "f", "g"] ([], 1)).1 = (["a", "b", "c", "d", "e", "f"], 7) := by decide

/-- C20.  A draining node refuses every insert with the drain error and changes nothing. -/
theorem C20_drain_refuses {σ : Type} (now : Int64) (order : List SourceId) (call : RemoteInsert σ) (dt : Data) (w : σ)
    (datum : Option Datum) (config : Option InsertConfig) :
    nodeInsert true now order call dt w datum config = .ok ⟨dt, w, config, some .drain⟩ := rfl

/-- Without drain the request is the data set's insert. -/
theorem C20_no_drain_inserts {σ : Type} (now : Int64) (order : List SourceId) (call : RemoteInsert σ) (dt : Data) (w : σ)
    (datum : Option Datum) (config : Option InsertConfig) :
    nodeInsert false now order call dt w datum config = Data.insert now order call dt w datum config := rfl

/-- C21, full statement: the caller's configuration is as it was.  FALSE of the code. -/
def C21_config_unchanged_statement : Prop :=
  ∀ (now : Int64) (order : List SourceId) (call : RemoteInsert Unit) (dt : Data) (d : Datum)
    (config : Option InsertConfig) (out : InsertOut Unit),
    Data.insert now order call dt () (some d) config = .ok out → out.config = config

/-- C21, exact behaviour: the TTL is never changed; the count is changed from 0 to 1 exactly by a forwarded insert.
So a configuration used again with the same data set is not forwarded the second time. -/
theorem C21_config_partial {σ : Type} (now : Int64) (order : List SourceId) (call : RemoteInsert σ) (dt : Data) (w : σ)
    (d : Datum) (c : InsertConfig) (out : InsertOut σ)
    (h : Data.insert now order call dt w (some d) (some c) = .ok out) :
    (forwards dt (some c) ∧ ¬ full dt ∧ out.config = some ⟨c.ttl, 1⟩) ∨
    ((¬ forwards dt (some c) ∨ full dt) ∧ out.config = some c) := by
  rcases insert_cases now order call dt w _ _ out h with ⟨hf, rfl⟩ | ⟨hf, d', dc, m, b, hd, hdc, hi, hdata, h2⟩
  · exact Or.inr ⟨Or.inr hf, rfl⟩
  · rcases h2 with ⟨hn, _, hc, _⟩ | ⟨hfw, hc, _⟩
    · exact Or.inr ⟨Or.inl hn, hc⟩
    · exact Or.inl ⟨hfw, hf, by simpa using hc⟩

namespace Data
/-- The store after the first insert of the examples. -/
def exMap (e : Int64) : DBMap := [(encKey (exKey 1), ⟨e, ⟨some (exKey 1), some (exVal 1)⟩⟩)]

theorem exNotFull : ¬ full (newData exConfig) := by
  rintro ⟨c, hc, _, hn⟩
  injection hc with hc
  rw [← hc] at hn
  exact absurd hn (by decide)

theorem insert_new_example (call : RemoteInsert Unit) (order : List SourceId) (c : InsertConfig)
    (hc : c.count = 0) :
    insert 1000 order call (newData exConfig) () (some ⟨some (exKey 1), some (exVal 1)⟩) (some c) =
      .ok ⟨{ newData exConfig with dbMap := exMap (expireAtOf 1000 (some c)), recentInsertCount := 1, dirty := true },
        (), some ⟨c.ttl, 1⟩,
        if (runOnSources (replicate call ⟨some (exKey 1), some (exVal 1)⟩ ⟨c.ttl, 1⟩ 2) 5 order ((), 1)).1.2 < 2
          then some .tooFewReplicas else none⟩ := by
  rw [insert_unfold _ _ _ _ _ _ _ exNotFull]
  have h1 : Store.insertBDMap 1000 (newData exConfig).dbMap (some ⟨some (exKey 1), some (exVal 1)⟩) (some c) =
      .ok (exMap (expireAtOf 1000 (some c)), true) := insert_empty 1000 (exKey 1) (exVal 1) (some c)
  have h2 : (newData exConfig).config = some exConfig := rfl
  have h3 : (newData exConfig).initData = newData exConfig := rfl
  have h4 : (newData exConfig).sources = some [] := rfl
  have h5 : exConfig.enforceReplicationOnInsert = true := rfl
  have h6 : exConfig.replicationOnInsert = 2 := rfl
  obtain ⟨t, n⟩ := c
  simp only at hc
  subst hc
  rw [h1, h2, h3, h4]
  simp only [Res.bind_ok, Res.ofOption_some, h5, h6, Option.getD_some, and_self, if_true, Option.map_some]
  rfl
end Data

/-- C18, counterexample: with replication 2 and no peer, the insert fails but the datum stays. -/
theorem C18_failed_insert_invisible_fails : ¬ C18_failed_insert_invisible_statement := by
  intro h
  have := h _ _ _ _ _ _ _ _ .tooFewReplicas wf_nil (insert_new_example exRefuse [] ⟨60, 0⟩ rfl) rfl
  have e1 : abs (newData exConfig).dbMap (exKey 1) = none := rfl
  rw [e1] at this
  simp [abs, exMap, get?_single] at this

/-- C21, counterexample. -/
theorem C21_config_unchanged_fails : ¬ C21_config_unchanged_statement := by
  intro h
  have := h 1000 [] exRefuse _ _ (some ⟨60, 0⟩) _ (insert_new_example exRefuse [] ⟨60, 0⟩ rfl)
  simp at this

/-- C17/C18/C19/C21 non-vacuity: a forwarded insert to one accepting peer succeeds with two copies. -/
example : ∃ out, Data.insert 1000 ["peer"] (fun _ _ _ w => (w, none)) (newData exConfig) ()
    (some ⟨some (exKey 1), some (exVal 1)⟩) (some ⟨60, 0⟩) = .ok out ∧ out.err = none ∧
    forwards (newData exConfig) (some ⟨60, 0⟩) ∧ WF (newData exConfig).dbMap ∧ ¬ full (newData exConfig) := by
  refine ⟨_, insert_new_example _ _ _ rfl, by decide, ⟨⟨exConfig, rfl, rfl⟩, ?_⟩, wf_nil, exNotFull⟩
  · intro c hc; injection hc with hc; rw [← hc]

/-- C15 non-vacuity: a data set whose size has reached its target. -/
example : full { newData exConfig with n := 1000 } := ⟨exConfig, rfl, rfl, by decide⟩

/-- C71, full statement: no insert request makes the node panic.  FALSE of the code. -/
def C71_no_insert_crashes_statement : Prop :=
  ∀ (now : Int64) (order : List SourceId) (call : RemoteInsert Unit) (dt : Data) (datum : Option Datum)
    (config : Option InsertConfig), dt.initialized = true → dt.sources.isSome = true → dt.config.isSome = true →
    WF0 dt.dbMap → Data.insert now order call dt () datum config ≠ .panic

/-- C71, counterexample: a request without a datum. -/
theorem C71_no_insert_crashes_fails : ¬ C71_no_insert_crashes_statement := by
  intro h
  refine h 0 [] exRefuse (newData exConfig) none none rfl rfl rfl wf_nil.1 ?_
  rw [insert_unfold _ _ _ _ _ _ _ exNotFull]
  rfl

/-- C71, exact behaviour on an initialised data set: the insert panics exactly when the data set is not full and
the request has no datum, or a datum without key, or the key is already stored and the new or the stored datum has
no value. -/
theorem C71_insert_panics_iff {σ : Type} (now : Int64) (order : List SourceId) (call : RemoteInsert σ) (dt : Data)
    (w : σ) (datum : Option Datum) (config : Option InsertConfig) (hc : dt.config.isSome = true)
    (hs : dt.initData.sources.isSome = true) :
    Data.insert now order call dt w datum config = .panic ↔
      ¬ full dt ∧ (datum = none ∨ (∃ d, datum = some d ∧
        (d.key = none ∨ ∃ k e, d.key = some k ∧ dt.dbMap.get? (encKey k) = some e ∧
          (d.value = none ∨ e.datum.value = none)))) := by
  by_cases hf : full dt
  · rw [(C15_over_target_refused now order call dt w datum config).1 hf]; simp [hf]
  · rw [insert_unfold _ _ _ _ _ _ _ hf]
    obtain ⟨dc, hdc⟩ := Option.isSome_iff_exists.1 hc
    obtain ⟨ss, hss⟩ := Option.isSome_iff_exists.1 hs
    rw [hdc, hss]
    simp only [Res.ofOption_some, Res.bind_ok, hf, not_false_eq_true, true_and]
    cases datum with
    | none => simp [insertBDMap]
    | some d =>
      simp only [Res.ofOption_some, Res.bind_ok, reduceCtorEq, false_or, Option.some.injEq, exists_eq_left']
      have hb : ∀ (x : Res (DBMap × Bool)) (f : DBMap × Bool → Res (InsertOut σ)), (∀ p, f p ≠ .panic) →
          (x.bind f = .panic ↔ x = .panic) := by
        intro x f hfp
        cases x with
        | ok p => simpa using hfp p
        | err e => simp
        | panic => simp
      rw [hb _ _ (fun p => by split <;> simp)]
      obtain ⟨key, value⟩ := d
      cases key with
      | none => simp [insertBDMap, getKeyAsBytes]
      | some k =>
        simp only [insertBDMap, getKeyAsBytes_some, Res.ofOption_some, Res.bind_ok, Res.bind_eq, reduceCtorEq, false_or,
          Option.some.injEq, encodeToString]
        cases hg : dt.dbMap.get? (encKey k) with
        | none => simp [hg]
        | some e =>
          cases value with
          | none => simp [hg, getValueAsBytes]
          | some v =>
            cases he : e.datum.value with
            | none =>
              have h2 : getValueAsBytes e.datum = none := by simp [getValueAsBytes, he]
              simp [getValueAsBytes_some, h2, hg, he]
            | some v' =>
              have h2 : getValueAsBytes e.datum = some (encValue v') := by
                rw [← getValueAsBytes_some e.datum.key v', ← he]
              simp only [getValueAsBytes_some, h2, Res.ofOption_some, Res.bind_ok]
              split <;> simp [hg, he]

/-- C71, partial: a request with key and value never panics on a store built from such requests. -/
theorem C71_wellformed_insert_partial {σ : Type} (now : Int64) (order : List SourceId) (call : RemoteInsert σ)
    (dt : Data) (w : σ) (k : DatumKey) (v : DatumValue) (config : Option InsertConfig) (hwf : WF dt.dbMap)
    (hc : dt.config.isSome = true) (hs : dt.initData.sources.isSome = true) :
    Data.insert now order call dt w (some ⟨some k, some v⟩) config ≠ .panic := by
  intro h
  obtain ⟨_, h | ⟨d, hd, h⟩⟩ := (C71_insert_panics_iff now order call dt w _ config hc hs).1 h
  · cases h
  · injection hd with hd
    subst hd
    rcases h with h | ⟨k', e, hk', he, h⟩
    · cases h
    · rcases h with h | h
      · cases h
      · obtain ⟨_, v', _, hv⟩ := hwf.entry (AMap.mem_of_get? he)
        rw [hv] at h
        cases h

/-- C71: a datum without value is accepted once; the second insert of the same key panics. -/
example (x : Int64) : Store.insertBDMap 5 [(encKey (exKey 1), ⟨x, ⟨some (exKey 1), none⟩⟩)]
    (some ⟨some (exKey 1), none⟩) none = .panic := by
  simp [insertBDMap, getKeyAsBytes_some, encodeToString, get?_single, getValueAsBytes]

end Veri
