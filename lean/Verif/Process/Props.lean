import Verif.Process.Inv
import Verif.Vector.SoftFloat
/-
Maintenance: C16, C26, C39-C43, C45-C47, C76, C77.
-/
set_option autoImplicit false
namespace Veri
open Gencoder Proc
open Store hiding Label

namespace Proc
set_option exponentiation.threshold 4000

/-! ### Example environment and executions -/

/-- Soft-float operations of the statistics. -/
def softS : SOps F32 F64 where
  one := 0x3F800000
  ofU64 n := SF.pk32 ⟨false, SF.roundRat SF.f32 (n.toNat * 2 ^ SF.f32.unit) 1⟩
  bucket d m :=
    let x := SF.mulN SF.f64 (SF.divN SF.f64 (SF.un64 d) (SF.un64 m)) (SF.un64 0x4050000000000000)
    if x.neg then -((SF.val SF.f64 x.mag / 2 ^ SF.f64.unit : Nat) : Int) else ((SF.val SF.f64 x.mag / 2 ^ SF.f64.unit : Nat) : Int)
  isZeroD x := decide (F64.mag x = 0)

/-- Soft-float environment. -/
def softP : PEnv where
  o := SF.ops id
  s := softS
  mark t u :=
    let x := SF.mulN SF.f64 (SF.un64 ((SF.ops id).ofNatD t.toNat)) (SF.un64 u)
    if x.neg then 0 else UInt64.ofNat (SF.val SF.f64 x.mag / 2 ^ SF.f64.unit)

def exD (n : UInt32) (v : UInt64) : Datum := ⟨some (exKey n), some (exVal v)⟩

/-- Target 1000, utilization `u`. -/
def exCfg (u : F64) : DataConfig := ⟨"example", 0, 1000, u, false, 0, false, 0⟩

def exInfo : DataInfo := ⟨"example", 0, 0, [], [], 1, 0, 1000, 0, false, 0, false, 0⟩

/-- Sources that do not expire during the examples. -/
def exSources (ids : List String) : AMap SourceId Int := ids.map fun id => (id, 1000000000000000)

/-- Two different data, one under two keys. -/
def exK (n : UInt32) : Bytes := encKey (exKey n)

/-- One datum with TTL 1000 and a first maintenance run, which counts it. -/
def exFirst (ids : List String) (ttl : UInt64) : List Label :=
  [.write (exD 1 1) (some ⟨ttl, 0⟩), .setSources (exSources ids), .run (fun _ => some exInfo) ids,
   .act 0 (.meet (exK 1)), .act 0 (.offer 0), .act 0 .endScan]

def exStart (u : F64) : PS := initial (Data.newData (exCfg u)) 1000

theorem exec_reach {β : Type} {P : PEnv} {W : Bool} {s0 : PS} {ls : List Label} {f : PS → β} {b : β}
    (h : (exec P W s0 ls).map f = some b) : ∃ s, Reach P W s0 s ∧ f s = b := by
  cases he : exec P W s0 ls with
  | none => rw [he] at h; cases h
  | some s => rw [he] at h; cases h; exact ⟨s, reach_exec ls .refl he, rfl⟩

end Proc

/-! ### C39, C76 -/

/-- C39.  When maintenance alone touches a data set: a step that removes an entry is the scan finding it expired, or the
consumer of a run being told by a live source that it accepted a copy of exactly this datum; no step changes or adds an
entry. -/
theorem C39_removed_only_if_accepted (P : PEnv) (dt : Data) (now : Int64) (hwf : WF0 dt.dbMap) (s s' : PS) (l : Label)
    (h : Reach P false (initial dt now) s) (hs : step P false s l = some s') (k : Bytes) (e : Entry)
    (hk : s.dt.dbMap.get? k = some e) :
    s'.dt.dbMap.get? k = some e ∨
    (s'.dt.dbMap.get? k = none ∧ isExpired e s.now = true) ∨
    (s'.dt.dbMap.get? k = none ∧ ∃ j id x, l = .act j (.contact true) ∧ s'.acks = s.acks ++ [⟨id, x⟩] ∧
      x.datum = e.datum ∧ liveSource s.now (s.dt.sources.getD []) id = true) := by
  have hmi := mapInv_reach hwf h
  have hdb : s.dt.initData.dbMap = s.dt.dbMap := Data.initData_dbMap _
  cases sstep_of hs with
  | setSources => left; rw [← hdb] at hk; exact hk
  | @act j i i' a dt' acks hj hst =>
    obtain ⟨_, h2⟩ := istep_map hst hwf hmi.sub (hmi.inst i (List.mem_of_getElem? hj))
    simp only
    rcases h2 with ⟨hd, _⟩ | ⟨k', e', hk', hx, hd, _⟩ | ⟨k', x, id, e', ha, hd, hacks, hk', hx, _, hl⟩
    · rw [hd]; exact .inl hk
    · rw [hd, AMap.get?_erase]
      by_cases hkk : k' = k
      · subst hkk
        rw [hk'] at hk
        cases hk
        rw [if_pos rfl]
        exact .inr (.inl ⟨rfl, hx⟩)
      · rw [if_neg hkk]; exact .inl hk
    · rw [hd, AMap.get?_erase]
      by_cases hkk : k' = k
      · subst hkk
        have := hmi.sub _ _ hk
        rw [this] at hk'
        cases hk'
        rw [if_pos rfl]
        exact .inr (.inr ⟨rfl, j, id, x, by rw [ha], hacks, hx.symm, hl⟩)
      · rw [if_neg hkk]; exact .inl hk
  | write hW _ => cases hW
  | delete hW _ => cases hW
  | _ => exact .inl hk

/-- C39, over a whole execution: every datum there at the beginning is still there, has expired, or has been accepted by a
peer; and nothing else is there. -/
theorem C39_no_datum_lost (P : PEnv) (dt : Data) (now : Int64) (hwf : WF0 dt.dbMap) (s : PS)
    (h : Reach P false (initial dt now) s) (k : Bytes) (e : Entry) :
    (dt.dbMap.get? k = some e → s.dt.dbMap.get? k = some e ∨ isExpired e s.now = true ∨
      ∃ a ∈ s.acks, a.item.datum = e.datum) ∧
    (s.dt.dbMap.get? k = some e → dt.dbMap.get? k = some e) :=
  ⟨(mapInv_reach hwf h).kept k e, (mapInv_reach hwf h).sub k e⟩

/-- C76, full statement: the same while clients write.  FALSE of the code: maintenance deletes by key, so it deletes
what a client has written under the key meanwhile. -/
def C76_no_update_lost_statement : Prop :=
  ∀ (P : PEnv) (c : DataConfig) (now : Int64) (s s' : PS) (l : Label), Reach P true (initial (Data.newData c) now) s →
    step P true s l = some s' → (∀ d, l ≠ .delete d) → ∀ (k : Bytes) (e : Entry), s.dt.dbMap.get? k = some e →
    s'.dt.dbMap.get? k = none → isExpired e s.now = true ∨ ∃ a ∈ s'.acks, a.item.datum = e.datum

/-- utilization 0.001: with target 1000 the mark is 1 -/
def Proc.exU : F64 := 0x3F50624DD2F1A9FC

/-- The second run queues the datum; then a client updates it; then the peer accepts the old one. -/
def Proc.exUpdate : List Label :=
  exFirst ["a"] 1000 ++
  [.tick 1100, .run (fun _ => some exInfo) ["a"], .act 1 (.meet (exK 1)), .act 1 (.offer 0), .act 1 .send,
   .write (exD 1 2) (some ⟨1000, 0⟩), .act 1 (.recv [("a", 1)])]

theorem C76_no_update_lost_fails : ¬ C76_no_update_lost_statement := by
  intro h
  have ht : ((exec softP true (exStart exU) exUpdate).bind fun s =>
      (step softP true s (.act 1 (.contact true))).map fun s' =>
        (s.dt.dbMap.get? (exK 1), s'.dt.dbMap.get? (exK 1), s.now, s'.acks.map (·.item.datum))) =
      some (some ⟨2100, exD 1 2⟩, none, 1100, [exD 1 1]) := by decide +kernel
  cases he : exec softP true (exStart exU) exUpdate with
  | none => rw [he] at ht; cases ht
  | some s =>
    rw [he] at ht
    simp only [Option.bind_some] at ht
    cases hs : step softP true s (.act 1 (.contact true)) with
    | none => rw [hs] at ht; cases ht
    | some s' =>
      rw [hs] at ht
      simp only [Option.map_some, Option.some.injEq, Prod.mk.injEq] at ht
      obtain ⟨h1, h2, h3, h4⟩ := ht
      rcases h softP (exCfg exU) 1000 s s' _ (reach_exec _ .refl he) hs (fun d hd => by cases hd) _ _ h1 h2 with hx | ⟨a, ha, hx⟩
      · rw [h3] at hx; exact absurd hx (by decide)
      · have : a.item.datum ∈ s'.acks.map (·.item.datum) := List.mem_map.2 ⟨a, ha, rfl⟩
        rw [h4, hx] at this
        exact absurd this (by decide)

theorem insertBDMap_keeps {now : Int64} {m m' : DBMap} {d : Datum} {config : Option InsertConfig} {b : Bool}
    (h : insertBDMap now m (some d) config = .ok (m', b)) (k : Bytes) (hk : m.get? k ≠ none) : m'.get? k ≠ none := by
  unfold insertBDMap at h
  simp only [Res.ofOption, Res.bind_eq, Res.bind_ok, Res.pure_eq] at h
  cases hg : getKeyAsBytes d with
  | none => rw [hg] at h; cases h
  | some kb =>
    rw [hg] at h
    simp only [Res.bind_ok] at h
    have hset : ∀ e, (m.set (encodeToString kb) e).get? k ≠ none := by
      intro e
      rw [AMap.get?_set]
      split
      · simp
      · exact hk
    split at h
    · rename_i oe hoe
      cases hv : getValueAsBytes d with
      | none => rw [hv] at h; cases h
      | some vb =>
        rw [hv] at h
        simp only [Res.bind_ok] at h
        cases hv2 : getValueAsBytes oe.datum with
        | none => rw [hv2] at h; cases h
        | some vb2 =>
          rw [hv2] at h
          simp only [Res.bind_ok] at h
          split at h
          · cases h; exact hk
          · cases h; exact hset _
    · cases h; exact hset _

/-- C76, what holds while clients write: apart from client deletes, an entry disappears only when it has expired, or when
a live source has just accepted a datum with its key. -/
theorem C76_no_update_lost_partial (P : PEnv) (s s' : PS) (l : Label) (hs : step P true s l = some s')
    (hl : ∀ d, l ≠ .delete d) (k : Bytes) (e : Entry) (hk : s.dt.dbMap.get? k = some e) (hk' : s'.dt.dbMap.get? k = none) :
    isExpired e s.now = true ∨ ∃ j id x, l = .act j (.contact true) ∧ s'.acks = s.acks ++ [⟨id, x⟩] ∧
      getKeyAsBytes x.datum = some k ∧ liveSource s.now (s.dt.sources.getD []) id = true := by
  have hdb : s.dt.initData.dbMap = s.dt.dbMap := Data.initData_dbMap _
  have hsame : s'.dt.dbMap.get? k = s.dt.dbMap.get? k → False := by
    intro h; rw [h, hk] at hk'; cases hk'
  cases sstep_of hs with
  | setSources => exact absurd (congrArg (AMap.get? · k) hdb) (fun h => hsame h)
  | @act j i i' a dt' acks hj hst =>
    cases hst with
    | @purge k2 e2 _ he2 _ hx =>
      simp only [AMap.get?_erase] at hk'
      split at hk'
      · rename_i hkk
        subst hkk
        rw [he2] at hk; cases hk
        exact .inl hx
      · rw [hk] at hk'; cases hk'
    | @evict c x id count rest k2 _ _ _ hlive _ hkb =>
      simp only [AMap.get?_erase] at hk'
      split at hk'
      · rename_i hkk
        subst hkk
        exact .inr ⟨j, id, x, rfl, rfl, hkb, hlive⟩
      · rw [hk] at hk'; cases hk'
    | _ => exact absurd rfl (fun h => hsame h)
  | write _ ho =>
    rcases Data.insert_cases _ _ _ _ _ _ _ _ ho with ⟨_, rfl⟩ | ⟨_, d, dc, m, b, hd, _, hm, hdata, _⟩
    · exact absurd rfl (fun h => hsame h)
    · cases hd
      simp only [hdata] at hk'
      exact absurd hk' (insertBDMap_keeps hm k (by rw [hk]; simp))
  | delete _ _ => exact absurd rfl (hl _)
  | _ => exact absurd rfl (fun h => hsame h)

/-! ### C40 -/

/-- C40, full statement: while the data set is open, the number of different data a run has removed is at most size - mark
+ 1.  FALSE of the code when the mark is zero: the difference wraps. -/
def C40_low_water_mark_statement : Prop :=
  ∀ (P : PEnv) (W : Bool) (c : DataConfig) (now : Int64) (s : PS), Reach P W (initial (Data.newData c) now) s →
    s.dt.alive = true → ∀ i ∈ s.insts, ∀ ks : List Bytes, ks.Nodup → (∀ k ∈ ks, k ∈ i.evicted) → ks ≠ [] →
    c.noTarget = false ∧ ks.length + (P.mark c.targetN c.targetUtilization).toNat ≤ i.localInfo.n.toNat + 1

/-- Size 1 when the run starts, two data more in the store, mark 0: all three go. -/
def Proc.exEvict : List Label :=
  exFirst ["a", "b", "c"] 1000 ++
  [.write (exD 2 1) (some ⟨1000, 0⟩), .write (exD 3 1) (some ⟨1000, 0⟩), .tick 1100,
   .run (fun _ => some exInfo) ["a", "b", "c"],
   .act 1 (.meet (exK 1)), .act 1 (.offer 0), .act 1 .send,
   .act 1 (.meet (exK 2)), .act 1 (.offer 0), .act 1 .send,
   .act 1 (.meet (exK 3)), .act 1 (.offer 0), .act 1 .send, .act 1 .endScan,
   .act 1 (.recv [("a", 1), ("b", 1), ("c", 1)]), .act 1 (.contact true), .act 1 (.contact false), .act 1 (.contact false),
   .act 1 .next,
   .act 1 (.recv [("a", 1), ("b", 1), ("c", 1)]), .act 1 (.contact true), .act 1 (.contact true), .act 1 (.contact false),
   .act 1 .next,
   .act 1 (.recv [("a", 1), ("b", 1), ("c", 1)]), .act 1 (.contact true), .act 1 (.contact true), .act 1 (.contact true)]

theorem C40_low_water_mark_fails : ¬ C40_low_water_mark_statement := by
  intro h
  have ht : (exec softP true (exStart 0) exEvict).map (fun s => (s.dt.alive, s.insts[1]?.map fun i => (i.evicted, i.localInfo.n))) =
      some (true, some ([exK 1, exK 2, exK 3], 1)) := by decide +kernel
  obtain ⟨s, hr, hf⟩ := exec_reach ht
  simp only [Prod.mk.injEq] at hf
  obtain ⟨h1, h3⟩ := hf
  cases hi : s.insts[1]? with
  | none => rw [hi] at h3; cases h3
  | some i =>
    rw [hi] at h3
    simp only [Option.map_some, Option.some.injEq, Prod.mk.injEq] at h3
    have := (h softP true (exCfg 0) 1000 s hr h1 i (List.mem_of_getElem? hi) [exK 1, exK 2, exK 3] (by decide +kernel)
      (by rw [h3.1]; exact fun _ h => h) (by simp)).2
    rw [h3.2] at this
    simp at this
    omega

/-- C40, what holds: with no target an open data set loses nothing to eviction, and with a mark above zero every run
deletes at most size - mark + 1 times, nothing at all if the size is below the mark. -/
theorem C40_low_water_mark_partial (P : PEnv) (W : Bool) (dt : Data) (c : DataConfig) (now : Int64)
    (hi : dt.initialized = true) (hc : dt.config = some c) (s : PS) (h : Reach P W (initial dt now) s)
    (ha : s.dt.alive = true) (i : Inst) (hin : i ∈ s.insts) :
    (c.noTarget = true → i.evicted = []) ∧
    (P.mark c.targetN c.targetUtilization ≠ 0 → i.evicted ≠ [] →
      i.evicted.length + (P.mark c.targetN c.targetUtilization).toNat ≤ i.localInfo.n.toNat + 1) := by
  have hb := (basic_reach hi h).2.2 i hin
  have hcfg := config_reach hi h i hin
  rw [hc] at hcfg
  cases hcfg
  refine ⟨hb.noTarget ha, fun hm hne => ?_⟩
  cases hcons : i.consumer with
  | none => exact absurd (hb.none hcons) hne
  | some c' =>
    obtain ⟨h1, h2⟩ := hb.evicted ha hm c' hcons
    have := h2.resolve_left hne
    omega

/-- C40: a step that removes a datum from an open data set (other than an expired one) starts with size - already removed
at or above the mark, in the 64-bit arithmetic of the code. -/
theorem C40_only_above_mark_partial (P : PEnv) (W : Bool) (s s' : PS) (j : Nat) (hs : step P W s (.act j (.contact true)) = some s')
    (ha : s.dt.alive = true) (hne : s'.dt.dbMap ≠ s.dt.dbMap) :
    ∃ i c, s.insts[j]? = some i ∧ i.consumer = some c ∧ i.config.noTarget = false ∧
      i.localInfo.n - c.deleted ≥ P.mark i.localInfo.targetN i.config.targetUtilization := by
  cases sstep_of hs with
  | @act j i i' a dt' acks hj hst =>
    cases hst with
    | @evict c x id count rest k hc _ _ _ hev _ =>
      rcases hev with hev | hev
      · rw [ha] at hev; cases hev
      · unfold isEvictionOn at hev
        simp only [Bool.and_eq_true, Bool.not_eq_true', decide_eq_true_eq] at hev
        exact ⟨i, c, hj, hc, hev.1, hev.2⟩
    | _ => exact absurd rfl hne

/-- C40 is not empty: with mark 1 and size 1, one datum is evicted. -/
theorem C40_example : ∃ s i, Reach softP true (initial (Data.newData (exCfg exU)) 1000) s ∧ s.dt.alive = true ∧
    i ∈ s.insts ∧ i.evicted = [exK 1] ∧ i.localInfo.n = 1 ∧ softP.mark 1000 exU = 1 := by
  have ht : (exec softP true (exStart exU) (exUpdate ++ [.act 1 (.contact true)])).map
      (fun s => (s.dt.alive, s.insts[1]?.map fun i => (i.evicted, i.localInfo.n))) = some (true, some ([exK 1], 1)) := by
    decide +kernel
  obtain ⟨s, hr, hf⟩ := exec_reach ht
  simp only [Prod.mk.injEq] at hf
  obtain ⟨h1, h3⟩ := hf
  cases hi : s.insts[1]? with
  | none => rw [hi] at h3; cases h3
  | some i =>
    rw [hi] at h3
    simp only [Option.map_some, Option.some.injEq, Prod.mk.injEq] at h3
    exact ⟨s, i, hr, h1, List.mem_of_getElem? hi, h3.1, h3.2, by decide +kernel⟩

/-! ### C41, C42 -/

/-- C41, full statement: when closing a data set with reachable sources gets to the end, every datum still in the store has
expired or was accepted by a peer.  FALSE of the code: `Close` trusts the size of the last run. -/
def C41_handover_statement : Prop :=
  ∀ (P : PEnv) (c : DataConfig) (now : Int64) (s s' : PS) (l : Label), Reach P true (initial (Data.newData c) now) s →
    s.closer = .loop → step P true s l = some s' → s'.closer = .done → ∀ (k : Bytes) (e : Entry),
    s'.dt.dbMap.get? k = some e → isExpired e s'.now = true ∨ ∃ a ∈ s'.acks, a.item.datum = e.datum

/-- Insert and close. -/
def Proc.exInsertClose : List Label :=
  [.write (exD 1 1) (some ⟨1000, 0⟩), .setSources (exSources ["a"]), .closeBegin]

theorem C41_handover_fails : ¬ C41_handover_statement := by
  intro h
  have ht : ((exec softP true (exStart 0) exInsertClose).bind fun s =>
      (step softP true s (.closeCheck (fun _ => none) [])).map fun s' =>
        (s.closer, s'.closer, s'.dt.dbMap.get? (exK 1), s'.now, s'.acks)) =
      some (.loop, .done, some ⟨2000, exD 1 1⟩, 1000, []) := by decide +kernel
  cases he : exec softP true (exStart 0) exInsertClose with
  | none => rw [he] at ht; cases ht
  | some s =>
    rw [he] at ht
    simp only [Option.bind_some] at ht
    cases hs : step softP true s (.closeCheck (fun _ => none) []) with
    | none => rw [hs] at ht; cases ht
    | some s' =>
      rw [hs] at ht
      simp only [Option.map_some, Option.some.injEq, Prod.mk.injEq] at ht
      obtain ⟨h1, h2, h3, h4, h5⟩ := ht
      rcases h softP (exCfg 0) 1000 s s' _ (reach_exec _ .refl he) h1 hs h2 _ _ h3 with hx | ⟨a, ha, _⟩
      · rw [h4] at hx; exact absurd hx (by decide)
      · rw [h5] at ha; cases ha

theorem Proc.closer_cases {P : PEnv} {W : Bool} {s s' : PS} {l : Label} (h : SStep P W s l s') (hl : s.closer = .loop)
    (hd : s'.closer = .done) : s.dt.n = 0 ∧ s'.dt = s.dt ∧ s'.acks = s.acks ∧ s'.now = s.now := by
  cases h with
  | closeBegin hc => rw [hl] at hc; cases hc
  | closeDone _ hn => exact ⟨hn, rfl, rfl, rfl⟩
  | closeReturn hc => rw [hl] at hc; cases hc
  | closeRun => cases hd
  | _ => exact absurd (hl.symm.trans hd) (by simp)

/-- C41, what holds: if nobody else writes from a time when the reported size is not zero, then closing with sources ends
only when the store is empty: every datum has expired or was accepted by a peer. -/
theorem C41_handover_partial (P : PEnv) (dt : Data) (now : Int64) (hi : dt.initialized = true) (hwf : WF0 dt.dbMap)
    (hlen : dt.dbMap.length < 2 ^ 64) (hn : dt.n ≠ 0) (s s' : PS) (l : Label) (h : Reach P false (initial dt now) s)
    (hl : s.closer = .loop) (hs : step P false s l = some s') (hd : s'.closer = .done) :
    s'.dt.dbMap = [] ∧ ∀ (k : Bytes) (e : Entry), dt.dbMap.get? k = some e →
      isExpired e s'.now = true ∨ ∃ a ∈ s'.acks, a.item.datum = e.datum := by
  obtain ⟨h1, h2, h3, h4⟩ := closer_cases (sstep_of hs) hl hd
  have hf : ∃ i ∈ s.insts, i.phase = .finished := by
    rcases n_before h with h | h
    · exact h
    · rw [h] at h1; exact absurd h1 hn
  have hempty : s.dt.dbMap = [] := by
    have := size_reach hi hwf hlen h hf
    rw [h1] at this
    exact List.eq_nil_of_length_eq_zero (Nat.le_zero.1 this)
  refine ⟨by rw [h2]; exact hempty, fun k e hk => ?_⟩
  rw [h4, h3]
  rcases (mapInv_reach hwf h).kept k e hk with h | h
  · rw [hempty] at h; cases h
  · exact h

/-- A data set with one datum (expiry `x`) and a reported size of one. -/
def Proc.exOne (x : Int64) : Data :=
  { Data.newData (exCfg 0) with dbMap := [(exK 1, ⟨x, exD 1 1⟩)], n := 1, sources := some (exSources ["a"]) }

theorem Proc.exOne_wf (x : Int64) : WF0 (exOne x).dbMap := by
  refine ⟨by simp [exOne, AMap.Nodup, AMap.keys], ?_⟩
  intro b e he
  simp only [exOne, List.mem_singleton, Prod.mk.injEq] at he
  obtain ⟨rfl, rfl⟩ := he
  exact ⟨exKey 1, rfl, rfl⟩

/-- C41 is not empty: a datum with an expiry is handed over, and `Close` returns. -/
theorem C41_example : ∃ s s' l, Reach softP false (initial (exOne 2000) 1000) s ∧ s.closer = .loop ∧
    step softP false s l = some s' ∧ s'.closer = .done ∧ s'.acks = [⟨"a", ⟨exD 1 1, ⟨1000, 1⟩⟩⟩] := by
  have ht : ((exec softP false (initial (exOne 2000) 1000)
      [.closeBegin, .closeCheck (fun _ => some exInfo) ["a"], .act 0 (.meet (exK 1)), .act 0 (.offer 0), .act 0 .send,
       .act 0 .endScan, .closeReturn, .act 0 (.recv [("a", 1)]), .act 0 (.contact true),
       .closeCheck (fun _ => some exInfo) ["a"], .act 1 .endScan, .closeReturn]).bind fun s =>
      (step softP false s (.closeCheck (fun _ => some exInfo) ["a"])).map fun s' => (s.closer, s'.closer, s'.acks)) =
      some (.loop, .done, [⟨"a", ⟨exD 1 1, ⟨1000, 1⟩⟩⟩]) := by decide +kernel
  generalize hls : [Label.closeBegin, Label.closeCheck (fun _ => some exInfo) ["a"], Label.act 0 (.meet (exK 1)), Label.act 0 (.offer 0), Label.act 0 .send,
       Label.act 0 .endScan, Label.closeReturn, Label.act 0 (.recv [("a", 1)]), Label.act 0 (.contact true),
       Label.closeCheck (fun _ => some exInfo) ["a"], Label.act 1 .endScan, Label.closeReturn] = ls at ht
  cases he : exec softP false (initial (exOne 2000) 1000) ls with
  | none => rw [he] at ht; cases ht
  | some s =>
    rw [he] at ht
    simp only [Option.bind_some] at ht
    cases hs : step softP false s (.closeCheck (fun _ => some exInfo) ["a"]) with
    | none => rw [hs] at ht; cases ht
    | some s' =>
      rw [hs] at ht
      simp only [Option.map_some, Option.some.injEq, Prod.mk.injEq] at ht
      exact ⟨s, s', _, reach_exec _ .refl he, ht.1, hs, ht.2.1, ht.2.2⟩

/-- C42, full statement, in its weakest form: a `Close` that has been called can still return.  FALSE of the code. -/
def C42_close_terminates_statement : Prop :=
  ∀ (P : PEnv) (dt : Data) (now : Int64), dt.initialized = true → WF0 dt.dbMap → ∀ s : PS,
    Reach P false (initial dt now) s → s.closer ≠ .idle → ∃ s', Reach P false s s' ∧ s'.closer = .done

/-- C42: with a source and a datum that has no expiry, `Close` never returns, whatever the peers, the clock and the
schedule do. -/
theorem C42_close_never_returns (P : PEnv) (dt : Data) (now : Int64) (hi : dt.initialized = true) (hwf : WF0 dt.dbMap)
    (hlen : dt.dbMap.length < 2 ^ 64) (hn : dt.n ≠ 0) (k : Bytes) (e : Entry) (hk : dt.dbMap.get? k = some e)
    (he : e.expireAt = 0) (s s' : PS) (h : Reach P false (initial dt now) s) (hl : s.closer = .loop)
    (h' : Reach P false s s') : s'.closer ≠ .done := by
  have key : ∀ t, Reach P false (initial dt now) t → t.dt.n ≠ 0 := by
    intro t ht h0
    rcases n_before ht with hf | hf
    · have h1 := size_reach hi hwf hlen ht hf
      have h2 := AMap.mem_of_get? (permanent_kept hwf hk he ht)
      rw [h0] at h1
      have := List.eq_nil_of_length_eq_zero (Nat.le_zero.1 h1)
      rw [this] at h2
      cases h2
    · rw [hf] at h0; exact hn h0
  have : s'.closer ≠ .done ∧ s'.closer ≠ .idle := by
    refine reach_inv (fun t => t.closer ≠ .done ∧ t.closer ≠ .idle) (by rw [hl]; simp) ?_ h'
    rintro t t' l hr ⟨h1, h2⟩ hs
    cases hs with
    | closeBegin hc => exact absurd hc h2
    | closeDone _ hn0 => exact absurd hn0 (key t (reach_trans h hr))
    | closeRun => exact ⟨by simp, by simp⟩
    | closeReturn => exact ⟨by simp, by simp⟩
    | _ => exact ⟨h1, h2⟩
  exact this.1

theorem C42_close_terminates_fails : ¬ C42_close_terminates_statement := by
  intro h
  have ht : (exec softP false (initial (exOne 0) 1000) [.closeBegin]).map (fun s => s.closer) = some .loop := by decide +kernel
  obtain ⟨s, hr, hf⟩ := exec_reach ht
  obtain ⟨s', h1, h2⟩ := h softP (exOne 0) 1000 rfl (exOne_wf 0) s hr (by rw [hf]; simp)
  exact C42_close_never_returns softP (exOne 0) 1000 rfl (exOne_wf 0) (by decide) (by decide) (exK 1) ⟨0, exD 1 1⟩
    (by simp [exOne, AMap.get?]) rfl s s' hr hf h1 h2

/-- C42, what holds: without sources `Close` returns at once, and with sources as soon as the size is zero; a closing run
that meets no datum makes it zero. -/
theorem C42_close_terminates_partial (P : PEnv) (W : Bool) (s : PS) :
    (s.closer = .idle → liveSources s.now (s.dt.sources.getD []) = [] →
      ∃ s', step P W s .closeBegin = some s' ∧ s'.closer = .done) ∧
    (s.closer = .loop → s.dt.n = 0 → ∀ infos order, ∃ s', step P W s (.closeCheck infos order) = some s' ∧ s'.closer = .done) ∧
    (∀ j i s', s.insts[j]? = some i → Basic P s.dt.alive i → i.met = [] → step P W s (.act j .endScan) = some s' → s'.dt.n = 0) := by
  refine ⟨fun hc hl => ?_, fun hc hn infos order => ?_, fun j i s' hj hb hm hs => ?_⟩
  · simp only [step, hc, hl, if_true, List.isEmpty_nil]
    exact ⟨_, rfl, rfl⟩
  · simp only [step, hc, hn, if_true]
    exact ⟨_, rfl, rfl⟩
  · cases sstep_of hs with
    | @act j i' i'' a dt' acks hj' hst =>
      rw [hj] at hj'
      cases hj'
      cases hst
      show i.stats.n = 0
      rw [hb.n, hm]
      rfl

/-! ### C43 -/

/-- Number of entries of a map that are alive at a time. -/
def Ref.liveCount (m : DBMap) (t : Int64) : Nat := (m.filter fun p => decide (p.2.expireAt = 0 ∨ t < p.2.expireAt)).length

theorem Proc.not_expired {e : Entry} {t : Int64} (h : isExpired e t = false) : e.expireAt = 0 ∨ t < e.expireAt := by
  simp only [isExpired, Bool.and_eq_false_iff, decide_eq_false_iff_not] at h
  rcases h with h | h
  · exact .inl (Classical.not_not.1 h)
  · right
    rw [Int64.lt_iff_toInt_lt]
    rw [Int64.le_iff_toInt_le] at h
    omega

/-- C43.  The size reported after a run, on a map that nobody else writes: at least everything in the store then, and at
most what was alive when the run began. -/
theorem C43_reported_size (P : PEnv) (dt : Data) (now : Int64) (hi : dt.initialized = true) (hwf : WF0 dt.dbMap)
    (hlen : dt.dbMap.length < 2 ^ 64) (s s' : PS) (j : Nat) (i : Inst) (h : Reach P false (initial dt now) s)
    (hj : s.insts[j]? = some i) (hs : step P false s (.act j .endScan) = some s') :
    s'.dt.n.toNat = i.met.length ∧ s'.dt.dbMap.length ≤ s'.dt.n.toNat ∧ s'.dt.n.toNat ≤ Ref.liveCount dt.dbMap i.began := by
  have hmi := mapInv_reach hwf h
  have hii := hmi.inst i (List.mem_of_getElem? hj)
  have hb := (basic_reach hi h).2.2 i (List.mem_of_getElem? hj)
  cases sstep_of hs with
  | @act j i' i'' a dt' acks hj' hst =>
    rw [hj] at hj'
    cases hj'
    cases hst with
    | endScan hp hall =>
      have h1 := (endScan_met hii hmi.wf hmi.sub (hall.resolve_left (by decide))).2
      have h2 := met_length_le hii
      have hn : i.stats.n.toNat = i.met.length := by
        rw [hb.n, UInt64.toNat_ofNat']; omega
      refine ⟨hn, by show s.dt.dbMap.length ≤ i.stats.n.toNat; omega, ?_⟩
      show i.stats.n.toNat ≤ _
      rw [hn]
      have := nodup_length_le (m := (dt.dbMap.filter fun p => decide (p.2.expireAt = 0 ∨ i.began < p.2.expireAt)).map (·.2))
        hii.nodup (fun e he => by
          obtain ⟨⟨k, hk, _⟩, hx⟩ := hii.metLive e he
          exact List.mem_map.2 ⟨(k, e), List.mem_filter.2 ⟨AMap.mem_of_get? hk, by simpa using not_expired hx⟩, rfl⟩)
      simpa [Ref.liveCount] using this

/-- C43.  If in addition nothing was handed over and nothing expired during the run, the reported size is the number of
live data. -/
theorem C43_reported_size_exact (P : PEnv) (dt : Data) (now : Int64) (hi : dt.initialized = true) (hwf : WF0 dt.dbMap)
    (hlen : dt.dbMap.length < 2 ^ 64) (s s' : PS) (j : Nat) (i : Inst) (h : Reach P false (initial dt now) s)
    (hj : s.insts[j]? = some i) (hs : step P false s (.act j .endScan) = some s') (hack : s.acks = [])
    (hexp : ∀ k e, dt.dbMap.get? k = some e → isExpired e s.now = isExpired e i.began) :
    s'.dt.n.toNat = Ref.liveCount dt.dbMap s.now := by
  obtain ⟨h1, h2, h3⟩ := C43_reported_size P dt now hi hwf hlen s s' j i h hj hs
  have hmi := mapInv_reach hwf h
  have hdb : s'.dt.dbMap = s.dt.dbMap := by
    cases sstep_of hs with
    | act _ hst => cases hst; rfl
  have hnow : Ref.liveCount dt.dbMap i.began = Ref.liveCount dt.dbMap s.now := by
    unfold Ref.liveCount
    congr 1
    apply List.filter_congr
    intro p hp
    have := hexp p.1 p.2 (AMap.get?_of_mem hwf.nodup hp)
    simp only [isExpired] at this
    have aux : ∀ t : Int64, decide (p.2.expireAt = 0 ∨ t < p.2.expireAt) = !(decide (p.2.expireAt ≠ 0) && decide (p.2.expireAt ≤ t)) := by
      intro t
      by_cases h0 : p.2.expireAt = 0
      · simp [h0]
      · simp only [h0, false_or, ne_eq, not_false_eq_true, decide_true, Bool.true_and]
        by_cases hle : p.2.expireAt ≤ t
        · have : ¬ t < p.2.expireAt := by
            rw [Int64.le_iff_toInt_le] at hle
            rw [Int64.lt_iff_toInt_lt]; omega
          simp [hle, this]
        · have : t < p.2.expireAt := by
            rw [Int64.le_iff_toInt_le] at hle
            rw [Int64.lt_iff_toInt_lt]; omega
          simp [hle, this]
    rw [aux, aux, this]
  rw [hnow] at h3
  have h4 : Ref.liveCount dt.dbMap s.now ≤ s.dt.dbMap.length := by
    have hnd : ((dt.dbMap.filter fun p => decide (p.2.expireAt = 0 ∨ s.now < p.2.expireAt)).map (·.1)).Nodup :=
      List.Nodup.sublist (List.Sublist.map _ List.filter_sublist) hwf.nodup
    have := nodup_length_le (m := s.dt.dbMap.map (·.1)) hnd (fun k hk => by
      obtain ⟨p, hp, rfl⟩ := List.mem_map.1 hk
      obtain ⟨hp, hlive⟩ := List.mem_filter.1 hp
      have hg := AMap.get?_of_mem hwf.nodup (show (p.1, p.2) ∈ dt.dbMap from hp)
      rcases hmi.kept _ _ hg with h | h | ⟨a, ha, _⟩
      · exact List.mem_map.2 ⟨_, AMap.mem_of_get? h, rfl⟩
      · simp only [isExpired, Bool.and_eq_true, decide_eq_true_eq] at h hlive
        rcases hlive with h0 | h0
        · exact absurd h0 h.1
        · rw [Int64.lt_iff_toInt_lt] at h0
          have := Int64.le_iff_toInt_le.1 h.2
          omega
      · rw [hack] at ha; cases ha)
    simpa [Ref.liveCount] using this
  rw [hdb] at h2
  omega

/-- C43.  In between, the reported size is the one of the last run, whatever anybody does. -/
theorem C43_reporting_between (P : PEnv) (W : Bool) (s s' : PS) (l : Label) (hs : step P W s l = some s')
    (hl : ∀ j, l ≠ .act j .endScan) (info : DataInfo) (hinfo : s'.dt.getDataInfo = .ok info) : info.n = s.dt.n := by
  have hn := n_const (sstep_of hs) hl
  unfold Data.getDataInfo at hinfo
  split at hinfo
  · cases hinfo
  · cases hinfo; exact hn

/-- C43 is not empty. -/
theorem C43_example : ∃ s s' i, Reach softP false (initial (exOne 2000) 1000) s ∧ s.insts[0]? = some i ∧
    step softP false s (.act 0 .endScan) = some s' ∧ s.acks = [] ∧ s.now = i.began ∧ s'.dt.n = 1 := by
  have ht : ((exec softP false (initial (exOne 2000) 1000)
      [.run (fun _ => none) ["a"], .act 0 (.meet (exK 1)), .act 0 (.offer 0)]).bind fun s =>
      (step softP false s (.act 0 .endScan)).map fun s' => (s.acks, s.now, s.insts[0]?.map (·.began), s'.dt.n)) =
      some ([], 1000, some 1000, 1) := by decide +kernel
  generalize hls : [Label.run (fun _ => none) ["a"], Label.act 0 (.meet (exK 1)), Label.act 0 (.offer 0)] = ls at ht
  cases he : exec softP false (initial (exOne 2000) 1000) ls with
  | none => rw [he] at ht; cases ht
  | some s =>
    rw [he] at ht
    simp only [Option.bind_some] at ht
    cases hs : step softP false s (.act 0 .endScan) with
    | none => rw [hs] at ht; cases ht
    | some s' =>
      rw [hs] at ht
      simp only [Option.map_some, Option.some.injEq, Prod.mk.injEq] at ht
      obtain ⟨h1, h2, h3, h4⟩ := ht
      cases hi : s.insts[0]? with
      | none => rw [hi] at h3; cases h3
      | some i =>
        rw [hi] at h3
        simp only [Option.map_some, Option.some.injEq] at h3
        exact ⟨s, s', i, reach_exec _ .refl he, hi, hs, h1, by rw [h2, h3], h4⟩

/-! ### C45 -/

theorem Proc.plan_mem (P : PEnv) (infos : SourceId → Option DataInfo) (loc : DataInfo) : ∀ (order : List SourceId)
    (fuel : Nat) (t : AMap SourceId UInt64 × UInt64), order.Nodup → (∀ id ∈ order, ∀ d, (id, d) ∉ t.1) →
    ∃ added, (Data.runOnSources (planSource P infos loc) ((fuel : Int) - 1) order t).1.1.Perm (added ++ t.1) ∧
      added = ((order.take fuel).filterMap fun id => (infos id).map fun info => (id, diffFor P loc info)) ∧
      (Data.runOnSources (planSource P infos loc) ((fuel : Int) - 1) order t).1.2 =
        (added.map (·.2)).foldl (· + ·) t.2 := by
  intro order
  induction order with
  | nil => intro fuel t _ _; exact ⟨[], by simp [Data.runOnSources]⟩
  | cons id ids ih =>
    intro fuel t hn ht
    obtain ⟨hid, hn⟩ := List.nodup_cons.1 hn
    simp only [Data.runOnSources]
    split
    · have : fuel = 0 := by omega
      subst this
      exact ⟨[], by simp⟩
    · obtain ⟨f', rfl⟩ : ∃ f', fuel = f' + 1 := ⟨fuel - 1, by omega⟩
      have hi : ((f' + 1 : Nat) : Int) - 1 - 1 = (f' : Int) - 1 := by omega
      rw [hi]
      cases hinfo : infos id with
      | none =>
        simp only [planSource, hinfo, List.take_succ_cons, List.filterMap_cons, Option.map_none]
        exact ih f' t hn (fun x hx => ht x (List.mem_cons_of_mem _ hx))
      | some info =>
        simp only [planSource, hinfo, List.take_succ_cons, List.filterMap_cons, Option.map_some]
        have herase : t.1.erase id = t.1 := AMap.erase_of_not_mem (fun hc => by
          obtain ⟨p, hp, rfl⟩ := List.mem_map.1 hc
          exact ht p.1 List.mem_cons_self p.2 hp)
        obtain ⟨added, h1, h2, h3⟩ := ih f' (t.1.set id (diffFor P loc info), t.2 + diffFor P loc info) hn (by
          intro x hx d hd
          rcases (AMap.mem_set _ _ _ _).1 hd with hd | ⟨hd, _⟩
          · cases hd; exact hid hx
          · exact ht x (List.mem_cons_of_mem _ hx) d hd)
        refine ⟨(id, diffFor P loc info) :: added, ?_, by rw [h2], ?_⟩
        · refine h1.trans ?_
          simp only [AMap.set, herase, List.cons_append]
          exact List.perm_middle
        · rw [h3]; rfl

/-- C45.  The plan of a run: one number for each of the first six sources that answer. -/
theorem C45_plan (P : PEnv) (infos : SourceId → Option DataInfo) (order : List SourceId) (loc : DataInfo)
    (hn : order.Nodup) (plan : AMap SourceId UInt64) (limit : UInt64)
    (h : dataSourceDiffMap P infos order loc = (plan, limit)) :
    plan.length ≤ 6 ∧
    (∀ id d, (id, d) ∈ plan ↔ id ∈ order.take 6 ∧ ∃ info, infos id = some info ∧ d = diffFor P loc info) ∧
    (∀ id d, (id, d) ∈ plan → d.toNat ≤ 1000) ∧
    limit.toNat = ((plan.map (·.2.toNat)).sum) := by
  have hb := plan_bounds P infos order loc
  rw [h] at hb
  obtain ⟨added, h1, h2, h3⟩ := plan_mem P infos loc order 6 ([], 0) hn (by simp)
  have hm : dataSourceDiffMap P infos order loc = (Data.runOnSources (planSource P infos loc) (((6 : Nat) : Int) - 1) order ([], 0)).1 := rfl
  rw [← hm, h] at h1 h3
  simp only [List.append_nil] at h1
  refine ⟨hb.len, ?_, fun id d hd => hb.le _ hd, ?_⟩
  · intro id d
    rw [h1.mem_iff, h2, List.mem_filterMap]
    constructor
    · rintro ⟨x, hx, he⟩
      cases hi : infos x with
      | none => rw [hi] at he; cases he
      | some info =>
        rw [hi] at he
        simp only [Option.map_some, Option.some.injEq, Prod.mk.injEq] at he
        obtain ⟨rfl, rfl⟩ := he
        exact ⟨hx, info, hi, rfl⟩
    · rintro ⟨hx, info, hi, rfl⟩
      exact ⟨id, hx, by rw [hi]; rfl⟩
  · have key : ∀ (l : List (SourceId × UInt64)) (acc : UInt64), acc.toNat + 1000 * l.length < 2 ^ 64 → (∀ p ∈ l, p.2.toNat ≤ 1000) →
        ((l.map (·.2)).foldl (· + ·) acc).toNat = acc.toNat + (l.map (·.2.toNat)).sum := by
      intro l
      induction l with
      | nil => intro acc _ _; rfl
      | cons p l ih =>
        intro acc hl hp
        have hp1 := hp p List.mem_cons_self
        simp only [List.length_cons] at hl
        have ha : (acc + p.2).toNat = acc.toNat + p.2.toNat := by
          rw [UInt64.toNat_add]; omega
        simp only [List.map_cons, List.foldl_cons, List.sum_cons]
        rw [ih (acc + p.2) (by omega) (fun q hq => hp q (List.mem_cons_of_mem _ hq)), ha]
        omega
    have hlen : added.length ≤ 6 := by rw [← h1.length_eq]; exact hb.len
    simp only at h3
    rw [h3, key added 0 (by have : (0 : UInt64).toNat = 0 := rfl; omega) (fun p hp => hb.le p (h1.mem_iff.2 hp))]
    have : (0 : UInt64).toNat = 0 := rfl
    rw [this, Nat.zero_add]
    exact ((h1.map (fun x : SourceId × UInt64 => x.2.toNat)).sum_nat).symm

/-- C45.  The number planned for a peer, for all sizes on both sides: half the difference plus one, at most 1000, and one
for a larger peer; for a peer with close statistics at most one. -/
theorem C45_planned_number (P : PEnv) (loc info : DataInfo) :
    (closeStats P loc info = false → (diffFor P loc info).toNat =
      if loc.n.toNat < info.n.toNat then 1 else min ((loc.n.toNat - info.n.toNat) / 2 + 1) 1000) ∧
    (closeStats P loc info = true → (diffFor P loc info).toNat ≤ 1) := by
  have h1 : (1 : UInt64).toNat = 1 := rfl
  have h0 : (0 : UInt64).toNat = 0 := rfl
  have hk : (1000 : UInt64).toNat = 1000 := rfl
  constructor
  · intro hc
    unfold diffFor
    simp only [hc, Bool.false_eq_true, if_false]
    by_cases hlt : loc.n.toNat < info.n.toNat
    · rw [if_pos (UInt64.lt_iff_toNat_lt.2 hlt), if_pos hlt, h1]
    · rw [if_neg (fun h => hlt (UInt64.lt_iff_toNat_lt.1 h)), if_neg hlt]
      have hs : (loc.n - info.n).toNat = loc.n.toNat - info.n.toNat :=
        UInt64.toNat_sub_of_le _ _ (UInt64.le_iff_toNat_le.2 (by omega))
      have h3 : ((loc.n - info.n) / 2 + 1).toNat = (loc.n.toNat - info.n.toNat) / 2 + 1 := by
        have := loc.n.toNat_lt
        rw [UInt64.toNat_add, UInt64.toNat_div]
        have h22 : (2 : UInt64).toNat = 2 := rfl
        rw [h22, h1, hs]
        omega
      split
      · rename_i h
        have := UInt64.lt_iff_toNat_lt.1 h
        rw [Nat.min_eq_left (by omega), h3]
      · rename_i h
        have : ¬ _ := fun hh => h (UInt64.lt_iff_toNat_lt.2 hh)
        rw [Nat.min_eq_right (by omega), hk]
  · intro hc
    unfold diffFor
    simp only [hc, if_true]
    repeat' split
    all_goals omega

/-- C45.  While the data set is open a run queues at most the planned total, and never more than 6000 data. -/
theorem C45_budget (P : PEnv) (W : Bool) (dt : Data) (now : Int64) (hi : dt.initialized = true) (s : PS)
    (h : Reach P W (initial dt now) s) (ha : s.dt.alive = true) (i : Inst) (hin : i ∈ s.insts) :
    i.sent.length ≤ i.limit.toNat ∧ i.limit.toNat ≤ 6000 := by
  have hb := (basic_reach hi h).2.2 i hin
  obtain ⟨h1, h2, _⟩ := hb.budget ha
  exact ⟨by omega, hb.limit⟩

/-- C45 is not empty: three of three planned. -/
theorem C45_example : ∃ s i, Reach softP true (initial (Data.newData (exCfg 0)) 1000) s ∧ s.dt.alive = true ∧
    i ∈ s.insts ∧ i.sent.length = 3 ∧ i.limit = 3 := by
  have ht : (exec softP true (exStart 0) exEvict).map (fun s => (s.dt.alive, s.insts[1]?.map fun i => (i.sent.length, i.limit))) =
      some (true, some (3, 3)) := by decide +kernel
  obtain ⟨s, hr, hf⟩ := exec_reach ht
  simp only [Prod.mk.injEq] at hf
  obtain ⟨h1, h3⟩ := hf
  cases hi : s.insts[1]? with
  | none => rw [hi] at h3; cases h3
  | some i =>
    rw [hi] at h3
    simp only [Option.map_some, Option.some.injEq, Prod.mk.injEq] at h3
    exact ⟨s, i, hr, h1, List.mem_of_getElem? hi, h3.1, h3.2⟩

/-! ### C46 -/

theorem Proc.expiry_shift (a s r : Int64) (h : (a.toUInt64 - s.toUInt64) ≠ 0) :
    Ref.expiry r (some ⟨a.toUInt64 - s.toUInt64, 1⟩) = a + (r - s) := by
  unfold Ref.expiry
  simp only [h, if_false]
  have : (a.toUInt64 - s.toUInt64).toInt64 = a - s := by
    rw [UInt64.toInt64_sub]
    rfl
  rw [this]
  grind

/-- C46.  Every copy a peer has accepted carries a configuration that marks it as a replica and makes it expire, at a
receiver whose clock is `r`, at the expiry of the original shifted by the time since the copy was made (64-bit arithmetic):
by the same second if the receiver's clock shows the time of the copy. -/
theorem C46_expiry_preserved (P : PEnv) (dt : Data) (now : Int64) (hwf : WF0 dt.dbMap) (s : PS)
    (h : Reach P false (initial dt now) s) (a : Ack) (ha : a ∈ s.acks) :
    ∃ k e t, dt.dbMap.get? k = some e ∧ e.datum = a.item.datum ∧ t ≤ s.now ∧ a.item.config.count = 1 ∧
      e.expireAt ≠ 0 ∧ ∀ r, Ref.expiry r (some a.item.config) = e.expireAt + (r - t) := by
  have key : ∀ a ∈ s.acks, Origin dt.dbMap s.now a.item := by
    refine reach_inv (fun s => ∀ a ∈ s.acks, Origin dt.dbMap s.now a.item) (by simp [initial]) ?_ h
    intro s s' l hr ih hs
    cases hs with
    | tick hn => exact fun a ha => (ih a ha).mono hn
    | @act j i i' a dt' acks hj hst =>
      have hii := (mapInv_reach hwf hr).inst i (List.mem_of_getElem? hj)
      cases hst with
      | evict hc hcur =>
        intro b hb
        rcases List.mem_append.1 hb with hb | hb
        · exact ih b hb
        · rw [List.mem_singleton.1 hb]; exact hii.cur _ _ _ hc hcur
      | copy hc hcur =>
        intro b hb
        rcases List.mem_append.1 hb with hb | hb
        · exact ih b hb
        · rw [List.mem_singleton.1 hb]; exact hii.cur _ _ _ hc hcur
      | _ => exact ih
    | write hW _ => cases hW
    | delete hW _ => cases hW
    | _ => exact ih
  obtain ⟨k, e, t, h1, h2, h3, h4, h5⟩ := key a ha
  have h0 : e.expireAt ≠ 0 := by
    intro h0
    rw [h4, h0] at h5
    simp only [insertConfigFromExpireAt] at h5
    rw [if_neg (by decide)] at h5
    exact absurd h5 (by decide)
  have hpos : e.expireAt.toUInt64 > 0 := by
    rw [gt_iff_lt, UInt64.pos_iff_ne_zero]
    intro hz
    exact h0 (by
      have : e.expireAt = e.expireAt.toUInt64.toInt64 := by simp
      rw [this, hz]; rfl)
  have hcfg : a.item.config = ⟨e.expireAt.toUInt64 - t.toUInt64, 1⟩ := by
    rw [h4]
    simp only [insertConfigFromExpireAt, hpos, if_true]
  refine ⟨k, e, t, h1, h2, h3, by rw [hcfg], h0, fun r => ?_⟩
  rw [hcfg]
  apply expiry_shift
  intro hz
  rw [hcfg] at h5
  simp only [hz] at h5
  exact absurd h5 (by decide)

/-- C46.  In the usual range the shift is exact: the copy outlives the original by exactly the transfer delay. -/
theorem C46_delay (x t r : Int64) (h1 : -2 ^ 63 ≤ x.toInt + (r.toInt - t.toInt)) (h2 : x.toInt + (r.toInt - t.toInt) < 2 ^ 63) :
    (x + (r - t)).toInt = x.toInt + (r.toInt - t.toInt) := by
  rw [Int64.toInt_add, Int64.toInt_sub, Int.add_bmod_bmod]
  apply Int.bmod_eq_of_le <;> omega

/-- C46.  A receiver does not forward such a copy. -/
theorem C46_not_forwarded {σ : Type} (now : Int64) (order : List SourceId) (call : Data.RemoteInsert σ) (dt : Data) (w : σ)
    (d : Datum) (ttl : UInt64) (out : Data.InsertOut σ)
    (h : Data.insert now order call dt w (some d) (some ⟨ttl, 1⟩) = .ok out) : out.world = w :=
  C19_replica_not_forwarded now order call dt w d ⟨ttl, 1⟩ (show (1 : UInt64) ≠ 0 by decide) out h

/-! ### C47 -/

/-- C47, full statement, with clock readings as integers.  FALSE of the code for a clock that has gone backwards. -/
def C47_throttled_statement : Prop :=
  ∀ (P : PEnv) (now : Int64) (infos : SourceId → Option DataInfo) (order : List SourceId) (dt dt' : Data) (i : Inst),
    begin P now false infos order dt = .ok (dt', some i) → now.toInt - dt.lastRunTimestamp.toNat ≥ 60

/-- C47, what holds: when the clock is not behind the last run, the run works exactly under the stated condition, and
otherwise it touches nothing but the time stamp and the dirty flag. -/
theorem C47_throttled_partial (P : PEnv) (now : Int64) (infos : SourceId → Option DataInfo) (order : List SourceId)
    (dt dt' : Data) (o : Option Inst) (h : begin P now false infos order dt = .ok (dt', o))
    (hclock : (dt.lastRunTimestamp.toNat : Int) ≤ now.toInt) :
    (o.isSome = true ↔ now.toInt - dt.lastRunTimestamp.toNat ≥ 60 ∧
      (dt.recentInsertCount.toNat > 0 ∨ (∃ info, dt.getDataInfo = .ok info ∧ (dataSourceDiffMap P infos order info).2.toNat > dt.n.toNat / 10) ∨
        now.toInt - dt.lastRunTimestamp.toNat ≥ 600)) ∧
    (o = none → dt' = { dt with timestamp := now.toUInt64, dirty := false }) := by
  obtain ⟨info, hinfo, _, hcase⟩ := begin_spec h
  have hn : info.n = dt.n := by
    unfold Data.getDataInfo at hinfo
    split at hinfo
    · cases hinfo
    · cases hinfo; rfl
  have hnow : (now.toUInt64.toNat : Int) = now.toInt := by
    have h0 : 0 ≤ now.toInt := by omega
    have := now.toInt_lt
    have h1 : now.toUInt64.toInt64.toInt = now.toInt := by simp
    rw [toInt_toInt64] at h1
    have := now.toUInt64.toNat_lt
    rw [Int.bmod_def] at h1
    split at h1 <;> omega
  have hle : dt.lastRunTimestamp ≤ now.toUInt64 := UInt64.le_iff_toNat_le.2 (by omega)
  have hsub : (now.toUInt64 - dt.lastRunTimestamp).toNat = now.toUInt64.toNat - dt.lastRunTimestamp.toNat :=
    UInt64.toNat_sub_of_le _ _ hle
  have h60 : (60 : UInt64).toNat = 60 := rfl
  have h600 : (600 : UInt64).toNat = 600 := rfl
  have h10 : (10 : UInt64).toNat = 10 := rfl
  have h00 : (0 : UInt64).toNat = 0 := rfl
  have hgate : gate false now.toUInt64 dt.lastRunTimestamp dt.recentInsertCount (dataSourceDiffMap P infos order info).2 info.n = true ↔
      now.toInt - dt.lastRunTimestamp.toNat ≥ 60 ∧
      (dt.recentInsertCount.toNat > 0 ∨ (dataSourceDiffMap P infos order info).2.toNat > dt.n.toNat / 10 ∨
        now.toInt - dt.lastRunTimestamp.toNat ≥ 600) := by
    simp only [gate, Bool.or_false, Bool.and_eq_true, Bool.or_eq_true, decide_eq_true_eq, ge_iff_le, gt_iff_lt,
      UInt64.le_iff_toNat_le, UInt64.lt_iff_toNat_lt, hsub, UInt64.toNat_div, h60, h600, h10, h00, hn]
    constructor
    · rintro ⟨h1, h2⟩; exact ⟨by omega, by omega⟩
    · rintro ⟨h1, h2⟩; exact ⟨by omega, by omega⟩
  have hex : (∃ info', dt.getDataInfo = .ok info' ∧ (dataSourceDiffMap P infos order info').2.toNat > dt.n.toNat / 10) ↔
      (dataSourceDiffMap P infos order info).2.toNat > dt.n.toNat / 10 := by
    constructor
    · rintro ⟨info', h1, h2⟩
      rw [hinfo] at h1; cases h1; exact h2
    · exact fun h => ⟨info, hinfo, h⟩
  rw [hex, ← hgate]
  rcases hcase with ⟨hg, hd, i, rfl, _⟩ | ⟨hg, hd, rfl⟩
  · exact ⟨by simp [hg], fun h => by cases h⟩
  · exact ⟨by simp [hg], fun _ => hd⟩

def Proc.startedOf : Res (Data × Option Inst) → Bool
  | .ok (_, some _) => true
  | _ => false

theorem C47_throttled_fails : ¬ C47_throttled_statement := by
  intro h
  have ht : startedOf (begin softP 1000 false (fun _ => none) [] { Data.newData (exCfg 0) with lastRunTimestamp := 2000, recentInsertCount := 1 }) = true := by
    decide +kernel
  generalize hb : begin softP 1000 false (fun _ => none) [] { Data.newData (exCfg 0) with lastRunTimestamp := 2000, recentInsertCount := 1 } = r at ht
  match r, ht with
  | .ok (dt', some i), _ =>
    have := h softP 1000 (fun _ => none) [] _ dt' i hb
    exact absurd this (by decide)

theorem insertBDMap_new {now : Int64} {m m' : DBMap} {datum : Option Datum} {config : Option InsertConfig} {b : Bool}
    (h : insertBDMap now m datum config = .ok (m', b)) : b = true ↔ m' ≠ m := by
  have set_ne : ∀ (k : Bytes) (e : Entry), m.get? k ≠ some e → m.set k e ≠ m := fun k e hne he =>
    hne (by rw [← he]; exact AMap.get?_set_self m k e)
  unfold insertBDMap at h
  cases datum with
  | none => cases h
  | some d =>
    cases hk : getKeyAsBytes d with
    | none => simp only [Bind.bind, Res.bind, Res.ofOption, hk] at h; cases h
    | some kb =>
      cases hg : m.get? (encodeToString kb) with
      | none =>
        simp only [Bind.bind, Res.bind, Res.ofOption, hk, hg, Pure.pure] at h
        injection h with h; injection h with h1 h2
        subst h1 h2
        exact ⟨fun _ => set_ne _ _ (by rw [hg]; simp), fun _ => rfl⟩
      | some old =>
        cases hv : getValueAsBytes d with
        | none => simp only [Bind.bind, Res.bind, Res.ofOption, hk, hg, hv] at h; cases h
        | some v =>
          cases hov : getValueAsBytes old.datum with
          | none => simp only [Bind.bind, Res.bind, Res.ofOption, hk, hg, hv, hov] at h; cases h
          | some ov =>
            simp only [Bind.bind, Res.bind, Res.ofOption, hk, hg, hv, hov, Pure.pure] at h
            split at h
            · injection h with h; injection h with h1 h2
              subst h1 h2
              simp
            · rename_i hne
              injection h with h; injection h with h1 h2
              subst h1 h2
              refine ⟨fun _ => set_ne _ _ ?_, fun _ => rfl⟩
              intro he
              rw [hg] at he
              injection he with he
              subst he
              simp only at hov
              rw [hv] at hov
              injection hov with hov
              exact hne ⟨hov, by simp [closeEnough]⟩

/-- C47: an insert counts exactly if it changes what is stored. -/
theorem C47_inserts_counted {σ : Type} (now : Int64) (order : List SourceId) (call : Data.RemoteInsert σ) (dt : Data) (w : σ)
    (datum : Option Datum) (config : Option InsertConfig) (out : Data.InsertOut σ)
    (h : Data.insert now order call dt w datum config = .ok out) :
    (out.data.dbMap ≠ dt.dbMap → out.data.recentInsertCount = dt.recentInsertCount + 1) ∧
    (out.data.dbMap = dt.dbMap → out.data.recentInsertCount = dt.recentInsertCount) := by
  have hinit : dt.initData.recentInsertCount = dt.recentInsertCount := by unfold Data.initData; split <;> rfl
  rcases Data.insert_cases now order call dt w datum config out h with ⟨_, rfl⟩ | ⟨_, d, dc, m, b, _, _, hm, hd, _⟩
  · exact ⟨fun hc => absurd rfl hc, fun _ => rfl⟩
  · have hb := insertBDMap_new hm
    rw [hd]
    simp only [hinit]
    cases b with
    | true => exact ⟨fun _ => rfl, fun hc => absurd hc (hb.1 rfl)⟩
    | false => exact ⟨fun hc => absurd (hb.2 hc) (by simp), fun _ => rfl⟩

/-- C47: an insert that changes what is stored makes a run due once 60 seconds have passed since the last one; and a run that is
not due does nothing with the inserts: they still count for the next one. -/
theorem C47_insert_makes_due {σ : Type} (tnow : Int64) (sorder : List SourceId) (call : Data.RemoteInsert σ) (dt : Data) (w : σ)
    (datum : Option Datum) (config : Option InsertConfig) (out : Data.InsertOut σ)
    (hins : Data.insert tnow sorder call dt w datum config = .ok out) (hch : out.data.dbMap ≠ dt.dbMap)
    (hmax : dt.recentInsertCount.toNat + 1 < 2^64)
    (P : PEnv) (now : Int64) (infos : SourceId → Option DataInfo) (order : List SourceId) (dt' : Data) (o : Option Inst)
    (h : begin P now false infos order out.data = .ok (dt', o)) (hclock : (out.data.lastRunTimestamp.toNat : Int) ≤ now.toInt) :
    (o.isSome = true ↔ now.toInt - out.data.lastRunTimestamp.toNat ≥ 60) ∧
    (o = none → dt'.recentInsertCount = out.data.recentInsertCount) := by
  have hpos : out.data.recentInsertCount.toNat > 0 := by
    rw [(C47_inserts_counted tnow sorder call dt w datum config out hins).1 hch, UInt64.toNat_add]
    simp
    omega
  obtain ⟨h1, h2⟩ := C47_throttled_partial P now infos order out.data dt' o h hclock
  refine ⟨h1.trans ⟨fun h => h.1, fun h => ⟨h, Or.inl hpos⟩⟩, fun ho => ?_⟩
  rw [h2 ho]

/-- C47: a run that works starts the count again. -/
theorem C47_count_restarts (P : PEnv) (now : Int64) (force : Bool) (infos : SourceId → Option DataInfo) (order : List SourceId)
    (dt dt' : Data) (i : Inst) (h : begin P now force infos order dt = .ok (dt', some i)) :
    dt' = { dt with recentInsertCount := 0 } := by
  obtain ⟨_, _, _, h | h⟩ := begin_spec h
  · exact h.2.1
  · exact absurd h.2.2 (by simp)

/-- C47 is not empty. -/
theorem C47_example :
    startedOf (begin softP 1000 false (fun _ => none) [] { Data.newData (exCfg 0) with lastRunTimestamp := 941, recentInsertCount := 1 }) = false ∧
    startedOf (begin softP 1000 false (fun _ => none) [] { Data.newData (exCfg 0) with lastRunTimestamp := 940, recentInsertCount := 1 }) = true ∧
    startedOf (begin softP 1000 false (fun _ => none) [] { Data.newData (exCfg 0) with lastRunTimestamp := 401 }) = false ∧
    startedOf (begin softP 1000 false (fun _ => none) [] { Data.newData (exCfg 0) with lastRunTimestamp := 400 }) = true := by
  decide +kernel

end Veri
